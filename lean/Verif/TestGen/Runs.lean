import Verif.TestGen.Lemmas
/-! Runs of the reader as chains of slices. -/
namespace Verif.TestGen
open Verif.DataText Verif.Data Spec

variable {S G : Type}

/-- What holds between two slices. -/
structure Inv (s : State S G) : Prop where
  next : s.next < s.entries.length
  good : ∀ e ∈ s.entries, Good e

/-- One slice of at most `L` events. -/
inductive Chain (rng : Rng S G) (L : Nat) : State S G → State S G → Prop
  | refl (s : State S G) : Chain rng L s s
  | step (s s' : State S G) (e : Entry S) (rows : List (List (Leaf S))) (v : Val S) (g : G)
      (he : s.entries[s.next]? = some e) (hf : fillRows rng e.type e.dists rows.length e.data s.gen = some (rows, v, g))
      (h0 : 0 < rows.length) (hL : rows.length ≤ L) (hn : rows.length ≤ s.num)
      (h : Chain rng L ⟨s.entries.set s.next { e with data := v }, if s.next + 1 = s.entries.length then 0 else s.next + 1,
        s.num - rows.length, g, s.out ++ [(s.next, rows)]⟩ s') : Chain rng L s s'

theorem Chain.trans {rng : Rng S G} {L : Nat} {a b c : State S G} (h : Chain rng L a b) (h' : Chain rng L b c) : Chain rng L a c := by
  induction h with
  | refl => exact h'
  | step s s' e rows v g he hf h0 hL hn _ ih => exact .step s c e rows v g he hf h0 hL hn (ih h')

theorem Chain.mono {rng : Rng S G} {L L' : Nat} (hl : L ≤ L') {a b : State S G} (h : Chain rng L a b) : Chain rng L' a b := by
  induction h with
  | refl => exact .refl _
  | step s s' e rows v g he hf h0 hL hn _ ih => exact .step s s' e rows v g he hf h0 (by omega) hn ih

theorem good_set {s : State S G} (hi : Inv s) {e : Entry S} (he : s.entries[s.next]? = some e) {v : Val S} (hv : Fits e.type v) :
    ∀ x ∈ s.entries.set s.next { e with data := v }, Good x := by
  intro x hx
  rcases List.mem_or_eq_of_mem_set hx with h | h
  · exact hi.good x h
  · subst h
    have := hi.good e (List.mem_of_getElem? he)
    exact ⟨this.record, hv, this.dists⟩

theorem Inv.step (rng : Rng S G) {s : State S G} (hi : Inv s) (n : Nat) : ∃ e rows v g, s.entries[s.next]? = some e ∧
    fillRows rng e.type e.dists n e.data s.gen = some (rows, v, g) ∧ rows.length = n ∧ Fits e.type v := by
  obtain ⟨e, he⟩ : ∃ e, s.entries[s.next]? = some e := ⟨_, List.getElem?_eq_getElem hi.next⟩
  have hg := hi.good e (List.mem_of_getElem? he)
  obtain ⟨rows, v, g, h1, h2, h3, _⟩ := fillRows_safe rng e.type e.dists (by rw [hg.dists]; omega) n e.data s.gen hg.fits
  exact ⟨e, rows, v, g, he, h1, h3, h2⟩

theorem Inv.after {s : State S G} (hi : Inv s) {e : Entry S} (he : s.entries[s.next]? = some e) {v : Val S} (hv : Fits e.type v)
    (num : Nat) (g : G) (out : List (Nat × List (List (Leaf S)))) :
    Inv ⟨s.entries.set s.next { e with data := v }, if s.next + 1 = s.entries.length then 0 else s.next + 1, num, g, out⟩ := by
  refine ⟨?_, good_set hi he hv⟩
  have := hi.next
  simp only [List.length_set]
  split <;> omega

/-- The loop is a chain of slices. -/
theorem loop_chain (rng : Rng S G) (M L : Nat) (hL : 0 < L) : ∀ (fuel produced : Nat) (s : State S G), Inv s → 0 < s.num → produced ≤ M →
    M - produced ≤ fuel → ∃ s'', Chain rng L s s'' ∧ (loop rng M L fuel produced s).2.out = s''.out ∧
      (((loop rng M L fuel produced s).1 = .ok ∧ (loop rng M L fuel produced s).2 = s'' ∧ s''.num + (M - produced) = s.num ∧ 0 < s''.num ∧
        Inv s'') ∨ ((loop rng M L fuel produced s).1 = .eof ∧ s''.num = 0 ∧ s.num ≤ M - produced))
  | 0, produced, s, hi, hn, hp, hf => by
    refine ⟨s, .refl s, rfl, .inl ⟨rfl, rfl, by omega, hn, hi⟩⟩
  | fuel + 1, produced, s, hi, hn, hp, hf => by
    rw [loop]
    by_cases hlt : produced < M
    · rw [if_pos hlt]
      obtain ⟨e, rows, v, g, he, hr, hlen, hv⟩ := hi.step rng (min s.num (min (M - produced) L))
      simp only [he]
      rw [if_neg (by omega)]
      simp only [hr]
      have hr' := hr
      rw [← hlen] at hr'
      by_cases heq : s.num = min s.num (min (M - produced) L)
      · rw [if_pos heq]
        refine ⟨_, .step s _ e rows v g he hr' (by omega) (by omega) (by omega) (.refl _), rfl, .inr ⟨rfl, ?_, by omega⟩⟩
        show s.num - rows.length = 0
        omega
      · rw [if_neg heq]
        have hinv := hi.after he hv (s.num - min s.num (min (M - produced) L)) g (s.out ++ [(s.next, rows)])
        obtain ⟨s'', h1, h2, h3⟩ := loop_chain rng M L hL fuel (produced + min s.num (min (M - produced) L)) _ hinv
          (show 0 < s.num - min s.num (min (M - produced) L) by omega) (by omega) (by omega)
        refine ⟨s'', ?_, h2, ?_⟩
        · refine .step s s'' e rows v g he hr' (by omega) (by omega) (by omega) ?_
          rw [hlen]; exact h1
        · rcases h3 with ⟨a, b, c, d, f⟩ | ⟨a, b, c⟩
          · refine .inl ⟨a, b, ?_, d, f⟩
            have c' : s''.num + (M - (produced + min s.num (min (M - produced) L))) = s.num - min s.num (min (M - produced) L) := c
            omega
          · refine .inr ⟨a, b, ?_⟩
            have c' : s.num - min s.num (min (M - produced) L) ≤ M - (produced + min s.num (min (M - produced) L)) := c
            omega
    · rw [if_neg hlt]
      exact ⟨s, .refl s, rfl, .inl ⟨rfl, rfl, by omega, hn, hi⟩⟩

/-- So is reading. -/
theorem read_chain (rng : Rng S G) (M L : Nat) (hM : 0 < M) (hL : 0 < L) (s : State S G) (hi : Inv s) (hn : 0 < s.num) :
    ∃ s'', Chain rng L s s'' ∧ (read rng M L s).2.out = s''.out ∧
      (((read rng M L s).1 = .ok ∧ (read rng M L s).2 = s'' ∧ s''.num + M = s.num ∧ 0 < s''.num ∧ Inv s'') ∨
        ((read rng M L s).1 = .eof ∧ s''.num = 0 ∧ s.num ≤ M)) := by
  have hne : s.entries.isEmpty = false := by
    have := hi.next
    cases h : s.entries with
    | nil => rw [h] at this; simp at this
    | cons => rfl
  have : read rng M L s = loop rng M L M 0 s := by
    unfold read
    rw [if_neg (by simp [hne]; omega), if_neg (by omega)]
  rw [this]
  simpa using loop_chain rng M L hL M 0 s hi hn (by omega) (by omega)

/-- And reading again and again. -/
theorem reads_chain (rng : Rng S G) : ∀ (cs : List (Nat × Nat)) (s : State S G), (∀ c ∈ cs, 0 < c.1 ∧ 0 < c.2) → Inv s → 0 < s.num →
    ∃ s'' L, Chain rng L s s'' ∧ (reads rng cs s).2.out = s''.out ∧
      (((reads rng cs s).1 = .ok ∧ (reads rng cs s).2 = s'' ∧ s''.num + (cs.map Prod.fst).sum = s.num ∧ 0 < s''.num ∧ Inv s'') ∨
        ((reads rng cs s).1 = .eof ∧ s''.num = 0 ∧ s.num ≤ (cs.map Prod.fst).sum))
  | [], s, _, hi, hn => ⟨s, 0, .refl s, rfl, .inl ⟨rfl, rfl, by simp, hn, hi⟩⟩
  | (M, L) :: cs, s, hc, hi, hn => by
    have h0 := hc (M, L) (by simp)
    obtain ⟨s1, h1, h2, h3⟩ := read_chain rng M L h0.1 h0.2 s hi hn
    rw [reads]
    rcases h3 with ⟨a, b, c, d, f⟩ | ⟨a, b, c⟩
    · obtain ⟨s2, L', k1, k2, k3⟩ := reads_chain rng cs s1 (fun x hx => hc x (by simp [hx])) f d
      have e : read rng M L s = (.ok, s1) := Prod.ext a b
      rw [e]
      refine ⟨s2, max L L', (h1.mono (by omega)).trans (k1.mono (by omega)), k2, ?_⟩
      simp only [List.map_cons, List.sum_cons]
      rcases k3 with ⟨a', b', c', d', f'⟩ | ⟨a', b', c'⟩
      · exact .inl ⟨a', b', by omega, d', f'⟩
      · exact .inr ⟨a', b', by omega⟩
    · have e : read rng M L s = (.eof, (read rng M L s).2) := Prod.ext a rfl
      rw [e]
      refine ⟨s1, L, h1, h2, .inr ⟨rfl, b, ?_⟩⟩
      simp only [List.map_cons, List.sum_cons]; omega

theorem Chain.total {rng : Rng S G} {L : Nat} {a b : State S G} (h : Chain rng L a b) : total b.out + b.num = total a.out + a.num := by
  induction h with
  | refl => rfl
  | step s s' e rows v g he hf h0 hL hn _ ih =>
    rw [ih]
    simp only [Spec.total, List.map_append, List.map_cons, List.map_nil, List.sum_append, List.sum_cons, List.sum_nil]
    omega

theorem Chain.slices {rng : Rng S G} {L : Nat} {a b : State S G} (h : Chain rng L a b) :
    ∃ add, b.out = a.out ++ add ∧ ∀ x ∈ add, 0 < x.2.length ∧ x.2.length ≤ L := by
  induction h with
  | refl => exact ⟨[], by simp⟩
  | step s s' e rows v g he hf h0 hL hn _ ih =>
    obtain ⟨add, h1, h2⟩ := ih
    refine ⟨(s.next, rows) :: add, by rw [h1]; simp, ?_⟩
    intro x hx
    cases hx with
    | head => exact ⟨h0, hL⟩
    | tail _ hx => exact h2 x hx

/-- The layouts take turns. -/
def Turns (s : State S G) : Prop :=
  s.next = s.out.length % s.entries.length ∧ ∀ (j : Nat) (x : Nat × List (List (Leaf S))), s.out[j]? = some x → x.1 = j % s.entries.length

theorem Chain.turns {rng : Rng S G} {L : Nat} {a b : State S G} (h : Chain rng L a b) (ht : Turns a) :
    Turns b ∧ b.entries.length = a.entries.length := by
  induction h with
  | refl => exact ⟨ht, rfl⟩
  | step s s' e rows v g he hf h0 hL hn _ ih =>
    have hlt : s.next < s.entries.length := (List.getElem?_eq_some_iff.1 he).1
    obtain ⟨h1, h2⟩ := ih (by
      refine ⟨?_, ?_⟩
      · simp only [List.length_set, List.length_append, List.length_cons, List.length_nil]
        have hq := Nat.div_add_mod s.out.length s.entries.length
        have hm := ht.1
        split
        · rename_i h1
          have : s.out.length + 1 = s.entries.length * (s.out.length / s.entries.length + 1) := by
            rw [Nat.mul_add, Nat.mul_one]; omega
          rw [this, Nat.mul_mod_right]
        · have : s.out.length + (0 + 1) = (s.next + 1) + s.entries.length * (s.out.length / s.entries.length) := by omega
          rw [this, Nat.add_mul_mod_self_left, Nat.mod_eq_of_lt (by omega)]
      · intro j x hx
        simp only [List.length_set]
        rw [List.getElem?_append] at hx
        split at hx
        · exact ht.2 j x hx
        · rename_i hj
          have : j = s.out.length := by
            have := (List.getElem?_eq_some_iff.1 hx).1
            simp at this; omega
          subst this
          simp only [Nat.sub_self, List.getElem?_cons_zero, Option.some.injEq] at hx
          rw [← hx]; exact ht.1)
    exact ⟨h1, by simpa using h2⟩

/-- The columns of the entries. -/
def types (s : State S G) : List Ty := s.entries.map Entry.type

theorem last_append (j : Nat) : ∀ (a b : List (Nat × List (List (Leaf S)))) (i : List (Leaf S)),
    last j i (a ++ b) = last j (last j i a) b
  | [], _, _ => rfl
  | (k, rows) :: a, b, i => by simp only [List.cons_append, last]; exact last_append j a b _

/-- The events of all slices so far, and the data that the next ones start from. -/
structure Hist (rng : Rng S G) (s : State S G) : Prop where
  data : ∀ (j : Nat) (e : Entry S), s.entries[j]? = some e → e.data.leaves = last j (start (cols (columns e.type))) s.out
  slices : ∀ pre j rows post, s.out = pre ++ (j, rows) :: post → ∃ t g, (types s)[j]? = some t ∧
    (Sampled (columns t) → rows = events rng (cols (columns t)) rows.length (last j (start (cols (columns t))) pre) g)

theorem Chain.hist {rng : Rng S G} {L : Nat} {a b : State S G} (h : Chain rng L a b) (hi : Inv a) (hh : Hist rng a) :
    Hist rng b ∧ types b = types a := by
  induction h with
  | refl => exact ⟨hh, rfl⟩
  | step s s' e rows v g he hf h0 hL hn _ ih =>
    have hg := hi.good e (List.mem_of_getElem? he)
    obtain ⟨rows', v', g', h1, h2, h3, h4⟩ := fillRows_safe rng e.type e.dists (by rw [hg.dists]; omega) rows.length e.data s.gen hg.fits
    rw [hf] at h1
    simp only [Option.some.injEq, Prod.mk.injEq] at h1
    obtain ⟨rfl, rfl, rfl⟩ := h1
    have ht : types (⟨s.entries.set s.next { e with data := v }, if s.next + 1 = s.entries.length then 0 else s.next + 1,
        s.num - rows.length, g, s.out ++ [(s.next, rows)]⟩ : State S G) = types s := by
      apply List.ext_getElem?
      intro j
      simp only [types, List.getElem?_map, List.getElem?_set]
      split
      · rename_i hj
        subst hj
        rw [he]
        split <;> simp_all
      · rfl
    have := ih (hi.after he h2 _ _ _) ⟨?_, ?_⟩
    · exact ⟨this.1, this.2.trans ht⟩
    · intro j x hx
      simp only [last_append, last]
      simp only [List.getElem?_set] at hx
      split at hx
      · rename_i hj
        subst hj
        split at hx
        · simp only [Option.some.injEq] at hx
          subst hx
          simp only [if_pos, h4]
          cases hr : rows.getLast? with
          | none => simp only [List.getLast?_eq_none_iff] at hr; simp [hr] at h0
          | some r => rfl
        · cases hx
      · rename_i hj
        rw [if_neg hj]
        exact hh.data j x hx
    · intro pre j rows' post h
      rw [ht]
      rcases List.eq_nil_or_concat post with rfl | ⟨p, z, rfl⟩
      · have := List.append_inj' h rfl
        simp only [List.cons.injEq, Prod.mk.injEq, and_true] at this
        obtain ⟨rfl, rfl, rfl⟩ := this
        refine ⟨e.type, s.gen, by simp [types, he], fun hs => ?_⟩
        rw [← hh.data _ _ he]
        rw [hg.dists] at hf
        exact fillRows_events rng e.type hs rows.length e.data s.gen hg.fits _ _ _ hf
      · have h' : s.out ++ [(s.next, rows)] = (pre ++ (j, rows') :: p) ++ [z] := by simpa using h
        have := List.append_inj' h' rfl
        exact hh.slices pre j rows' p this.1

theorem entriesOf_names : ∀ (sch : List (Str × Ty)) (es : List (Entry S)), entriesOf sch = some es →
    es.map (fun e => (e.name, e.type)) = sch.filter fun x => isTest x.1
  | [], es, h => by
    simp only [entriesOf, Option.some.injEq] at h
    subst h; rfl
  | (name, t) :: ts, es, h => by
    rw [entriesOf] at h
    split at h
    · rename_i hn
      simp only [Option.bind_eq_some_iff] at h
      obtain ⟨⟨v, ds⟩, h1, h2⟩ := h
      cases t with
      | leaf k a => cases h2
      | record fs =>
        simp only [Option.map_eq_some_iff] at h2
        obtain ⟨es', h3, rfl⟩ := h2
        simp [hn, entriesOf_names ts es' h3]
    · rename_i hn
      simp [hn, entriesOf_names ts es h]

/-- The reader with an accepted schema. -/
theorem setSchema_ok {sch : List (Str × Ty)} {n : Nat} {gen : G} {s : State S G} (h : setSchema sch (init n gen) = some s) :
    ∃ es : List (Entry S), entriesOf sch = some es ∧ es ≠ [] ∧ s = ⟨es, 0, if n = 0 then 2 ^ 64 - 1 else n, gen, []⟩ := by
  unfold setSchema at h
  split at h
  · cases h
  · simp only [Option.bind_eq_some_iff] at h
    obtain ⟨es, h1, h2⟩ := h
    split at h2
    · cases h2
    · rename_i hne
      simp only [Option.some.injEq] at h2
      exact ⟨es, h1, by intro h; simp [h] at hne, h2.symm⟩

theorem setSchema_inv (rng : Rng S G) {sch : List (Str × Ty)} {n : Nat} {gen : G} {s : State S G} (h : setSchema sch (init n gen) = some s) :
    Inv s ∧ 0 < s.num ∧ Turns s ∧ Hist rng s ∧ s.out = [] ∧ s.num = if n = 0 then 2 ^ 64 - 1 else n := by
  obtain ⟨es, h1, h2, rfl⟩ := setSchema_ok h
  refine ⟨⟨?_, fun e he => (entriesOf_ok sch es h1 e he).1⟩, ?_, ⟨by simp, by simp⟩, ⟨?_, ?_⟩, rfl, rfl⟩
  · exact List.length_pos_iff.2 h2
  · show 0 < if n = 0 then 2 ^ 64 - 1 else n
    split <;> omega
  · intro j e he
    exact (entriesOf_ok sch es h1 e (List.mem_of_getElem? he)).2
  · intro pre j rows post h
    simp at h

end Verif.TestGen
