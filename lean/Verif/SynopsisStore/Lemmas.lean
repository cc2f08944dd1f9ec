import Verif.SynopsisStore.Text
import Verif.SynopsisStore.Spec
import Verif.Synopsis.Props
/-! # Lemmas about the stored synopses -/
namespace Verif.SynopsisStore
open Verif.Data Verif.DataText Verif.Calendar Verif.Synopsis Spec

variable {env : Env} {Q : Rat → Prop} {W : Str → Prop}

theorem Res.bind_ok {α β : Type} {r : Res α} {f : α → Res β} {b : β} (h : r.bind f = .ok b) : ∃ a, r = .ok a ∧ f a = .ok b := by
  cases r with
  | ok a => exact ⟨a, rfl, h⟩
  | error => cases h
  | abort => cases h
  | undefined => cases h

/-- Types that Bloom filters are for. -/
def Bloomed (t : Ty) : Prop := t.alias = false ∧ (t.kind = .string ∨ t.kind = .address)

/-- What holds of each synopsis of a partition in which there are at most `N` values, when `Q` holds of the rates. -/
def Good (env : Env) (Q : Rat → Prop) (N : Nat) : Syn → Prop
  | .time _ _ => True
  | .bool _ _ => True
  | .bloom t f => Bloomed t ∧ (∃ n p g, parameters t = some (n, p) ∧ makeFilter env n p = .ok (some g)) ∧ 0 < f.k ∧ f.k < 2 ^ 32 ∧ f.bits ≠ []
  | .buffered t p data => Bloomed t ∧ Q p ∧ data.length ≤ N ∧ ∀ x ∈ data, t.elem.holds x = true

theorem good_mono {N M : Nat} (h : N ≤ M) {s : Syn} (hs : Good env Q N s) : Good env Q M s := by
  cases s with
  | time => trivial
  | bool => trivial
  | bloom => exact hs
  | buffered => exact ⟨hs.1, hs.2.1, Nat.le_trans hs.2.2.1 h, hs.2.2.2⟩

theorem makeFilter_ok (hk : Narrow env) {n : Nat} {p : Rat} {g : Filter} (h : makeFilter env n p = .ok (some g)) :
    0 < g.k ∧ g.k < 2 ^ 32 ∧ g.bits ≠ [] := by
  unfold makeFilter at h
  split at h
  · cases h
  · split at h
    · cases h
    · rename_i m k ha
      split at h
      · cases h
      · rename_i hz
        cases h
        refine ⟨by simp only; omega, hk _ _ _ _ ha, ?_⟩
        intro hb
        have := congrArg List.length hb
        simp at this
        omega

theorem makeWith_good (hk : Narrow env) {t : Ty} {n : Nat} {p : Rat} {s : Syn} (ht : t.kind = .string ∨ t.kind = .address)
    (hp : parameters t = some (n, p)) (h : makeWith env t n p = .ok (some s)) : Good env Q 0 s := by
  unfold makeWith at h
  split at h
  · cases h
  · rename_i ha
    obtain ⟨g, hg, h⟩ := Res.bind_ok h
    cases g with
    | none => cases h
    | some g =>
      cases h
      exact ⟨⟨by simpa using ha, ht⟩, ⟨n, p, g, hp, hg⟩, makeFilter_ok hk hg⟩

theorem parameters_annotate (t : Ty) {n : Nat} (hn : n < 2 ^ 64) {p : Rat} (hp : SixDecimals p) : parameters (annotate t n p) = some (n, p) := by
  obtain ⟨i, hi, rfl⟩ := hp
  have h := parse_annotate n hn (millionths_nonneg hi) (by rw [nearest_millionths hi]; exact hi)
  rw [nearest_millionths hi] at h
  unfold parameters annotate
  simp only [List.find?_cons, decide_true, Option.isSome_some, Bool.and_self, Option.bind_some]
  exact h

theorem six_default : SixDecimals (rnd (1 / 100)) := ⟨10000, by omega, by norm_num⟩

theorem makeBloomed_good (hk : Narrow env) {rate : Option Rat} (hr : Q (rate.getD (rnd (1 / 100)))) {cap : Option Nat}
    {t : Ty} {s : Syn} (ht : t.kind = .string ∨ t.kind = .address)
    (h : makeBloomed env cap rate true t = .ok (some s)) : Good env Q 0 s := by
  unfold makeBloomed at h
  split at h
  · cases h
  · rename_i ha
    split at h
    · rename_i n p hp
      exact makeWith_good hk ht hp h
    · split at h
      · cases h
      · simp only [if_true] at h
        cases h
        exact ⟨⟨by simpa using ha, ht⟩, hr, by simp, by simp⟩

/-- `Q` holds of the rates in the options. -/
def Rates (Q : Rat → Prop) (o : Opts) : Prop := Q (o.stringRate.getD (rnd (1 / 100))) ∧ Q (o.addressRate.getD (rnd (1 / 100)))

theorem rates_decimal {o : Opts} (ho : Decimal o) : Rates SixDecimals o := by
  constructor
  · cases h : o.stringRate with
    | none => exact six_default
    | some p => exact ho p (.inl h)
  · cases h : o.addressRate with
    | none => exact six_default
    | some p => exact ho p (.inr h)

theorem make_good (hk : Narrow env) {o : Opts} (ho : Rates Q o) (hb : o.buffered = true) {t : Ty} {s : Syn}
    (h : make env o t = .ok (some s)) : Good env Q 0 s := by
  unfold make at h
  split at h
  · split at h
    · cases h
    · cases h; trivial
  · cases h; trivial
  · rename_i ht
    rw [hb] at h
    exact makeBloomed_good hk ho.1 (.inl ht) h
  · rename_i ht
    rw [hb] at h
    exact makeBloomed_good hk ho.2 (.inr ht) h
  · cases h

theorem bloom_add {f : Filter} (hb : f.bits ≠ []) (x : Data) : ∃ u b, (f.bloom env).add x = some (u, b) ∧ b.bits ≠ [] := by
  have h := C20_defined [x] (f.bloom env) rfl hb
  simp only [Bloom.addAll] at h
  cases ha : (f.bloom env).add x with
  | none => rw [ha] at h; cases h
  | some r =>
    obtain ⟨u, b⟩ := r
    refine ⟨u, b, rfl, ?_⟩
    obtain ⟨_, _, h3, _⟩ := add_spec ha
    intro h0
    have := h3.1
    rw [h0] at this
    exact hb (List.eq_nil_of_length_eq_zero (this.symm))

theorem add_bloom (t : Ty) (f : Filter) (x : Data) : Syn.add env (.bloom t f) x = if t.elem.holds x then
      match (f.bloom env).add x with
      | none => .undefined
      | some (_, b) => .ok (.bloom t { f with bits := b.bits })
    else .abort := by
  cases x <;> rfl

theorem add_good {N : Nat} {s s' : Syn} {x : Data} (hs : Good env Q N s) (h : s.add env x = .ok s') : Good env Q (N + 1) s' := by
  unfold Syn.add at h
  split at h
  · cases h; trivial
  · cases h; trivial
  · rename_i t f _
    split at h
    · obtain ⟨u, b, ha, hb⟩ := bloom_add (env := env) hs.2.2.2.2 x
      rw [ha] at h
      cases h
      exact ⟨hs.1, hs.2.1, hs.2.2.1, hs.2.2.2.1, hb⟩
    · cases h
  · rename_i t p data _
    split at h
    · rename_i hx
      cases h
      refine ⟨hs.1, hs.2.1, ?_, ?_⟩
      · unfold bufferedAdd
        split
        · exact Nat.le_succ_of_le hs.2.2.1
        · simpa using hs.2.2.1
      · unfold bufferedAdd
        split
        · exact hs.2.2.2
        · intro y hy
          rcases List.mem_cons.mp hy with rfl | hy
          · exact hx
          · exact hs.2.2.2 y hy
    · cases h
  · cases h

theorem addAll_good {xs : List Data} : ∀ {N : Nat} {s s' : Syn}, Good env Q N s → s.addAll env xs = .ok s' → Good env Q (N + xs.length) s' := by
  induction xs with
  | nil => intro N s s' hs h; cases h; exact hs
  | cons x xs ih =>
    intro N s s' hs h
    obtain ⟨a, ha, h⟩ := Res.bind_ok h
    have := ih (add_good hs ha) h
    rw [List.length_cons, Nat.add_comm xs.length, ← Nat.add_assoc]
    exact this

theorem addAll_bloom {xs : List Data} : ∀ {t : Ty} {f : Filter} {s' : Syn}, Syn.addAll env (.bloom t f) xs = .ok s' → ∃ f', s' = .bloom t f' := by
  induction xs with
  | nil => intro t f s' h; cases h; exact ⟨f, rfl⟩
  | cons x xs ih =>
    intro t f s' h
    obtain ⟨a, ha, h⟩ := Res.bind_ok h
    rw [add_bloom] at ha
    split at ha
    · split at ha
      · cases ha
      · cases ha; exact ih h
    · cases ha

theorem addAll_defined {xs : List Data} : ∀ {t : Ty} {f : Filter}, f.bits ≠ [] → (∀ x ∈ xs, t.elem.holds x = true) →
    ∃ f', Syn.addAll env (.bloom t f) xs = .ok (.bloom t f') := by
  induction xs with
  | nil => intro t f _ _; exact ⟨f, rfl⟩
  | cons x xs ih =>
    intro t f hb hx
    obtain ⟨u, b, ha, hb'⟩ := bloom_add (env := env) hb x
    obtain ⟨f', h⟩ := ih (t := t) (f := { f with bits := b.bits }) hb' (fun y hy => hx y (List.mem_cons_of_mem _ hy))
    refine ⟨f', ?_⟩
    rw [Syn.addAll, add_bloom, if_pos (hx x (List.mem_cons_self ..)), ha]
    exact h

theorem power_bound (n : Nat) : ∀ p, 0 < p → nextPowerOfTwo n p ≤ max p (2 * n) := by
  intro p
  induction h : n - p using Nat.strongRecOn generalizing p with
  | _ d ih =>
    intro hp
    unfold nextPowerOfTwo
    split
    · rename_i hc
      have := ih (n - p * 2) (by omega) (p * 2) rfl (by omega)
      omega
    · omega

theorem power_pow (n : Nat) : ∀ j, ∃ i, nextPowerOfTwo n (2 ^ j) = 2 ^ i := by
  intro j
  induction h : n - 2 ^ j using Nat.strongRecOn generalizing j with
  | _ d ih =>
    unfold nextPowerOfTwo
    split
    · rename_i hc
      obtain ⟨i, hi⟩ := ih (n - 2 ^ (j + 1)) (by rw [Nat.pow_succ]; omega) (j + 1) rfl
      exact ⟨i, by rw [← hi, Nat.pow_succ]⟩
    · exact ⟨j, rfl⟩

theorem shrink_good (hq : ∀ p, Q p → SixDecimals p) (hk : Narrow env) {N : Nat} (hN : N < 2 ^ 63) {s s' : Syn} (hs : Good env Q N s) (h : s.shrink env = .ok s') : Good env Q N s' := by
  unfold Syn.shrink at h
  split at h
  · rename_i t p data
    obtain ⟨m, hm, h⟩ := Res.bind_ok h
    have hb := power_bound data.length 1 (by omega)
    have hn : nextPowerOfTwo data.length 1 < 2 ^ 64 := by have := hs.2.2.1; omega
    split at h
    · cases h; exact hs
    · rename_i s0
      have hg := makeWith_good (Q := Q) (t := annotate t (nextPowerOfTwo data.length 1) p) hk hs.1.2 (parameters_annotate t hn (hq _ hs.2.1)) hm
      unfold makeWith at hm
      split at hm
      · cases hm
      · obtain ⟨g, _, hm⟩ := Res.bind_ok hm
        cases g with
        | none => cases hm
        | some g =>
          cases hm
          obtain ⟨f', rfl⟩ := addAll_bloom h
          have := addAll_good hg h
          exact this
  · cases h; exact hs

/-! ### Maps -/

theorem assign_new {κ β : Type} [DecidableEq κ] (k : κ) (v : β) : ∀ (l : List (κ × β)), k ∉ l.map (·.1) → MetaIndex.assign k v l = l ++ [(k, v)] := by
  intro l
  induction l with
  | nil => intro _; rfl
  | cons a l ih =>
    intro h
    obtain ⟨k', v'⟩ := a
    simp only [List.map_cons, List.mem_cons, not_or] at h
    unfold MetaIndex.assign
    rw [if_neg (fun e => h.1 e.symm), ih h.2]
    rfl

theorem assign_keys {κ β : Type} [DecidableEq κ] (k : κ) (v : β) (l : List (κ × β)) :
    (MetaIndex.assign k v l).map (·.1) = if k ∈ l.map (·.1) then l.map (·.1) else l.map (·.1) ++ [k] := by
  induction l with
  | nil => rfl
  | cons a l ih =>
    obtain ⟨k', v'⟩ := a
    unfold MetaIndex.assign
    by_cases h : k' = k
    · subst h; simp
    · rw [if_neg h, List.map_cons, ih]
      have h' : ¬ k = k' := fun e => h e.symm
      by_cases hm : k ∈ l.map (·.1)
      · rw [if_pos hm, if_pos (by simp [hm])]; rfl
      · rw [if_neg hm, if_neg (by simpa [h'] using hm)]; rfl

theorem assign_mem {κ β : Type} [DecidableEq κ] {k : κ} {v : β} {l : List (κ × β)} {e : κ × β} (h : e ∈ MetaIndex.assign k v l) :
    e = (k, v) ∨ e ∈ l := by
  induction l with
  | nil => left; simpa [MetaIndex.assign] using h
  | cons a l ih =>
    obtain ⟨k', v'⟩ := a
    unfold MetaIndex.assign at h
    split at h
    · rename_i he
      subst he
      rcases List.mem_cons.mp h with h | h
      · exact .inl h
      · exact .inr (List.mem_cons_of_mem _ h)
    · rcases List.mem_cons.mp h with h | h
      · exact .inr (h ▸ List.mem_cons_self ..)
      · exact (ih h).imp id (List.mem_cons_of_mem _)

theorem find_mem {κ β : Type} [DecidableEq κ] {k : κ} {v : β} {l : List (κ × β)} (h : MetaIndex.find k l = some v) : (k, v) ∈ l := by
  induction l with
  | nil => cases h
  | cons a l ih =>
    obtain ⟨k', v'⟩ := a
    unfold MetaIndex.find at h
    split at h
    · rename_i he
      cases h
      subst he
      exact List.mem_cons_self ..
    · exact List.mem_cons_of_mem _ (ih h)

/-- What holds of the synopses of a partition. -/
structure Inv (env : Env) (Q : Rat → Prop) (W : Str → Prop) (N : Nat) (x : PartSyn) : Prop where
  fields : ∀ e ∈ x.fields, ∀ s, e.2 = some s → Good env Q N s
  types : ∀ e ∈ x.types, ∀ s, e.2 = some s → Good env Q N s
  named : ∀ e ∈ x.fields, W e.1.name
  keys : (x.fields.map (·.1)).Nodup
  tkeys : (x.types.map (·.1)).Nodup

theorem assign_nodup {κ β : Type} [DecidableEq κ] {k : κ} {v : β} {l : List (κ × β)} (h : (l.map (·.1)).Nodup) :
    ((MetaIndex.assign k v l).map (·.1)).Nodup := by
  rw [assign_keys]
  split
  · exact h
  · rename_i hk
    rw [List.nodup_append]
    refine ⟨h, by simp, ?_⟩
    intro a ha b hb
    rw [List.mem_singleton] at hb
    rintro rfl
    exact hk (hb ▸ ha)

theorem orMake_good (hk : Narrow env) {o : Opts} (ho : Rates Q o) (hb : o.buffered = true) {N : Nat} {t : Ty} {found : Option (Option Syn)} {r : Option Syn}
    (hf : ∀ s, found = some (some s) → Good env Q N s) (h : orMake env o t found = .ok r) : ∀ s, r = some s → Good env Q N s := by
  rintro s rfl
  unfold orMake at h
  split at h
  · cases h; exact hf s rfl
  · unfold makeSynopsis at h
    split at h
    · cases h
    · exact good_mono (Nat.zero_le _) (make_good hk ho hb h)

theorem addColumn_good {N : Nat} {values : List Data} {r r' : Option Syn} (hr : ∀ s, r = some s → Good env Q N s)
    (h : addColumn env values r = .ok r') : ∀ s, r' = some s → Good env Q (N + values.length) s := by
  rintro s rfl
  unfold addColumn at h
  split at h
  · cases h
  · obtain ⟨a, ha, h⟩ := Res.bind_ok h
    cases h
    refine good_mono ?_ (addAll_good (hr _ rfl) ha)
    exact Nat.add_le_add_left (List.length_filter_le _ _) _

theorem partAddColumn_inv (hk : Narrow env) {o : Opts} (ho : Rates Q o) (hb : o.buffered = true) {N : Nat} {layout : Str} {x y : PartSyn} {c : Column}
    (hc : W c.name) (hi : Inv env Q W N x) (h : x.addColumn env o layout c = .ok y) : Inv env Q W (N + c.values.length) y := by
  have mono : ∀ {s}, Good env Q N s → Good env Q (N + c.values.length) s := fun hs => good_mono (by omega) hs
  unfold PartSyn.addColumn at h
  simp only at h
  split at h
  · obtain ⟨a, ha, h⟩ := Res.bind_ok h
    obtain ⟨b, hb', h⟩ := Res.bind_ok h
    cases h
    have g1 := orMake_good hk ho hb (fun s hs => hi.types _ (find_mem hs) s rfl) ha
    have g2 := addColumn_good g1 hb'
    refine ⟨?_, ?_, ?_, assign_nodup hi.keys, assign_nodup hi.tkeys⟩
    · intro e he s hs
      rcases assign_mem he with rfl | he
      · cases hs
      · exact mono (hi.fields e he s hs)
    · intro e he s hs
      rcases assign_mem he with rfl | he
      · exact g2 s hs
      · exact mono (hi.types e he s hs)
    · intro e he
      rcases assign_mem he with rfl | he
      · exact hc
      · exact hi.named e he
  · obtain ⟨a, ha, h⟩ := Res.bind_ok h
    obtain ⟨b, hb', h⟩ := Res.bind_ok h
    cases h
    have g1 := orMake_good hk ho hb (fun s hs => hi.fields _ (find_mem hs) s rfl) ha
    have g2 := addColumn_good g1 hb'
    refine ⟨?_, ?_, ?_, assign_nodup hi.keys, hi.tkeys⟩
    · intro e he s hs
      rcases assign_mem he with rfl | he
      · exact g2 s hs
      · exact mono (hi.fields e he s hs)
    · intro e he s hs
      exact mono (hi.types e he s hs)
    · intro e he
      rcases assign_mem he with rfl | he
      · exact hc
      · exact hi.named e he

theorem add_inv (hk : Narrow env) {o : Opts} (ho : Rates Q o) (hb : o.buffered = true) {layout : Str} {cs : List Column} :
    ∀ {N : Nat} {x y : PartSyn}, (∀ c ∈ cs, W c.name) → Inv env Q W N x → foldRes (PartSyn.addColumn env o layout) x cs = .ok y →
      Inv env Q W (N + (cs.map fun c => c.values.length).sum) y := by
  induction cs with
  | nil => intro N x y _ hi h; cases h; exact hi
  | cons c cs ih =>
    intro N x y hc hi h
    obtain ⟨a, ha, h⟩ := Res.bind_ok h
    have := ih (fun c hc' => hc c (List.mem_cons_of_mem _ hc')) (partAddColumn_inv hk ho hb (hc c (List.mem_cons_self ..)) hi ha) h
    rw [List.map_cons, List.sum_cons, ← Nat.add_assoc]
    exact this

theorem filled_inv (hk : Narrow env) {o : Opts} (ho : Rates Q o) {slices : List Slice} (hn : ∀ s ∈ slices, ∀ c ∈ s.columns, W c.name) {x : PartSyn}
    (h : filled env o slices = .ok x) : Inv env Q W (amount slices) x := by
  have : ∀ (slices : List Slice) (N : Nat) (x y : PartSyn), (∀ s ∈ slices, ∀ c ∈ s.columns, W c.name) → Inv env Q W N x →
      foldRes (PartSyn.add env { o with buffered := true }) x slices = .ok y → Inv env Q W (N + amount slices) y := by
    intro slices
    induction slices with
    | nil => intro N x y _ hi h; cases h; exact hi
    | cons s slices ih =>
      intro N x y hn hi h
      obtain ⟨a, ha, h⟩ := Res.bind_ok h
      have := ih _ _ _ (fun s hs => hn s (List.mem_cons_of_mem _ hs))
        (add_inv hk (o := { o with buffered := true }) ho rfl (hn s (List.mem_cons_self ..)) hi ha) h
      rw [Nat.add_assoc] at this
      exact this
  have h0 := this slices 0 ⟨[], []⟩ x hn ⟨by simp, by simp, by simp, by simp, by simp⟩ h
  rwa [Nat.zero_add] at h0

/-! ### Shrinking -/

theorem mapRes_ok {κ α β : Type} {f : α → Res β} {l : List (κ × α)} : ∀ {l' : List (κ × β)}, mapRes f l = .ok l' →
    l'.map (·.1) = l.map (·.1) ∧ ∀ e' ∈ l', ∃ e ∈ l, e.1 = e'.1 ∧ f e.2 = .ok e'.2 := by
  induction l with
  | nil => intro l' h; cases h; simp
  | cons a l ih =>
    intro l' h
    obtain ⟨k, v⟩ := a
    obtain ⟨b, hb, h⟩ := Res.bind_ok h
    obtain ⟨r, hr, h⟩ := Res.bind_ok h
    cases h
    obtain ⟨h1, h2⟩ := ih hr
    refine ⟨by simp [h1], ?_⟩
    intro e' he'
    rcases List.mem_cons.mp he' with rfl | he'
    · exact ⟨(k, v), List.mem_cons_self .., rfl, hb⟩
    · obtain ⟨e, he, h⟩ := h2 e' he'
      exact ⟨e, List.mem_cons_of_mem _ he, h⟩

theorem mapRes_total {κ α β : Type} {f : α → Res β} {l : List (κ × α)} (h : ∀ e ∈ l, ∃ b, f e.2 = .ok b) : ∃ l', mapRes f l = .ok l' := by
  induction l with
  | nil => exact ⟨[], rfl⟩
  | cons a l ih =>
    obtain ⟨k, v⟩ := a
    obtain ⟨b, hb⟩ := h (k, v) (List.mem_cons_self ..)
    obtain ⟨l', hl⟩ := ih (fun e he => h e (List.mem_cons_of_mem _ he))
    exact ⟨(k, b) :: l', by rw [mapRes, show f v = .ok b from hb, Res.bind, hl]; rfl⟩

theorem shrinkOne_good (hq : ∀ p, Q p → SixDecimals p) (hk : Narrow env) {N : Nat} (hN : N < 2 ^ 63) {r r' : Option Syn} (hr : ∀ s, r = some s → Good env Q N s)
    (h : shrinkOne env r = .ok r') : ∀ s, r' = some s → Good env Q N s := by
  rintro s rfl
  unfold shrinkOne at h
  split at h
  · cases h
  · obtain ⟨a, ha, h⟩ := Res.bind_ok h
    cases h
    exact shrink_good hq hk hN (hr _ rfl) ha

theorem shrink_inv (hq : ∀ p, Q p → SixDecimals p) (hk : Narrow env) {N : Nat} (hN : N < 2 ^ 63) {x y : PartSyn} (hi : Inv env Q W N x) (h : x.shrink env = .ok y) : Inv env Q W N y := by
  obtain ⟨fs, hf, h⟩ := Res.bind_ok h
  obtain ⟨ts, ht, h⟩ := Res.bind_ok h
  cases h
  obtain ⟨f1, f2⟩ := mapRes_ok hf
  obtain ⟨t1, t2⟩ := mapRes_ok ht
  refine ⟨?_, ?_, ?_, by rw [f1]; exact hi.keys, by rw [t1]; exact hi.tkeys⟩
  · intro e' he' s hs
    obtain ⟨e, he, _, h⟩ := f2 e' he'
    exact shrinkOne_good hq hk hN (hi.fields e he) h s hs
  · intro e' he' s hs
    obtain ⟨e, he, _, h⟩ := t2 e' he'
    exact shrinkOne_good hq hk hN (hi.types e he) h s hs
  · intro e' he'
    obtain ⟨e, he, h1, _⟩ := f2 e' he'
    rw [← h1]
    exact hi.named e he

/-! ### Reading what was written -/

/-- Synopses with the same answers, which are written alike. -/
def Alike (env : Env) (s s' : Option Syn) : Prop := s'.map (·.lookup env) = s.map (·.lookup env) ∧ packOne s' = packOne s

theorem unpackOne_packed {N : Nat} {s : Option Syn} (hs : ∀ x, s = some x → Good env Q N x) {b : Packed} (h : packOne s = .ok b) :
    ∃ s', unpackOne env b = .ok s' ∧ Alike env s s' := by
  cases s with
  | none => cases h; exact ⟨none, rfl, rfl, rfl⟩
  | some x =>
    have hg := hs x rfl
    cases x with
    | time t m => cases h; exact ⟨_, rfl, rfl, rfl⟩
    | bool t m => cases h; exact ⟨_, rfl, rfl, rfl⟩
    | buffered t p data => cases h
    | bloom t f =>
      obtain ⟨⟨ha, hkind⟩, ⟨n, p, g, hp, hm⟩, hk0, hk, _⟩ := hg
      have hmod : f.k % 2 ^ 32 = f.k := Nat.mod_eq_of_lt hk
      cases h
      rw [hmod]
      have hmake : make env noOpts t = .ok (some (.bloom t g)) := by
        have hbl : ∀ rate, makeBloomed env noOpts.cap rate noOpts.buffered t = .ok (some (.bloom t g)) := by
          intro rate
          unfold makeBloomed makeWith
          simp only [ha, Bool.false_eq_true, if_false, hp, hm]
          rfl
        unfold make
        rcases hkind with hkd | hkd <;> simp only [hkd, hbl]
      refine ⟨some (.bloom t f), ?_, rfl, rfl⟩
      show (make env noOpts t).bind _ = _
      rw [hmake]
      simp only [Res.bind]
      rw [if_neg (by omega)]

theorem unpack_fields {N : Nat} {fs : List (Field × Option Syn)} : ∀ {x : PartSyn} {bs : List (Field × Packed)},
    (∀ e ∈ fs, ∀ s, e.2 = some s → Good env Q N s) → (∀ e ∈ fs, e.1.name ≠ []) → ((x.fields ++ fs).map (·.1)).Nodup →
    mapRes packOne fs = .ok bs → ∃ fs', foldRes (unpackStep env) x bs = .ok { x with fields := x.fields ++ fs' } ∧
      mapRes packOne fs' = .ok bs ∧
      fs'.map (fun e => (e.1, e.2.map (·.lookup env))) = fs.map (fun e => (e.1, e.2.map (·.lookup env))) := by
  induction fs with
  | nil => intro x bs _ _ _ h; cases h; exact ⟨[], by simp [foldRes], rfl, rfl⟩
  | cons a fs ih =>
    intro x bs hg hn hd h
    obtain ⟨k, s⟩ := a
    obtain ⟨b, hb, h⟩ := Res.bind_ok h
    obtain ⟨bs', hbs, h⟩ := Res.bind_ok h
    cases h
    obtain ⟨s', hu, h1, h2⟩ := unpackOne_packed (hg (k, s) (List.mem_cons_self ..)) hb
    have hnew : k ∉ x.fields.map (·.1) := by
      rw [List.map_append, List.nodup_append] at hd
      intro hk
      exact hd.2.2 k hk k (by simp) rfl
    have hstep : unpackStep env x (k, b) = .ok { x with fields := x.fields ++ [(k, s')] } := by
      unfold unpackStep
      simp only [hu, Res.bind]
      rw [if_pos (hn (k, s) (List.mem_cons_self ..)), assign_new _ _ _ hnew]
    obtain ⟨fs', hf, hpk, hlk⟩ := ih (x := { x with fields := x.fields ++ [(k, s')] }) (fun e he => hg e (List.mem_cons_of_mem _ he))
      (fun e he => hn e (List.mem_cons_of_mem _ he)) (by simpa using hd) hbs
    refine ⟨(k, s') :: fs', ?_, ?_, ?_⟩
    · rw [foldRes, hstep]
      simp only [Res.bind]
      rw [hf]
      simp
    · rw [mapRes, h2, hb]
      simp only [Res.bind]
      rw [hpk]
    · simp only [List.map_cons, hlk, h1]

theorem unpack_types {N : Nat} {ts : List (Ty × Option Syn)} : ∀ {x : PartSyn} {bs : List (Field × Packed)},
    (∀ e ∈ ts, ∀ s, e.2 = some s → Good env Q N s) → ((x.types ++ ts).map (·.1)).Nodup →
    mapRes packOne (ts.map fun e => (typeField e.1, e.2)) = .ok bs → ∃ ts', foldRes (unpackStep env) x bs = .ok { x with types := x.types ++ ts' } ∧
      mapRes packOne (ts'.map fun e => (typeField e.1, e.2)) = .ok bs ∧
      ts'.map (fun e => (e.1, e.2.map (·.lookup env))) = ts.map (fun e => (e.1, e.2.map (·.lookup env))) := by
  induction ts with
  | nil => intro x bs _ _ h; cases h; exact ⟨[], by simp [foldRes], rfl, rfl⟩
  | cons a ts ih =>
    intro x bs hg hd h
    obtain ⟨k, s⟩ := a
    obtain ⟨b, hb, h⟩ := Res.bind_ok h
    obtain ⟨bs', hbs, h⟩ := Res.bind_ok h
    cases h
    obtain ⟨s', hu, h1, h2⟩ := unpackOne_packed (hg (k, s) (List.mem_cons_self ..)) hb
    have hnew : k ∉ x.types.map (·.1) := by
      rw [List.map_append, List.nodup_append] at hd
      intro hk
      exact hd.2.2 k hk k (by simp) rfl
    have hstep : unpackStep env x (typeField k, b) = .ok { x with types := x.types ++ [(k, s')] } := by
      unfold unpackStep
      simp only [hu, Res.bind]
      rw [if_neg (by simp [typeField])]
      rw [show (typeField k).type = k from rfl, assign_new _ _ _ hnew]
    obtain ⟨ts', hf, hpk, hlk⟩ := ih (x := { x with types := x.types ++ [(k, s')] }) (fun e he => hg e (List.mem_cons_of_mem _ he))
      (by simpa using hd) hbs
    refine ⟨(k, s') :: ts', ?_, ?_, ?_⟩
    · rw [foldRes, hstep]
      simp only [Res.bind]
      rw [hf]
      simp
    · rw [List.map_cons, mapRes, h2, hb]
      simp only [Res.bind]
      rw [hpk]
    · simp only [List.map_cons, hlk, h1]

theorem foldRes_append {α β : Type} (f : β → α → Res β) (l l' : List α) : ∀ b, foldRes f b (l ++ l') = (foldRes f b l).bind fun b => foldRes f b l' := by
  induction l with
  | nil => intro b; rfl
  | cons a l ih =>
    intro b
    rw [List.cons_append, foldRes, foldRes]
    cases f b a with
    | ok c => exact ih c
    | error => rfl
    | abort => rfl
    | undefined => rfl

theorem unpackSome_ok {file : List (Field × Packed)} : ∀ {x y : PartSyn}, foldRes (unpackStep env) x file = .ok y → unpackSome env x file = .ok y := by
  induction file with
  | nil => intro x y h; exact h
  | cons e file ih =>
    intro x y h
    obtain ⟨a, ha, h⟩ := Res.bind_ok h
    rw [unpackSome, ha]
    exact ih h

theorem find_map {κ α β : Type} [DecidableEq κ] (f : α → β) (k : κ) (l : List (κ × α)) :
    MetaIndex.find k (l.map fun e => (e.1, f e.2)) = (MetaIndex.find k l).map f := by
  induction l with
  | nil => rfl
  | cons a l ih =>
    rw [List.map_cons, MetaIndex.find, MetaIndex.find]
    split
    · rfl
    · exact ih

/-- What was written is read again, and written alike. -/
theorem unpack_packed {N : Nat} {x : PartSyn} (hi : Inv env Q (· ≠ []) N x) {file : List (Field × Packed)} (hp : x.pack = .ok file) :
    ∃ y, unpack env file = .ok y ∧ y.answers env = x.answers env ∧ y.pack = .ok file ∧
      ∀ layout c, known env y layout c = known env x layout c := by
  obtain ⟨bs, hb, h⟩ := Res.bind_ok hp
  obtain ⟨cs, hc, h⟩ := Res.bind_ok h
  cases h
  obtain ⟨fs', hf, hpf, hlf⟩ := unpack_fields (x := ⟨[], []⟩) hi.fields hi.named (by simpa using hi.keys) hb
  obtain ⟨ts', ht, hpt, hlt⟩ := unpack_types (x := ⟨[] ++ fs', []⟩) hi.types (by simpa using hi.tkeys) hc
  refine ⟨⟨[] ++ fs', [] ++ ts'⟩, ?_, ?_, ?_, ?_⟩
  · unfold unpack
    rw [foldRes_append, hf]
    exact ht
  · unfold PartSyn.answers
    simp only [List.nil_append]
    have e1 := congrArg (List.map fun e : Field × Option (RelOp → Data → Option (Option Bool)) =>
      ((⟨e.1.layout, e.1.layout ++ [ch '.'] ++ e.1.name, e.1.type⟩ : MetaIndex.Field Ty), e.2)) hlf
    rw [List.map_map, List.map_map] at e1
    rw [hlt]
    exact congrArg (MetaIndex.PartSyn.mk · _) e1
  · unfold PartSyn.pack
    simp only [List.nil_append]
    rw [hpf]
    simp only [Res.bind]
    rw [hpt]
  · intro layout c
    unfold known
    simp only [List.nil_append]
    split
    · rw [← find_map, ← find_map, hlt]
    · rw [← find_map, ← find_map, hlf]

/-! ### Writing -/

theorem shrinkOne_written (hq : ∀ p, Q p → Feasible env p) {N : Nat} {r : Option Syn} (hr : ∀ s, r = some s → Good env Q N s) :
    ∃ r', shrinkOne env r = .ok r' ∧ ∃ b, packOne r' = .ok b := by
  cases r with
  | none => exact ⟨none, rfl, _, rfl⟩
  | some s =>
    have hs := hr s rfl
    cases s with
    | time => exact ⟨_, rfl, _, rfl⟩
    | bool => exact ⟨_, rfl, _, rfl⟩
    | bloom => exact ⟨_, rfl, _, rfl⟩
    | buffered t p data =>
      obtain ⟨⟨ha, _⟩, hp, _, hx⟩ := hs
      obtain ⟨h0, h1, hf⟩ := hq p hp
      obtain ⟨j, hj⟩ := power_pow data.length 0
      obtain ⟨m, k, hmk, hm, hk⟩ := hf j
      rw [← hj, Nat.pow_zero] at hmk
      have hn : nextPowerOfTwo data.length 1 ≠ 0 := by
        rw [Nat.pow_zero] at hj
        rw [hj]
        exact Nat.ne_of_gt (Nat.pow_pos (by omega))
      have hmf : makeFilter env (nextPowerOfTwo data.length 1) p = .ok (some ⟨k, 0, 1, List.replicate m false⟩) := by
        unfold makeFilter
        rw [if_neg (by rintro (h | h | h); exacts [hn h, absurd h (not_lt.mpr h0), absurd h (not_lt.mpr h1)]), hmk]
        simp only
        rw [if_neg (by omega)]
      obtain ⟨f', hadd⟩ := addAll_defined (env := env) (xs := data) (t := annotate t (nextPowerOfTwo data.length 1) p)
        (f := ⟨k, 0, 1, List.replicate m false⟩) (by intro h; have := congrArg List.length h; simp at this; omega) hx
      refine ⟨some (.bloom (annotate t (nextPowerOfTwo data.length 1) p) f'), ?_, _, rfl⟩
      have hal : (annotate t (nextPowerOfTwo data.length 1) p).alias = false := ha
      simp only [shrinkOne, Syn.shrink, makeWith, hal, hmf, Bool.false_eq_true, if_false, Res.bind, Option.map_some, hadd]

theorem written (hq : ∀ p, Q p → Feasible env p) {N : Nat} {x : PartSyn} (hi : Inv env Q W N x) :
    ∃ y file, x.shrink env = .ok y ∧ y.pack = .ok file := by
  obtain ⟨fs, hf⟩ := mapRes_total (f := shrinkOne env) (l := x.fields) (fun e he => by
    obtain ⟨r', h, _⟩ := shrinkOne_written hq (hi.fields e he); exact ⟨r', h⟩)
  obtain ⟨ts, ht⟩ := mapRes_total (f := shrinkOne env) (l := x.types) (fun e he => by
    obtain ⟨r', h, _⟩ := shrinkOne_written hq (hi.types e he); exact ⟨r', h⟩)
  obtain ⟨bs, hb⟩ := mapRes_total (f := packOne) (l := fs) (fun e' he' => by
    obtain ⟨e, he, _, h⟩ := (mapRes_ok hf).2 e' he'
    obtain ⟨r', h', b, hb⟩ := shrinkOne_written hq (hi.fields e he)
    rw [h] at h'
    cases h'
    exact ⟨b, hb⟩)
  obtain ⟨cs, hc⟩ := mapRes_total (f := packOne) (l := ts.map fun e => (typeField e.1, e.2)) (fun e0 he0 => by
    obtain ⟨e', he', rfl⟩ := List.mem_map.mp he0
    obtain ⟨e, he, _, h⟩ := (mapRes_ok ht).2 e' he'
    obtain ⟨r', h', b, hb⟩ := shrinkOne_written hq (hi.types e he)
    rw [h] at h'
    cases h'
    exact ⟨b, hb⟩)
  refine ⟨⟨fs, ts⟩, bs ++ cs, ?_, ?_⟩
  · unfold PartSyn.shrink
    rw [hf]
    simp only [Res.bind]
    rw [ht]
  · unfold PartSyn.pack
    simp only
    rw [hb]
    simp only [Res.bind]
    rw [hc]

end Verif.SynopsisStore
