import Verif.Broker.Types
import Verif.Reader.Lemmas
/-!
The reader delivers the rows that it gets.
-/
namespace Verif.Broker
open Verif.Data Verif.Calendar Spec

/-! ### Rows -/

theorem row_shows {limit : Nat} {bs : Bytes} {xs : List Data} (h : ShowsRow False bs xs) (hl : bs.length ≤ limit) :
    ∃ xs', row limit bs = .ok xs' [] ∧ ShowsRow False bs xs' ∧ List.Forall₂ Near xs xs' := by
  obtain ⟨h1, bss, h2, rfl⟩ := h
  have hb : (big 4 xs.length ++ bss).length = 4 + bss.length := by simp [big]; omega
  obtain ⟨xs', e, s, n⟩ := showsAll_loop (limit := limit) h2 (bss.length + 1) [] (by omega) (by omega)
  refine ⟨xs', ?_, ⟨by rw [← n.length_eq]; exact h1, bss, s, by rw [← n.length_eq]⟩, n⟩
  rw [row, uintE_big 4 _ _ (by simpa using h1), Out.bind]
  simpa using e

theorem typed_near {type : Nat} {x y : Data} (h : Typed type x) (hn : Near x y) : Typed type y := by
  cases hn with
  | refl => exact h
  | time t u => cases h; exact .time u
  | duration t u => cases h; exact .interval u
  | list xs ys _ => cases h

theorem fits_near {type sub : Nat} {x y : Data} (h : Fits type sub x) (hn : Near x y) : Fits type sub y := by
  cases h with
  | plain _ h => exact .plain _ _ _ (typed_near h hn)
  | list xs ht h =>
    cases hn with
    | refl => exact .list _ _ _ ht h
    | list _ ys hf =>
      refine .list _ _ _ ht fun y hy => ?_
      obtain ⟨i, hi⟩ := List.getElem?_of_mem hy
      obtain ⟨x, hx, hxy⟩ := (forall2_get hf i).1 y hi
      exact typed_near (h x (List.mem_of_getElem? hx)) hxy

theorem forall2_comp {α β γ : Type} {R : α → β → Prop} {S : β → γ → Prop} {T : α → γ → Prop} (hT : ∀ a b c, R a b → S b c → T a c)
    {as : List α} {bs : List β} {cs : List γ} (h1 : List.Forall₂ R as bs) (h2 : List.Forall₂ S bs cs) : List.Forall₂ T as cs := by
  induction h1 generalizing cs with
  | nil => cases h2; exact .nil
  | cons h _ ih => cases h2 with
    | cons h' h2 => exact .cons (hT _ _ _ h h') (ih h2)

/-! ### Events -/

theorem logOf_snoc (k : Str) (es : List Event) (e : Event) : logOf k (es ++ [e]) =
    match e with
    | .create k' l => if k' = k then some l else logOf k es
    | .write _ _ => logOf k es := by
  induction es with
  | nil => cases e <;> simp [logOf]
  | cons e' es ih =>
    rw [List.cons_append, logOf.eq_def]
    simp only [ih]
    cases e with
    | create k' l =>
      simp only []
      by_cases hk : k' = k
      · simp only [if_pos hk]
      · simp only [if_neg hk]
        rw [logOf.eq_def k (e' :: es)]
    | write k' r => simp only []; rw [logOf.eq_def k (e' :: es)]

theorem logOf_near (k : Str) {es es' : List Event} (h : List.Forall₂ NearE es es') : logOf k es = logOf k es' := by
  induction h with
  | nil => rfl
  | cons h _ ih =>
    rw [logOf.eq_def, logOf.eq_def k (_ :: _)]
    simp only [ih]
    cases h <;> rfl

theorem orderly_create {es : List Event} {k : Str} {log : Log} (h : Orderly (es ++ [.create k log])) :
    Orderly es ∧ ∀ f ∈ log.2, ∃ t, TypeOf f.2.1 f.2.2 t := by
  generalize hx : es ++ [Event.create k log] = x at h
  cases h with
  | nil => simp at hx
  | create es' k' log' h1 h2 =>
    obtain ⟨rfl, h3⟩ := List.append_inj' hx rfl
    cases h3
    exact ⟨h1, h2⟩
  | write es' k' row h1 h2 =>
    obtain ⟨rfl, h3⟩ := List.append_inj' hx rfl
    cases h3

theorem orderly_write {es : List Event} {k : Str} {row : List Data} (h : Orderly (es ++ [.write k row])) :
    Orderly es ∧ ∀ log, logOf k es = some log → List.Forall₂ (fun f x => Fits f.2.1 f.2.2 x) log.2 row := by
  generalize hx : es ++ [Event.write k row] = x at h
  cases h with
  | nil => simp at hx
  | create es' k' log' h1 h2 =>
    obtain ⟨rfl, h3⟩ := List.append_inj' hx rfl
    cases h3
  | write es' k' row h1 h2 =>
    obtain ⟨rfl, h3⟩ := List.append_inj' hx rfl
    cases h3
    exact ⟨h1, h2⟩

theorem orderly_prefix {es : List Event} (fs : List Event) (h : Orderly (es ++ fs)) : Orderly es := by
  induction fs using List.reverseRecOn with
  | nil => simpa using h
  | append_singleton fs f ih =>
    rw [← List.append_assoc] at h
    cases f with
    | create k log => exact ih (orderly_create h).1
    | write k row => exact ih (orderly_write h).1

/-! ### The state -/

/-- What holds of the reader after some events. -/
structure Inv (m : Nat) (es : List Event) (s : State) : Prop where
  unknown : ∀ k, logOf k es = none → streamOf s.streams k = none
  known : ∀ k log, logOf k es = some log → ∃ l, streamOf s.streams k = some l ∧ LayoutOf log l
  rows : ∀ l, Written l es (Reader.rowsIn l s.out ++ Reader.rowsOf s.builders l)
  room : ∀ l, (Reader.rowsOf s.builders l).length < m
  size : ∀ x ∈ s.out, 1 ≤ x.2.length ∧ x.2.length ≤ m
  nodup : (s.builders.map Prod.fst).Nodup

theorem inv_init (m : Nat) (hm : 0 < m) : Inv m [] State.init :=
  ⟨fun _ _ => rfl, fun _ _ h => (by cases h), fun _ => .nil, fun _ => hm, fun _ h => (by cases h), .nil⟩

theorem finishOne_spec (s : State) (l : Layout) : (finishOne s l).streams = s.streams ∧
    (∀ k, Reader.rowsIn k (finishOne s l).out ++ Reader.rowsOf (finishOne s l).builders k =
      Reader.rowsIn k s.out ++ Reader.rowsOf s.builders k) ∧
    (finishOne s l).builders.map Prod.fst = s.builders.map Prod.fst ∧
    (∀ k, Reader.rowsOf (finishOne s l).builders k = if k = l then [] else Reader.rowsOf s.builders k) ∧
    (∀ x ∈ (finishOne s l).out, x ∈ s.out ∨ (1 ≤ x.2.length ∧ x.2.length = (Reader.rowsOf s.builders l).length)) := by
  rw [finishOne]
  split
  · rename_i h
    refine ⟨rfl, fun _ => rfl, rfl, fun k => ?_, fun x hx => .inl hx⟩
    split
    · rename_i hk; rw [hk]; exact h
    · rfl
  · rename_i h
    refine ⟨rfl, fun k => ?_, Reader.keys_clearRows _ _, fun k => Reader.rowsOf_clearRows _ _ _, fun x hx => ?_⟩
    · rw [Reader.rowsIn_append, Reader.rowsOf_clearRows, List.append_assoc]
      congr 1
      by_cases hk : k = l
      · subst hk; simp [Reader.rowsIn]
      · rw [if_neg hk]
        simp [Reader.rowsIn, Ne.symm hk]
    · rcases List.mem_append.mp hx with hx | hx
      · exact .inl hx
      · obtain rfl := List.mem_singleton.mp hx
        exact .inr ⟨List.length_pos_iff.mpr h, rfl⟩

/-- `finish` keeps the invariant; the builder may be full. -/
theorem finishOne_inv {m : Nat} {es : List Event} {s : State} {l : Layout} (hm : 0 < m)
    (unknown : ∀ k, logOf k es = none → streamOf s.streams k = none)
    (known : ∀ k log, logOf k es = some log → ∃ l, streamOf s.streams k = some l ∧ LayoutOf log l)
    (rows : ∀ l, Written l es (Reader.rowsIn l s.out ++ Reader.rowsOf s.builders l))
    (room : ∀ k, k ≠ l → (Reader.rowsOf s.builders k).length < m) (full : (Reader.rowsOf s.builders l).length ≤ m)
    (size : ∀ x ∈ s.out, 1 ≤ x.2.length ∧ x.2.length ≤ m) (nodup : (s.builders.map Prod.fst).Nodup) : Inv m es (finishOne s l) := by
  obtain ⟨h1, h2, h3, h4, h5⟩ := finishOne_spec s l
  refine ⟨by rw [h1]; exact unknown, by rw [h1]; exact known, fun k => by rw [h2]; exact rows k, fun k => ?_, fun x hx => ?_, by rw [h3]; exact nodup⟩
  · rw [h4]
    split
    · exact hm
    · rename_i hk; exact room k hk
  · rcases h5 x hx with hx | ⟨a, b⟩
    · exact size x hx
    · exact ⟨a, by omega⟩

theorem fold_inv {m : Nat} {es : List Event} (hm : 0 < m) (ls : List Layout) : ∀ s, Inv m es s → Inv m es (ls.foldl finishOne s) ∧
    (ls.foldl finishOne s).builders.map Prod.fst = s.builders.map Prod.fst ∧
    ∀ k, (k ∈ ls ∨ Reader.rowsOf s.builders k = []) → Reader.rowsOf (ls.foldl finishOne s).builders k = [] := by
  induction ls with
  | nil => intro s h; exact ⟨h, rfl, fun k hk => hk.elim (fun h => (by cases h)) id⟩
  | cons l ls ih =>
    intro s h
    obtain ⟨_, _, h3, h4, _⟩ := finishOne_spec s l
    obtain ⟨a, b, c⟩ := ih (finishOne s l) (finishOne_inv hm h.unknown h.known h.rows (fun k _ => h.room k) (Nat.le_of_lt (h.room l)) h.size h.nodup)
    refine ⟨a, b.trans h3, fun k hk => c k ?_⟩
    rw [h4]
    by_cases hkl : k = l
    · exact .inr (if_pos hkl)
    · rw [if_neg hkl]
      rcases hk with hk | hk
      · rcases List.mem_cons.mp hk with hk | hk
        · exact absurd hk hkl
        · exact .inl hk
      · exact .inr hk

theorem finishAll_inv {m : Nat} {es : List Event} {s : State} (hm : 0 < m) (h : Inv m es s) :
    Inv m es (finishAll s) ∧ ∀ k, Reader.rowsOf (finishAll s).builders k = [] := by
  obtain ⟨a, _, c⟩ := fold_inv hm (s.builders.map Prod.fst) s h
  refine ⟨a, fun k => c k ?_⟩
  by_cases hk : k ∈ s.builders.map Prod.fst
  · exact .inl hk
  · exact .inr (Reader.rowsOf_not_mem hk)

theorem ensure_spec (bs : List (Layout × List (List Data))) (l : Layout) (hn : (bs.map Prod.fst).Nodup) :
    ((ensure bs l).map Prod.fst).Nodup ∧ ∀ k, Reader.rowsOf (ensure bs l) k = Reader.rowsOf bs k := by
  rw [ensure]
  split
  · exact ⟨hn, fun _ => rfl⟩
  · rename_i h
    have hl : l ∉ bs.map Prod.fst := by
      intro hc
      obtain ⟨b, hb, rfl⟩ := List.mem_map.mp hc
      exact h (List.any_eq_true.mpr ⟨b, hb, by simp⟩)
    refine ⟨by rw [List.map_append]; exact List.nodup_append.mpr ⟨hn, by simp, by
      intro a ha b hb; simp at hb; subst hb; intro hc; subst hc; exact hl ha⟩, fun k => ?_⟩
    clear hn h hl
    induction bs with
    | nil =>
      simp only [List.nil_append, Reader.rowsOf]
      split <;> rfl
    | cons b bs ih =>
      obtain ⟨a, r⟩ := b
      simp only [List.cons_append, Reader.rowsOf, ih]

theorem streamOf_setStream (ss : List (Str × Layout)) (k j : Str) (l : Layout) :
    streamOf (setStream ss k l) j = if k = j then some l else streamOf ss j := by
  rw [streamOf, setStream, List.find?_cons]
  by_cases h : k = j
  · simp [h]
  · simp only [h, decide_false, if_false]
    rw [streamOf]
    congr 1
    induction ss with
    | nil => rfl
    | cons a ss ih =>
      rw [List.filter_cons]
      by_cases ha : a.1 = k
      · have : ¬ a.1 = j := fun hc => h (ha.symm.trans hc)
        rw [if_neg (by simpa using ha), List.find?_cons_of_neg (by simpa using this)]
        exact ih
      · simp only [ha, ne_eq, not_false_eq_true, decide_true, if_true, List.find?_cons]
        split
        · rfl
        · exact ih

/-! ### Messages -/

theorem create_step {m : Nat} {es : List Event} {s : State} {k : Str} {log : Log} {ds : List BData} {x : BData} (hm : 0 < m)
    (h : Inv m es s) (hd : List.Forall₂ FieldMsg log.2 ds) (ht : ∀ f ∈ log.2, ∃ t, TypeOf f.2.1 f.2.2 t) :
    ∃ s', onCreate s true k (.vector [.string log.1, .real, .real, .real, .table, x]) (.vector ds) = .ok s' ∧
      Inv m (es ++ [.create k log]) s' := by
  obtain ⟨cs, h1, h2⟩ := columns_some hd ht
  have hc : create true (.vector [.string log.1, .real, .real, .real, .table, x]) (.vector ds) = some (str "zeek." ++ log.1, cs) := by
    simp [create, h1]
  have hl : LayoutOf log (zeekify (str "zeek." ++ log.1, cs)) := layout_columns h2
  generalize zeekify (str "zeek." ++ log.1, cs) = l at hl hc
  have hz := layout_columns h2
  have hzl := layout_unique hz hl
  have base : ∀ s : State, Inv m es s → Inv m (es ++ [.create k log]) { s with streams := setStream s.streams k l, builders := ensure s.builders l } := by
    intro s h
    obtain ⟨e1, e2⟩ := ensure_spec s.builders l h.nodup
    refine ⟨fun j hj => ?_, fun j log' hj => ?_, fun l' => ?_, fun l' => ?_, h.size, e1⟩
    · rw [logOf_snoc] at hj
      rw [streamOf_setStream]
      simp only [] at hj
      split at hj
      · cases hj
      · rename_i hk
        rw [if_neg hk]
        exact h.unknown j hj
    · rw [logOf_snoc] at hj
      rw [streamOf_setStream]
      simp only [] at hj
      split at hj
      · rename_i hk
        cases hj
        exact ⟨l, if_pos hk, hl⟩
      · rename_i hk
        rw [if_neg hk]
        exact h.known j log' hj
    · simp only [e2]
      exact .create _ _ _ _ (h.rows l')
    · rw [e2]; exact h.room l'
  rw [onCreate, hc]
  simp only []
  rw [hzl]
  split
  · rename_i old ho
    split
    · rename_i ho'
      subst ho'
      refine ⟨_, rfl, fun j hj => ?_, fun j log' hj => ?_, fun l' => .create _ _ _ _ (h.rows l'), h.room, h.size, h.nodup⟩
      · rw [logOf_snoc] at hj
        simp only [] at hj
        split at hj
        · cases hj
        · exact h.unknown j hj
      · rw [logOf_snoc] at hj
        simp only [] at hj
        split at hj
        · rename_i hk
          subst hk
          cases hj
          exact ⟨_, ho, hl⟩
        · exact h.known j log' hj
    · exact ⟨_, rfl, base _ (finishOne_inv hm h.unknown h.known h.rows (fun k _ => h.room k) (Nat.le_of_lt (h.room old)) h.size h.nodup)⟩
  · exact ⟨_, rfl, base s h⟩

theorem accepts_all {l : Layout} {xs : List Data} (h : ∀ (i : Nat) c x, l.2[i]? = some c → xs[i]? = some x → accepts c.2 x = true) :
    (List.zipWith (fun c x => accepts c.2 x) l.2 xs).all id = true := by
  rw [List.all_eq_true]
  intro b hb
  obtain ⟨i, hi⟩ := List.getElem?_of_mem hb
  rw [List.getElem?_zipWith] at hi
  split at hi
  · rename_i c x hc hx
    cases hi
    exact h i c x hc hx
  · cases hi

theorem write_step {limit m : Nat} {es : List Event} {s : State} {k : Str} {bs : Bytes} {row' : List Data} (hm : 0 < m)
    (h : Inv m es s) (hr : row limit bs = .ok row' [])
    (hf : ∀ log, logOf k es = some log → List.Forall₂ (fun f x => Fits f.2.1 f.2.2 x) log.2 row') :
    ∃ s', onWrite limit m s k (.string bs) = .ok s' ∧ Inv m (es ++ [.write k row']) s' := by
  rw [onWrite]
  simp only [hr]
  have hlog : ∀ j, logOf j (es ++ [.write k row']) = logOf j es := fun j => logOf_snoc j es _
  cases hk : logOf k es with
  | none =>
    rw [h.unknown k hk]
    exact ⟨s, rfl, fun j => by rw [hlog]; exact h.unknown j, fun j => by rw [hlog]; exact h.known j,
      fun l => .unknown _ _ _ _ (h.rows l) hk, h.room, h.size, h.nodup⟩
  | some log =>
    obtain ⟨l, h1, h2⟩ := h.known k log hk
    have hfits := hf log hk
    rw [h1]
    simp only []
    rw [if_neg (by rw [h2.2.1, hfits.length_eq]; simp), if_pos (accepts_all fun i c x hc hx => ?_)]
    · have key : ∀ l', Written l' (es ++ [.write k row']) (Reader.rowsIn l' s.out ++ Reader.rowsOf (Reader.addRow s.builders l row') l') := by
        intro l'
        rw [Reader.rowsOf_addRow, ← List.append_assoc]
        by_cases hl : l' = l
        · subst hl
          rw [if_pos rfl]
          exact .row _ _ _ _ log (h.rows _) hk h2
        · rw [if_neg hl, List.append_nil]
          exact .elsewhere _ _ _ _ log (h.rows _) hk fun hc => hl (layout_unique hc h2)
      have hroom : ∀ l', l' ≠ l → (Reader.rowsOf (Reader.addRow s.builders l row') l').length < m := by
        intro l' hl
        rw [Reader.rowsOf_addRow, if_neg hl, List.append_nil]
        exact h.room l'
      have hfull : (Reader.rowsOf (Reader.addRow s.builders l row') l).length ≤ m := by
        rw [Reader.rowsOf_addRow, if_pos rfl, List.length_append]
        exact h.room l
      split
      · refine ⟨_, rfl, finishOne_inv hm ?_ ?_ key hroom hfull h.size (Reader.nodup_addRow h.nodup _ _)⟩
        · intro j; rw [hlog]; exact h.unknown j
        · intro j; rw [hlog]; exact h.known j
      · rename_i hlt
        refine ⟨_, rfl, ?_, ?_, key, ?_, h.size, Reader.nodup_addRow h.nodup _ _⟩
        · intro j; rw [hlog]; exact h.unknown j
        · intro j; rw [hlog]; exact h.known j
        · intro l'
          by_cases hl : l' = l
          · subst hl; exact Nat.lt_of_not_le hlt
          · exact hroom l' hl
    · obtain ⟨f, hf', hx'⟩ := (forall2_get hfits i).1 x hx
      exact column_accepts (h2.2.2 i c hc) hf' hx'

/-- Messages that keep to the protocol. -/
theorem dispatch_step {limit m : Nat} (hm : 0 < m) (hlim : 2 ^ 32 ≤ limit) {t : Tell} {x : Msg} (h : Sends t x) :
    ∀ es es' s, Orderly (es ++ flat t) → List.Forall₂ NearE es es' → Inv m es' s →
    ∃ t' s', Sends t' x ∧ dispatch limit m x s = .ok s' ∧ List.Forall₂ NearE (es ++ flat t) (es' ++ flat t') ∧ Inv m (es' ++ flat t') s' := by
  refine Sends.rec
    (motive_1 := fun t x _ => ∀ es es' s, Orderly (es ++ flat t) → List.Forall₂ NearE es es' → Inv m es' s →
      ∃ t' s', Sends t' x ∧ dispatch limit m x s = .ok s' ∧ List.Forall₂ NearE (es ++ flat t) (es' ++ flat t') ∧ Inv m (es' ++ flat t') s')
    (motive_2 := fun ts xs _ => ∀ es es' s, Orderly (es ++ flatAll ts) → List.Forall₂ NearE es es' → Inv m es' s →
      ∃ ts' s', SendsAll ts' xs ∧ dispatchAll limit m xs s = .ok s' ∧ List.Forall₂ NearE (es ++ flatAll ts) (es' ++ flatAll ts') ∧
        Inv m (es' ++ flatAll ts') s')
    ?_ ?_ ?_ ?_ ?_ ?_ h
  · intro k log ds x hd es es' s ho hn hi
    obtain ⟨s', h1, h2⟩ := create_step (k := k) (x := x) hm hi hd (orderly_create ho).2
    exact ⟨.create k log, s', .create k log ds x hd, by rw [dispatch]; exact h1, List.rel_append hn (.cons (.create k log) .nil), h2⟩
  · intro k row bs hr hb es es' s ho hn hi
    obtain ⟨row', e1, e2, e3⟩ := row_shows (limit := limit) hr (by omega)
    obtain ⟨s', h1, h2⟩ := write_step (k := k) hm hi e1 fun log hl =>
      forall2_comp (R := fun (f : Field) x => Fits f.2.1 f.2.2 x) (S := Near) (T := fun (f : Field) x => Fits f.2.1 f.2.2 x) (fun _ _ _ a b => fits_near a b) ((orderly_write ho).2 log (by rw [logOf_near k hn]; exact hl)) e3
    exact ⟨.write k row', s', .write k row' bs e2 hb, by rw [dispatch]; exact h1, List.rel_append hn (.cons (.write k _ _ e3) .nil), h2⟩
  · intro ts ms _ ih es es' s ho hn hi
    obtain ⟨ts', s', a, b, c, d⟩ := ih es es' s ho hn hi
    exact ⟨.batch ts', s', .batch _ _ a, by rw [dispatch]; exact b, c, d⟩
  · intro es es' s ho hn hi
    exact ⟨.other, s, .other, by rw [dispatch], by simpa [flat] using hn, by simpa [flat] using hi⟩
  · intro es es' s ho hn hi
    exact ⟨[], s, .nil, by rw [dispatchAll], by simpa [flatAll] using hn, by simpa [flatAll] using hi⟩
  · intro t ts x xs _ _ ih1 ih2 es es' s ho hn hi
    simp only [flatAll] at ho ⊢
    rw [← List.append_assoc] at ho
    obtain ⟨t', s1, a, b, c, d⟩ := ih1 es es' s (orderly_prefix _ ho) hn hi
    obtain ⟨ts', s2, a', b', c', d'⟩ := ih2 _ _ s1 ho c d
    refine ⟨t' :: ts', s2, .cons _ _ _ _ a a', ?_, ?_, ?_⟩
    · rw [dispatchAll, b]; exact b'
    · simpa [flatAll, List.append_assoc] using c'
    · simpa [flatAll, List.append_assoc] using d'

theorem dispatchAll_step {limit m : Nat} (hm : 0 < m) (hlim : 2 ^ 32 ≤ limit) {ts : List Tell} {xs : List Msg} (h : SendsAll ts xs)
    (es es' : List Event) (s : State) (ho : Orderly (es ++ flatAll ts)) (hn : List.Forall₂ NearE es es') (hi : Inv m es' s) :
    ∃ ts' s', SendsAll ts' xs ∧ dispatchAll limit m xs s = .ok s' ∧ List.Forall₂ NearE (es ++ flatAll ts) (es' ++ flatAll ts') ∧
        Inv m (es' ++ flatAll ts') s' := by
  obtain ⟨t', s', a, b, c, d⟩ := dispatch_step hm hlim (.batch ts xs h) es es' s ho hn hi
  cases a with
  | batch ts' _ a => exact ⟨ts', s', a, by simpa [dispatch] using b, c, d⟩

theorem reads_step {limit maxEvents m : Nat} (hm : 0 < m) (hlim : 2 ^ 32 ≤ limit) {tss : List (List Tell)} {xss : List (List Msg)}
    (h : List.Forall₂ SendsAll tss xss) : ∀ (es es' : List Event) (s : State), Orderly (es ++ (tss.map flatAll).flatten) →
    List.Forall₂ NearE es es' → Inv m es' s → (∀ k, Reader.rowsOf s.builders k = []) →
    ∃ tss' s', List.Forall₂ SendsAll tss' xss ∧ reads limit maxEvents m xss s = .done s' .ok ∧
      List.Forall₂ NearE (es ++ (tss.map flatAll).flatten) (es' ++ (tss'.map flatAll).flatten) ∧
      Inv m (es' ++ (tss'.map flatAll).flatten) s' ∧ ∀ k, Reader.rowsOf s'.builders k = [] := by
  induction h with
  | nil => intro es es' s ho hn hi he; exact ⟨[], s, .nil, rfl, by simpa using hn, by simpa using hi, he⟩
  | @cons ts xs tss xss h1 _ ih =>
    intro es es' s ho hn hi he
    simp only [List.map_cons, List.flatten_cons, ← List.append_assoc] at ho ⊢
    obtain ⟨ts', s1, a, b, c, d⟩ := dispatchAll_step hm hlim h1 es es' s (orderly_prefix _ ho) hn hi
    obtain ⟨d1, d2⟩ := finishAll_inv hm d
    obtain ⟨tss', s2, a', b', c', d', e'⟩ := ih _ _ (finishAll s1) ho c d1 d2
    refine ⟨ts' :: tss', s2, .cons a a', ?_, ?_, ?_, e'⟩
    · rw [reads, read, b]
      simp only []
      split
      · rename_i heq
        injection heq with e1 e2
        split at e2
        · cases e2
        · split at e2 <;> cases e2
      · rename_i heq
        injection heq with e1 e2
        subst e1
        exact b'
      · rename_i hx hy
        exact absurd rfl (hy _ _)
    · simpa [List.append_assoc] using c'
    · simpa [List.append_assoc] using d'

end Verif.Broker
