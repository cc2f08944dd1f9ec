import Verif.Index.Hash

/-!
# C16: the hash index
-/

namespace Verif.Index

open Verif.Data (RelOp)
open Spec (Row)

namespace HashIndex

variable {α D : Type} [DecidableEq α] [DecidableEq D]

/-- The digest a stored value has. -/
def digestOf (hash : Option α → Nat → D) (s : HashIndex α D) (x : α) : D := findDigest hash s (some x)

/-- The index holds a column. -/
structure HashInv (hash : Option α → Nat → D) (s : HashIndex α D) (col : List (Option α)) : Prop where
  digests : s.digests = (col.filterMap id).map (digestOf hash s)
  known : ∀ x, some x ∈ col ↔ ∃ j, s.findSeed x = some j
  bound : ∀ x j, s.findSeed x = some j → j < maxHashRounds
  unique : ∀ d, d ∈ s.unique ↔ ∃ x, some x ∈ col ∧ d = digestOf hash s x
  inj : ∀ x y, some x ∈ col → some y ∈ col → digestOf hash s x = digestOf hash s y → x = y
  zero : ∀ x, some x ∈ col → hash (some x) 0 ∈ s.unique
  keys : ∀ x k, (x, k) ∈ s.seeds → s.findSeed x = some k

theorem hashInv_make (hash : Option α → Nat → D) : HashInv hash (make : HashIndex α D) [] := by
  refine ⟨rfl, ?_, ?_, ?_, ?_, ?_, ?_⟩ <;> simp [make, findSeed]

theorem findSeed_cons (s : HashIndex α D) (x y : α) (i : Nat) (u ds : List D) :
    (⟨ds, u, (x, i) :: s.seeds⟩ : HashIndex α D).findSeed y = if y = x then some i else s.findSeed y := by
  simp only [findSeed, List.lookup_cons]
  by_cases h : y = x
  · subst h; simp
  · rw [if_neg h, beq_false_of_ne h]

theorem digestOf_known {hash : Option α → Nat → D} {s : HashIndex α D} {x : α} {j : Nat} (h : s.findSeed x = some j) :
    digestOf hash s x = hash (some x) j := by
  simp only [digestOf, findDigest, h]

/-- A value already seen. -/
theorem makeDigest_known {hash : Option α → Nat → D} {s : HashIndex α D} {col : List (Option α)} (h : HashInv hash s col)
    {x : α} (hx : some x ∈ col) : makeDigest hash s x = some (digestOf hash s x, s) := by
  obtain ⟨j, hj⟩ := (h.known x).1 hx
  have hc : s.unique.contains (hash (some x) 0) = true := List.contains_iff_mem.2 (h.zero x hx)
  rw [makeDigest, maxHashRounds, makeDigestLoop, hc, hj, digestOf_known hj]
  simp

/-- A value never seen. -/
theorem makeDigestLoop_new {hash : Option α → Nat → D} {s : HashIndex α D} {x : α} (hx : s.findSeed x = none) :
    ∀ n i, (makeDigestLoop hash x n i s = none ∧ ∀ j, i ≤ j → j < i + n → hash (some x) j ∈ s.unique) ∨
      ∃ j, i ≤ j ∧ j < i + n ∧ hash (some x) j ∉ s.unique ∧ (i < j → hash (some x) i ∈ s.unique) ∧
        makeDigestLoop hash x n i s
          = some (hash (some x) j, ⟨s.digests, hash (some x) j :: s.unique, (x, j) :: s.seeds⟩) := by
  intro n
  induction n with
  | zero => intro i; exact Or.inl ⟨rfl, fun j h1 h2 => by omega⟩
  | succ n ih =>
    intro i
    rw [makeDigestLoop]
    by_cases hc : s.unique.contains (hash (some x) i) = false
    · right
      refine ⟨i, Nat.le_refl _, by omega, ?_, fun h => absurd h (Nat.lt_irrefl _), ?_⟩
      · intro hm
        rw [List.contains_iff_mem.2 hm] at hc
        simp at hc
      · rw [if_pos hc, hx]
        simp
    · have hm : hash (some x) i ∈ s.unique := by simpa using hc
      rw [if_neg hc, hx]
      simp only
      rcases ih (i + 1) with ⟨h1, h2⟩ | ⟨j, h1, h2, h3, h4, h5⟩
      · left
        refine ⟨h1, fun j hj1 hj2 => ?_⟩
        by_cases hij : i = j
        · rw [← hij]; exact hm
        · exact h2 j (by omega) (by omega)
      · exact Or.inr ⟨j, by omega, by omega, h3, fun _ => hm, h5⟩

theorem not_immutable {hash : Option α → Nat → D} {s : HashIndex α D} {col : List (Option α)} (h : HashInv hash s col) :
    s.immutable = false := by
  rw [immutable]
  cases hc : col.filterMap id with
  | nil =>
    have : s.digests = [] := by rw [h.digests, hc]; rfl
    rw [this]; simp
  | cons x l =>
    have hx : some x ∈ col := by
      have : x ∈ col.filterMap id := by rw [hc]; simp
      simpa using this
    have hu := (h.unique (digestOf hash s x)).2 ⟨x, hx, rfl⟩
    cases hus : s.unique with
    | nil => rw [hus] at hu; simp at hu
    | cons _ _ => simp

/-- Appending: either the value is stored, or it is new and all its digests are taken. -/
theorem append_spec {hash : Option α → Nat → D} {s : HashIndex α D} {col : List (Option α)} (h : HashInv hash s col)
    (x : α) (pos n : Nat) :
    (∃ s', append hash s x pos = .ok s' ∧ HashInv hash s' (col ++ List.replicate n none ++ [some x])) ∨
    (append hash s x pos = .error ∧ some x ∉ col ∧ ∀ j, j < maxHashRounds → hash (some x) j ∈ s.unique) := by
  have hmem : ∀ y, some y ∈ col ++ List.replicate n none ++ [some x] ↔ some y ∈ col ∨ y = x := by
    intro y; simp
  have hfm : (col ++ List.replicate n none ++ [some x]).filterMap id = col.filterMap id ++ [x] := by
    rw [List.filterMap_append, List.filterMap_append]
    have : (List.replicate n (none : Option α)).filterMap id = [] := by
      rw [List.filterMap_eq_nil_iff]
      intro y hy
      rw [List.eq_of_mem_replicate hy]; rfl
    rw [this]; simp
  rw [append, not_immutable h]
  simp only [Bool.false_eq_true, if_false]
  by_cases hx : some x ∈ col
  · left
    rw [makeDigest_known h hx]
    refine ⟨_, rfl, ?_⟩
    have hd : ∀ y, digestOf hash (⟨s.digests ++ [digestOf hash s x], s.unique, s.seeds⟩ : HashIndex α D) y = digestOf hash s y :=
      fun y => rfl
    refine ⟨?_, ?_, h.bound, ?_, ?_, ?_, h.keys⟩
    · rw [hfm, List.map_append]
      exact congrArg (· ++ [digestOf hash s x]) h.digests
    · intro y
      rw [hmem]
      constructor
      · rintro (hy | rfl)
        · exact (h.known y).1 hy
        · exact (h.known y).1 hx
      · exact fun hy => Or.inl ((h.known y).2 hy)
    · intro d
      refine (h.unique d).trans ⟨?_, ?_⟩
      · rintro ⟨y, hy, he⟩; exact ⟨y, (hmem y).2 (Or.inl hy), he⟩
      · rintro ⟨y, hy, he⟩
        rcases (hmem y).1 hy with hy | rfl
        · exact ⟨y, hy, he⟩
        · exact ⟨y, hx, he⟩
    · intro y z hy hz
      have hy' : some y ∈ col := ((hmem y).1 hy).elim id fun e => by rw [e]; exact hx
      have hz' : some z ∈ col := ((hmem z).1 hz).elim id fun e => by rw [e]; exact hx
      exact h.inj y z hy' hz'
    · intro y hy
      exact h.zero y (((hmem y).1 hy).elim id fun e => by rw [e]; exact hx)
  · have hnone : s.findSeed x = none := by
      cases hs : s.findSeed x with
      | none => rfl
      | some j => exact absurd ((h.known x).2 ⟨j, hs⟩) hx
    rcases makeDigestLoop_new (hash := hash) hnone maxHashRounds 0 with ⟨h1, h2⟩ | ⟨j, _, hj, hnew, hz, heq⟩
    · right
      rw [makeDigest, h1]
      exact ⟨rfl, hx, fun j hj => h2 j (Nat.zero_le _) (by omega)⟩
    · left
      rw [makeDigest, heq]
      refine ⟨_, rfl, ?_⟩
      simp only
      have hfs : ∀ y, (⟨s.digests ++ [hash (some x) j], hash (some x) j :: s.unique, (x, j) :: s.seeds⟩ : HashIndex α D).findSeed y
          = if y = x then some j else s.findSeed y := fun y => findSeed_cons s x y j _ _
      have hdx : digestOf hash (⟨s.digests ++ [hash (some x) j], hash (some x) j :: s.unique, (x, j) :: s.seeds⟩ : HashIndex α D) x
          = hash (some x) j := digestOf_known (by rw [hfs, if_pos rfl])
      have hdy : ∀ y, y ≠ x → digestOf hash (⟨s.digests ++ [hash (some x) j], hash (some x) j :: s.unique, (x, j) :: s.seeds⟩ : HashIndex α D) y
          = digestOf hash s y := by
        intro y hy
        simp only [digestOf, findDigest, hfs, if_neg hy]
      have hne : ∀ y, some y ∈ col → y ≠ x := fun y hy e => hx (e ▸ hy)
      refine ⟨?_, ?_, ?_, ?_, ?_, ?_, ?_⟩
      · rw [hfm, List.map_append, List.map_cons, List.map_nil, hdx]
        refine congrArg (· ++ [hash (some x) j]) (h.digests.trans ?_)
        apply List.map_congr_left
        intro y hy
        rw [hdy y (hne y (by simpa using hy))]
      · intro y
        rw [hmem, hfs]
        by_cases hyx : y = x
        · simp [hyx]
        · rw [if_neg hyx, ← h.known y]; simp [hyx]
      · intro y k hk
        rw [hfs] at hk
        split at hk
        · obtain rfl := Option.some.inj hk; omega
        · exact h.bound y k hk
      · intro d
        rw [List.mem_cons, h.unique d]
        constructor
        · rintro (rfl | ⟨y, hy, rfl⟩)
          · exact ⟨x, (hmem x).2 (Or.inr rfl), hdx.symm⟩
          · exact ⟨y, (hmem y).2 (Or.inl hy), (hdy y (hne y hy)).symm⟩
        · rintro ⟨y, hy, rfl⟩
          rcases (hmem y).1 hy with hy | rfl
          · exact Or.inr ⟨y, hy, hdy y (hne y hy)⟩
          · exact Or.inl hdx
      · have hfresh : ∀ y, some y ∈ col → digestOf hash s y ≠ hash (some x) j :=
          fun y hy e => hnew ((h.unique _).2 ⟨y, hy, e.symm⟩)
        intro y z hy hz he
        rcases (hmem y).1 hy with hy' | rfl
        · rcases (hmem z).1 hz with hz' | rfl
          · rw [hdy y (hne y hy'), hdy z (hne z hz')] at he
            exact h.inj y z hy' hz' he
          · rw [hdy y (hne y hy'), hdx] at he
            exact absurd he (hfresh y hy')
        · rcases (hmem z).1 hz with hz' | rfl
          · rw [hdy z (hne z hz'), hdx] at he
            exact absurd he.symm (hfresh z hz')
          · rfl
      · intro y hy
        rcases (hmem y).1 hy with hy' | rfl
        · exact List.mem_cons_of_mem _ (h.zero y hy')
        · by_cases h0 : 0 < j
          · exact List.mem_cons_of_mem _ (hz h0)
          · have : j = 0 := by omega
            rw [this]; simp
      · intro y k hk
        rw [hfs]
        rcases List.mem_cons.1 hk with e | hk
        · obtain ⟨rfl, rfl⟩ := Prod.mk.inj e
          rw [if_pos rfl]
        · have := h.keys y k hk
          rw [if_neg (fun e => by rw [e, hnone] at this; simp at this), this]

/-! ## Scan -/

theorem scanLoop_spec (pred : D → Bool) : ∀ (dcol : List (Option D)) (i last k : Nat) (rng : List Nat) (result : Bm),
    last ≤ i → rng.drop (i - last) = onesFrom k (dcol.map Option.isSome) → result.length ≤ k →
    ∃ r, scanLoop pred (dcol.filterMap id) i last rng result = some r ∧ r.length ≤ k + dcol.length ∧
      ∀ j, r.bit j = if j < k then result.bit j else (dcol[j - k]?).any fun o => o.any pred := by
  intro dcol
  induction dcol with
  | nil =>
    intro i last k rng result _ _ hk
    refine ⟨result, rfl, by simpa using hk, ?_⟩
    intro j
    split
    · rfl
    · rw [Bm.bit_of_ge (by omega)]; simp
  | cons o dcol ih =>
    intro i last k rng result hil hrng hk
    have hidx : ∀ j, k < j → (o :: dcol)[j - k]? = dcol[j - (k + 1)]? := by
      intro j hj
      rw [show j - k = (j - (k + 1)) + 1 by omega, List.getElem?_cons_succ]
    cases o with
    | none =>
      rw [List.map_cons, Option.isSome_none, onesFrom] at hrng
      obtain ⟨r, r1, r2, r3⟩ := ih i last (k + 1) rng result hil hrng (by omega)
      refine ⟨r, by simpa using r1, by rw [List.length_cons]; omega, ?_⟩
      intro j
      rw [r3 j]
      by_cases h1 : j < k
      · rw [if_pos (by omega), if_pos h1]
      · rw [if_neg h1]
        by_cases h2 : j = k
        · subst h2
          rw [if_pos (by omega), Bm.bit_of_ge hk]
          simp
        · rw [if_neg (by omega), hidx j (by omega)]
    | some d =>
      rw [List.map_cons, Option.isSome_some, onesFrom] at hrng
      have hfm : (some d :: dcol).filterMap id = d :: dcol.filterMap id := by simp
      rw [hfm, scanLoop]
      by_cases hp : pred d = true
      · rw [if_pos hp, hrng]
        simp only
        obtain ⟨r, r1, r2, r3⟩ := ih (i + 1) i (k + 1) (k :: onesFrom (k + 1) (dcol.map Option.isSome))
          ((result.appendBits false (k - result.length)).appendBits true 1) (by omega)
          (by rw [show i + 1 - i = 1 by omega]; rfl) (by simp; omega)
        refine ⟨r, r1, by rw [List.length_cons]; omega, ?_⟩
        intro j
        rw [r3 j, bit_append_one _ _ _ hk]
        by_cases h1 : j < k
        · have : ¬ j = k := by omega
          rw [if_pos (by omega), if_pos h1]; simp [this]
        · rw [if_neg h1]
          by_cases h2 : j = k
          · subst h2
            rw [if_pos (by omega)]
            simp [hp]
          · rw [if_neg (by omega), hidx j (by omega)]
      · rw [if_neg hp]
        obtain ⟨r, r1, r2, r3⟩ := ih (i + 1) last (k + 1) rng result (by omega)
          (by rw [show i + 1 - last = (i - last) + 1 by omega, ← List.drop_drop, hrng]; rfl) (by omega)
        refine ⟨r, r1, by rw [List.length_cons]; omega, ?_⟩
        intro j
        rw [r3 j]
        by_cases h1 : j < k
        · rw [if_pos (by omega), if_pos h1]
        · rw [if_neg h1]
          by_cases h2 : j = k
          · subst h2
            rw [if_pos (by omega), Bm.bit_of_ge hk]
            simp [hp]
          · rw [if_neg (by omega), hidx j (by omega)]

theorem onesFrom_nil {dcol : List (Option D)} : ∀ {k}, onesFrom k (dcol.map Option.isSome) = [] → dcol.filterMap id = [] := by
  induction dcol with
  | nil => intro k _; rfl
  | cons o dcol ih =>
    intro k h
    cases o with
    | none =>
      rw [List.map_cons, Option.isSome_none, onesFrom] at h
      simpa using ih h
    | some d => rw [List.map_cons, Option.isSome_some, onesFrom] at h; simp at h

theorem scan_spec {hash : Option α → Nat → D} {s : HashIndex α D} {col : List (Option α)}
    (hd : s.digests = (col.filterMap id).map (digestOf hash s))
    {mask : Bm} (hm : mask = col.map Option.isSome) (pred : D → Bool) :
    ∃ r, scan mask s pred = .ok r ∧ r.length ≤ col.length ∧
      ∀ (j : Nat) y, col[j]? = some (some y) → r.bit j = pred (digestOf hash s y) := by
  have hdcol : s.digests = (col.map (Option.map (digestOf hash s))).filterMap id := by
    rw [hd]
    clear hd hm
    induction col with
    | nil => rfl
    | cons o col ih => cases o <;> simp_all
  have hmask : mask = (col.map (Option.map (digestOf hash s))).map Option.isSome := by
    rw [hm, List.map_map]
    apply List.map_congr_left
    intro o _
    cases o <;> rfl
  rw [scan]
  split
  · next he =>
    have hnil : onesFrom 0 mask = [] := by simpa using he
    rw [hmask] at hnil
    have := onesFrom_nil hnil
    rw [← hdcol, hd] at this
    refine ⟨[], rfl, Nat.zero_le _, ?_⟩
    intro j y hj
    have hmem : y ∈ col.filterMap id := by simpa using List.mem_of_getElem? hj
    rw [List.map_eq_nil_iff] at this
    rw [this] at hmem
    simp at hmem
  · obtain ⟨r, r1, r2, r3⟩ := scanLoop_spec pred (col.map (Option.map (digestOf hash s))) 0 0 0 (onesFrom 0 mask) []
      (Nat.le_refl _) (by rw [hmask]; rfl) (Nat.le_refl _)
    rw [← hdcol] at r1
    refine ⟨r, by rw [r1]; rfl, by simpa using r2, ?_⟩
    intro j y hj
    rw [r3 j, if_neg (by omega)]
    simp [hj]

/-- The mask tells which rows have a value. -/
theorem mask_eq {σ : Type} {inv : σ → List (Option α) → Prop} {v : ValueIndex σ} {rs : List (Row α)} (h : VRep inv v rs) :
    v.mask = ((rs.map Spec.Row.toOption).take v.mask.length).map Option.isSome := by
  have hoff := h.offset
  have hmax : v.offset = max v.nones.length v.mask.length := rfl
  have hl : (((rs.map Spec.Row.toOption).take v.mask.length).map Option.isSome).length = v.mask.length := by
    simp; omega
  apply Bm.ext hl.symm
  intro i hi
  have hi' : i < rs.length := by omega
  rw [h.mask i, Bm.bit_of_getElem? (x := (rs[i].toOption).isSome)]
  · rw [List.getElem?_eq_getElem hi']
    cases rs[i] <;> rfl
  · rw [List.getElem?_map, List.getElem?_take_of_lt hi, List.getElem?_map, List.getElem?_eq_getElem hi']; rfl

/-! ## Histories -/

/-- The result of a history: the accepted entries are the rows. -/
theorem runLog_spec (hash : Option α → Nat → D) (h : List (Nat × Option α)) :
    ∀ {v : ValueIndex (HashIndex α D)} {rs : List (Row α)}, VRep (HashInv hash) v rs →
    ∃ v' l, v.runLog (impl hash) h = some (v', l) ∧ v.run (impl hash) h = some v' ∧
      VRep (HashInv hash) v' (l.foldl (fun rs e => Spec.appendRow rs e.1 e.2) rs) := by
  induction h with
  | nil => intro v rs h; exact ⟨v, [], rfl, rfl, h⟩
  | cons e h ih =>
    intro v rs hr
    obtain ⟨pos, x⟩ := e
    by_cases hok : ∀ y, x = some y → ((rs.map Spec.Row.toOption).take v.mask.length).length ≤ pos →
        ∃ s', (impl hash).append v.impl y pos = .ok s' ∧ HashInv hash s' ((rs.map Spec.Row.toOption).take v.mask.length ++
          List.replicate (pos - ((rs.map Spec.Row.toOption).take v.mask.length).length) none ++ [some y])
    · rcases vRep_append_of (I := impl hash) hr pos x hok with ⟨_, he⟩ | ⟨_, v', he, hr'⟩
      · obtain ⟨v', l, h1, h2, h3⟩ := ih hr
        exact ⟨v', l, by rw [ValueIndex.runLog, he]; exact h1, by rw [ValueIndex.run, he]; exact h2, h3⟩
      · obtain ⟨v'', l, h1, h2, h3⟩ := ih hr'
        refine ⟨v'', (pos, x) :: l, ?_, by rw [ValueIndex.run, he]; exact h2, h3⟩
        rw [ValueIndex.runLog, he]
        simp only
        rw [h1]
        rfl
    · have he : v.append (impl hash) x pos = .error := by
        unfold ValueIndex.append
        split
        · rfl
        · cases x with
          | none => exact absurd (fun y hy => by simp at hy) hok
          | some y =>
            rcases append_spec hr.impl y pos (pos - ((rs.map Spec.Row.toOption).take v.mask.length).length) with ⟨s', h1, h2⟩ | ⟨h1, _⟩
            · exact absurd (fun z hz _ => by obtain rfl := Option.some.inj hz; exact ⟨s', h1, h2⟩) hok
            · have : (impl hash).append v.impl y pos = .error := h1
              simp only [this]
      obtain ⟨v', l, h1, h2, h3⟩ := ih hr
      exact ⟨v', l, by rw [ValueIndex.runLog, he]; exact h1, by rw [ValueIndex.run, he]; exact h2, h3⟩

/-! ## Theorems -/

/-- The digest under which rows with value `y` are stored. -/
theorem lookup_spec {hash : Option α → Nat → D} {v : ValueIndex (HashIndex α D)} {rs : List (Row α)}
    (h : VRep (HashInv hash) v rs) (op : RelOp) (x : HashOperand α) (pred : D → Bool)
    (hl : lookup hash v.mask v.impl op x = scan v.mask v.impl pred) :
    v.lookupVal (impl hash) op x =
      .ok (Spec.answer rs (fun y => pred (digestOf hash v.impl y)) (decide (op = .notEqual))) := by
  obtain ⟨r, r1, r2, r3⟩ := scan_spec h.impl.digests (mask_eq h) pred
  refine lookupVal_frame h op x _ ⟨r, ?_, Nat.le_trans r2 h.col_length, ?_⟩
  · exact hl.trans r1
  · intro i y hi
    exact r3 i y ((h.col i y).2 hi)

theorem answer_congr {β : Type} {rs : List (Row β)} {f g : β → Bool} {b : Bool}
    (h : ∀ y, Row.value y ∈ rs → f y = g y) : Spec.answer rs f b = Spec.answer rs g b := by
  apply List.map_congr_left
  intro r hr
  cases r with
  | absent => rfl
  | null => rfl
  | value y => exact h y hr

theorem col_mem {σ : Type} {inv : σ → List (Option α) → Prop} {v : ValueIndex σ} {rs : List (Row α)} (h : VRep inv v rs) (y : α) :
    some y ∈ (rs.map Spec.Row.toOption).take v.mask.length ↔ Row.value y ∈ rs := by
  constructor
  · intro hy
    obtain ⟨i, hi⟩ := List.mem_iff_getElem?.1 hy
    exact List.mem_of_getElem? ((h.col i y).1 hi)
  · intro hy
    obtain ⟨i, hi⟩ := List.mem_iff_getElem?.1 hy
    exact List.mem_of_getElem? ((h.col i y).2 hi)

/-- C16. For every hash function into every type of digests and every history of appends, let the rows
be those of the appends that succeeded. If `x` occurs in the column, `== x` and `!= x` are exact. If it
does not, the rows that `== x` returns have a value with the same digest as `x` for some seed below 32,
and `!= x` returns the rows with a value that `== x` does not, and the null rows. -/
theorem C16_equal_partial (hash : Option α → Nat → D) (h : List (Nat × Option α)) :
    ∃ v l, (ValueIndex.make make).runLog (impl hash) h = some (v, l) ∧
      ∀ x, (Row.value x ∈ Spec.rows l →
          v.lookup (impl hash) .equal (.val (.val x)) = .ok (Spec.answer (Spec.rows l) (fun y => decide (y = x)) false) ∧
          v.lookup (impl hash) .notEqual (.val (.val x)) = .ok (Spec.answer (Spec.rows l) (fun y => !decide (y = x)) true)) ∧
        (Row.value x ∉ Spec.rows l → ∃ collides : α → Bool,
          (∀ y, collides y = true → ∃ j, j < 32 ∧ hash (some y) j = hash (some x) 0) ∧
          v.lookup (impl hash) .equal (.val (.val x)) = .ok (Spec.answer (Spec.rows l) collides false) ∧
          v.lookup (impl hash) .notEqual (.val (.val x)) = .ok (Spec.answer (Spec.rows l) (fun y => !collides y) true)) := by
  obtain ⟨v, l, h1, _, h3⟩ := runLog_spec hash h (vRep_make (hashInv_make hash))
  refine ⟨v, l, h1, ?_⟩
  intro x
  have heq : v.lookup (impl hash) .equal (.val (.val x)) =
      .ok (Spec.answer (Spec.rows l) (fun y => digestOf hash v.impl x == digestOf hash v.impl y) false) :=
    lookup_spec h3 .equal (.val x) (fun d => digestOf hash v.impl x == d) rfl
  have hne : v.lookup (impl hash) .notEqual (.val (.val x)) =
      .ok (Spec.answer (Spec.rows l) (fun y => digestOf hash v.impl x != digestOf hash v.impl y) true) :=
    lookup_spec h3 .notEqual (.val x) (fun d => digestOf hash v.impl x != d) rfl
  rw [heq, hne]
  constructor
  · intro hx
    have hdec : ∀ y, Row.value y ∈ Spec.rows l → (digestOf hash v.impl x == digestOf hash v.impl y) = decide (y = x) := by
      intro y hy
      rw [Bool.eq_iff_iff, beq_iff_eq, decide_eq_true_eq]
      exact ⟨fun e => (h3.impl.inj x y ((col_mem h3 x).2 hx) ((col_mem h3 y).2 hy) e).symm, fun e => by rw [e]⟩
    refine ⟨congrArg _ (answer_congr hdec), congrArg _ (answer_congr fun y hy => ?_)⟩
    rw [← hdec y hy]; rfl
  · intro hx
    refine ⟨fun y => (v.impl.findSeed y).isSome && (digestOf hash v.impl x == digestOf hash v.impl y), ?_, ?_, ?_⟩
    · intro y hy
      rw [Bool.and_eq_true, Option.isSome_iff_exists, beq_iff_eq] at hy
      obtain ⟨⟨j, hj⟩, he⟩ := hy
      refine ⟨j, h3.impl.bound y j hj, ?_⟩
      rw [← digestOf_known (hash := hash) hj, ← he, digestOf, findDigest]
      cases hf : v.impl.findSeed x with
      | none => rfl
      | some k => exact absurd ((col_mem h3 x).1 ((h3.impl.known x).2 ⟨k, hf⟩)) hx
    · refine congrArg _ (answer_congr fun y hy => ?_)
      obtain ⟨j, hj⟩ := (h3.impl.known y).1 ((col_mem h3 y).2 hy)
      simp only [hj]; rfl
    · refine congrArg _ (answer_congr fun y hy => ?_)
      obtain ⟨j, hj⟩ := (h3.impl.known y).1 ((col_mem h3 y).2 hy)
      simp only [hj]; rfl

/-- C16 for lists: `in` returns every row whose value is in the list and `not_in` no such row; both are
exact if every element of the list occurs in the column. -/
theorem C16_in_partial (hash : Option α → Nat → D) (h : List (Nat × Option α)) :
    ∃ v l, (ValueIndex.make make).runLog (impl hash) h = some (v, l) ∧ ∀ xs : List (Option α),
      (∃ f : α → Bool, (∀ y, some y ∈ xs → f y = true) ∧
        v.lookup (impl hash) .in_ (.val (.list xs)) = .ok (Spec.answer (Spec.rows l) f false) ∧
        v.lookup (impl hash) .notIn (.val (.list xs)) = .ok (Spec.answer (Spec.rows l) (fun y => !f y) false)) ∧
      ((∀ o ∈ xs, ∃ x, o = some x ∧ Row.value x ∈ Spec.rows l) →
        v.lookup (impl hash) .in_ (.val (.list xs)) = .ok (Spec.answer (Spec.rows l) (fun y => xs.contains (some y)) false) ∧
        v.lookup (impl hash) .notIn (.val (.list xs)) = .ok (Spec.answer (Spec.rows l) (fun y => !xs.contains (some y)) false)) := by
  obtain ⟨v, l, h1, _, h3⟩ := runLog_spec hash h (vRep_make (hashInv_make hash))
  refine ⟨v, l, h1, ?_⟩
  intro xs
  have hin : v.lookup (impl hash) .in_ (.val (.list xs)) =
      .ok (Spec.answer (Spec.rows l) (fun y => (xs.map (findDigest hash v.impl)).any (· == digestOf hash v.impl y)) false) :=
    lookup_spec h3 .in_ (.list xs) (fun d => (xs.map (findDigest hash v.impl)).any (· == d)) rfl
  have hni : v.lookup (impl hash) .notIn (.val (.list xs)) =
      .ok (Spec.answer (Spec.rows l) (fun y => !(xs.map (findDigest hash v.impl)).any (· == digestOf hash v.impl y)) false) :=
    lookup_spec h3 .notIn (.list xs) (fun d => !(xs.map (findDigest hash v.impl)).any (· == d)) rfl
  constructor
  · refine ⟨_, ?_, hin, hni⟩
    intro y hy
    rw [List.any_eq_true]
    exact ⟨_, List.mem_map.2 ⟨_, hy, rfl⟩, by simp [digestOf]⟩
  · intro hall
    have hdec : ∀ y, Row.value y ∈ Spec.rows l →
        (xs.map (findDigest hash v.impl)).any (· == digestOf hash v.impl y) = xs.contains (some y) := by
      intro y hy
      rw [Bool.eq_iff_iff, List.any_eq_true, List.contains_iff_mem]
      constructor
      · rintro ⟨d, hd, he⟩
        obtain ⟨o, ho, rfl⟩ := List.mem_map.1 hd
        obtain ⟨x, rfl, hx⟩ := hall o ho
        have := h3.impl.inj x y ((col_mem h3 x).2 hx) ((col_mem h3 y).2 hy) (by simpa [digestOf] using he)
        rw [← this]; exact ho
      · intro hm
        exact ⟨_, List.mem_map.2 ⟨_, hm, rfl⟩, by simp [digestOf]⟩
    rw [hin, hni]
    exact ⟨congrArg _ (answer_congr hdec), congrArg _ (answer_congr fun y hy => by rw [hdec y hy])⟩

/-- C16, what is lost: an append of a value at or behind the end of the column fails only if the value
does not occur in the column and each of its 32 digests equals a digest of a value in the column. In
particular appends of values that occur never fail, nor do appends of nulls. -/
theorem C16_append (hash : Option α → Nat → D) (h : List (Nat × Option α)) :
    ∃ v l, (ValueIndex.make make).runLog (impl hash) h = some (v, l) ∧ ∀ pos x, (Spec.rows l).length ≤ pos →
      ((∃ v', v.append (impl hash) x pos = .ok v') ∨ (v.append (impl hash) x pos = .error ∧
        ∃ y, x = some y ∧ Row.value y ∉ Spec.rows l ∧
          ∀ i, i < 32 → ∃ z j, Row.value z ∈ Spec.rows l ∧ j < 32 ∧ hash (some y) i = hash (some z) j)) := by
  obtain ⟨v, l, h1, _, h3⟩ := runLog_spec hash h (vRep_make (hashInv_make hash))
  refine ⟨v, l, h1, ?_⟩
  intro pos x hpos
  have hoff : v.offset = (Spec.rows l).length := h3.offset
  unfold ValueIndex.append
  rw [if_neg (by omega)]
  cases x with
  | none => exact Or.inl ⟨_, rfl⟩
  | some y =>
    rcases append_spec h3.impl y pos 0 with ⟨s', e1, _⟩ | ⟨e1, e2, e3⟩
    · left
      have : (impl hash).append v.impl y pos = .ok s' := e1
      exact ⟨_, by simp only [this]; rfl⟩
    · right
      have : (impl hash).append v.impl y pos = .error := e1
      refine ⟨by simp only [this], y, rfl, fun hy => e2 ((col_mem h3 y).2 hy), ?_⟩
      intro i hi
      obtain ⟨z, hz, he⟩ := (h3.impl.unique _).1 (e3 i hi)
      obtain ⟨j, hj⟩ := (h3.impl.known z).1 hz
      exact ⟨z, j, (col_mem h3 z).1 hz, h3.impl.bound z j hj, by rw [he, digestOf_known hj]⟩

theorem lookup_filter (x : α) : ∀ (l : List (α × Nat)), (∀ k m, (x, k) ∈ l → (x, m) ∈ l → k = m) →
    ((l.filter fun e => decide (0 < e.2)).lookup x).getD 0 = (l.lookup x).getD 0 := by
  intro l
  induction l with
  | nil => intro _; rfl
  | cons e l ih =>
    intro hl
    obtain ⟨y, k⟩ := e
    have ihl := ih fun k m hk hm => hl k m (by simp [hk]) (by simp [hm])
    by_cases hk : 0 < k
    · rw [List.filter_cons_of_pos (by simpa using hk), List.lookup_cons, List.lookup_cons]
      cases x == y
      · exact ihl
      · rfl
    · rw [List.filter_cons_of_neg (by simpa using hk), List.lookup_cons, ihl]
      cases hxy : x == y
      · rfl
      · have hxy' : x = y := by simpa using hxy
        subst hxy'
        have hk0 : k = 0 := by omega
        simp only [Option.getD_some, hk0]
        cases hl2 : l.lookup x with
        | none => rfl
        | some m =>
          have hm : (x, m) ∈ l := by
            clear ihl ih hl
            induction l with
            | nil => simp at hl2
            | cons e l ih2 =>
              rw [List.lookup_cons] at hl2
              cases hxe : x == e.1
              · rw [hxe] at hl2; simp [ih2 hl2]
              · rw [hxe] at hl2
                simp only [Option.some.injEq] at hl2
                have : x = e.1 := by simpa using hxe
                rw [this, ← hl2]; simp
          have := hl k m (by simp) (by simp [hm])
          simp; omega

theorem findDigest_getD (hash : Option α → Nat → D) (s : HashIndex α D) (x : α) :
    findDigest hash s (some x) = hash (some x) ((s.seeds.lookup x).getD 0) := by
  simp only [findDigest, findSeed]
  cases s.seeds.lookup x <;> rfl

/-- Reloading does not change the digest of any value. -/
theorem reload_findDigest {hash : Option α → Nat → D} {v : ValueIndex (HashIndex α D)} {col : List (Option α)}
    (h : HashInv hash v.impl col) (o : Option α) : findDigest hash (reload v).impl o = findDigest hash v.impl o := by
  cases o with
  | none => rfl
  | some x =>
    rw [findDigest_getD, findDigest_getD]
    refine congrArg _ (lookup_filter x v.impl.seeds ?_)
    intro k m hk hm
    have h1 := h.keys x k hk
    rw [h.keys x m hm] at h1
    exact (Option.some.inj h1).symm

/-- C16, persistence. After every history, writing the index to disk and reading it back changes no
lookup, although the seeds that are zero are not written; and an index read back that holds a value
refuses further values instead of storing them wrongly. -/
theorem C16_reload (hash : Option α → Nat → D) (h : List (Nat × Option α)) :
    ∃ v l, (ValueIndex.make make).runLog (impl hash) h = some (v, l) ∧
      (∀ op x, (reload v).lookup (impl hash) op (.val x) = v.lookup (impl hash) op (.val x)) ∧
      (∀ y, Row.value y ∈ Spec.rows l → ∀ pos x, (reload v).append (impl hash) (some x) pos = .error) := by
  obtain ⟨v, l, h1, _, h3⟩ := runLog_spec hash h (vRep_make (hashInv_make hash))
  refine ⟨v, l, h1, ?_, ?_⟩
  · intro op x
    have hfd := reload_findDigest h3.impl
    have hlk : lookup hash (reload v).mask (reload v).impl op x = lookup hash v.mask v.impl op x := by
      have hfun : findDigest hash (reload v).impl = findDigest hash v.impl := funext hfd
      cases x <;> cases op <;> simp only [lookup, hfun] <;> rfl
    show (reload v).lookupVal (impl hash) op x = v.lookupVal (impl hash) op x
    unfold ValueIndex.lookupVal
    rw [show (impl hash).lookup (reload v).offset (reload v).mask (reload v).impl op x =
      (impl hash).lookup v.offset v.mask v.impl op x from hlk]
    rfl
  · intro y hy pos x
    have hne : v.impl.digests ≠ [] := by
      rw [h3.impl.digests]
      intro e
      rw [List.map_eq_nil_iff] at e
      have : y ∈ ((Spec.rows l).map Spec.Row.toOption |>.take v.mask.length).filterMap id := by
        have hm := (col_mem h3 y).2 hy
        rw [List.mem_filterMap]
        exact ⟨some y, hm, rfl⟩
      rw [show ((Spec.rows l).map Spec.Row.toOption |>.take v.mask.length).filterMap id = [] from e] at this
      simp at this
    have himm : (reload v).impl.immutable = true := by
      simp only [reload, immutable]
      cases hd : v.impl.digests with
      | nil => exact absurd hd hne
      | cons _ _ => rfl
    unfold ValueIndex.append
    split
    · rfl
    · simp only [impl, append, himm, if_true]

/-! ## Examples and refutations -/

/-- A weak hash: the digest is the value plus the seed modulo three. -/
def demoHash (x : Option Nat) (seed : Nat) : Nat := (x.getD 7 + seed) % 3

/-- 0, 3 (whose digest for seed 0 is taken), a gap, null and 3 again -/
def demoHistory : List (Nat × Option Nat) := [(0, some 0), (1, some 3), (3, none), (4, some 3)]

example : ((ValueIndex.make make).runLog (impl demoHash) demoHistory).map (fun (v, _) =>
      (v.lookup (impl demoHash) .equal (.val (.val 3)), v.lookup (impl demoHash) .notEqual (.val (.val 3))))
    = some (.ok [false, true, false, false, true], .ok [true, false, false, true, false]) := by decide +kernel

example : ((ValueIndex.make make).runLog (impl demoHash) demoHistory).map (fun (v, _) =>
      (v.impl.seeds, (reload v).impl.seeds, (reload v).lookup (impl demoHash) .in_ (.val (.list [some 0, some 3]))))
    = some ([(3, 1), (0, 0)], [(3, 1)], .ok [true, true, false, false, true]) := by decide +kernel

/-- C16, refuted for an operand that does not occur: 6 is in no row, but has the digest of 0. `==`
returns row 0, and `!=` does not, although its value differs. -/
theorem C16_unseen_refuted :
    ((ValueIndex.make make).runLog (impl demoHash) demoHistory).map (fun (v, _) =>
      (v.lookup (impl demoHash) .equal (.val (.val 6)), v.lookup (impl demoHash) .notEqual (.val (.val 6))))
    = some (.ok [true, false, false, false, false], .ok [false, true, false, true, true]) := by decide +kernel

/-- C16, refuted for a column whose digests are exhausted: the fourth distinct value has no digest left
and is not stored; the row is lost for every lookup. -/
theorem C16_exhausted_refuted :
    ((ValueIndex.make make).runLog (impl demoHash) [(0, some 0), (1, some 3), (2, some 6), (3, some 9)]).map (fun (v, l) =>
      (v.lookup (impl demoHash) .equal (.val (.val 9)), l.length))
    = some (.ok [true, false, false], 3) := by decide +kernel

end HashIndex

end Verif.Index
