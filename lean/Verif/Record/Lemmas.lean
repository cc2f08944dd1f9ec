import Verif.Record.Spec
import Verif.Types.MergeLemmas

/-! # Lemmas about records -/

namespace Verif.Record
open Spec

variable {α τ : Type}

theorem toList_ofList : ∀ l : List (Name × D α), (R.ofList l).toList = l
  | [] => rfl
  | (k, d) :: l => by rw [R.ofList, R.toList, toList_ofList l]

theorem ofList_toList : ∀ r : R α, R.ofList r.toList = r
  | .nil => rfl
  | .cons k d r => by rw [R.toList, R.ofList, ofList_toList r]

theorem get_none {k : Name} : ∀ {l : List (Name × D α)}, get k l = none ↔ k ∉ l.map (·.1)
  | [] => by simp [get]
  | (k', d) :: l => by
    rw [get]
    by_cases h : k' = k
    · simp [h]
    · rw [if_neg h, get_none]; simp [Ne.symm h]

theorem get_append (k : Name) : ∀ l l' : List (Name × D α), get k (l ++ l') = (get k l).or (get k l')
  | [], l' => by simp [get]
  | (k', d) :: l, l' => by
    rw [List.cons_append, get, get]
    by_cases h : k' = k
    · rw [if_pos h, if_pos h]; rfl
    · rw [if_neg h, if_neg h, get_append k l l']

theorem get_set_self (k : Name) (d : D α) : ∀ l : List (Name × D α), get k (set k d l) = some d
  | [] => by simp [set, get]
  | (k', d') :: l => by
    rw [set]
    by_cases h : k' = k
    · rw [if_pos h, get, if_pos h]
    · rw [if_neg h, get, if_neg h, get_set_self k d l]

theorem get_set_ne {k k' : Name} (h : k ≠ k') (d : D α) : ∀ l : List (Name × D α), get k (set k' d l) = get k l
  | [] => by simp [set, get, Ne.symm h]
  | (a, d') :: l => by
    rw [set]
    by_cases ha : a = k'
    · subst ha; rw [if_pos rfl, get, get, if_neg (Ne.symm h), if_neg (Ne.symm h)]
    · rw [if_neg ha, get, get, get_set_ne h d l]

theorem get_emplace (k : Name) (x : Name × D α) (l : List (Name × D α)) :
    get k (emplace l x) = (get k l).or (if x.1 = k then some x.2 else none) := by
  rw [emplace]
  cases hx : get x.1 l with
  | some d =>
    by_cases h : x.1 = k
    · rw [← h, hx]; rfl
    · rw [if_neg h]; simp
  | none =>
    simp only
    rw [get_append]
    rfl

theorem get_isSome_emplaceAll (k : Name) : ∀ (xs l : List (Name × D α)), (get k l ≠ none) → get k (xs.foldl emplace l) = get k l
  | [], l, _ => rfl
  | x :: xs, l, h => by
    rw [List.foldl_cons]
    have : get k (emplace l x) = get k l := by
      rw [get_emplace]
      cases hg : get k l with
      | none => exact absurd hg h
      | some d => rfl
    rw [get_isSome_emplaceAll k xs _ (by rw [this]; exact h), this]

theorem get_emplaceAll (k : Name) : ∀ (xs l : List (Name × D α)), get k (xs.foldl emplace l) = (get k l).or (get k xs)
  | [], l => by simp [get]
  | x :: xs, l => by
    rw [List.foldl_cons, get_emplaceAll k xs, get_emplace, Option.or_assoc]
    congr 1
    obtain ⟨a, d⟩ := x
    rw [get]
    by_cases h : a = k
    · simp [h]
    · simp [h]

/-- Emplacing entries whose duplicates were dropped is the same as emplacing all of them. -/
theorem emplaceAll_emplaceAll (f : Name → Name) (acc : List (Name × D α)) : ∀ (xs l : List (Name × D α)),
    ((xs.foldl emplace l).map (fun x => (f x.1, x.2))).foldl emplace acc =
      (xs.map (fun x => (f x.1, x.2))).foldl emplace ((l.map (fun x => (f x.1, x.2))).foldl emplace acc)
  | [], l => rfl
  | x :: xs, l => by
    rw [List.foldl_cons, emplaceAll_emplaceAll f acc xs (emplace l x), List.map_cons, List.foldl_cons]
    congr 1
    rw [emplace]
    cases hx : get x.1 l with
    | none => simp only; rw [List.map_append, List.foldl_append]; rfl
    | some d =>
      simp only
      have : get (f x.1) ((l.map (fun x => (f x.1, x.2))).foldl emplace acc) ≠ none := by
        rw [get_emplaceAll]
        intro h
        rw [Option.or_eq_none_iff] at h
        have h2 := get_none.1 h.2
        apply h2
        simp only [List.map_map, List.mem_map]
        have hm : x.1 ∈ l.map (·.1) := by
          apply Classical.byContradiction
          intro hc
          rw [get_none.2 hc] at hx; cases hx
        obtain ⟨y, hy, he⟩ := List.mem_map.1 hm
        exact ⟨y, hy, by simp [he]⟩
      rw [emplace]
      cases hg : get (f x.1) ((l.map (fun x => (f x.1, x.2))).foldl emplace acc) with
      | none => exact absurd hg this
      | some _ => rfl

/-- Emplacing entries with unique keys that are not taken appends them. -/
theorem emplaceAll_nodup : ∀ (xs l : List (Name × D α)), ((l ++ xs).map (·.1)).Nodup → xs.foldl emplace l = l ++ xs
  | [], l, _ => by simp
  | x :: xs, l, h => by
    have hx : get x.1 l = none := by
      rw [get_none]
      intro hm
      rw [List.map_append, List.nodup_append] at h
      exact h.2.2 _ hm x.1 (by simp) rfl
    rw [List.foldl_cons, emplace, hx]
    simp only
    rw [emplaceAll_nodup xs (l ++ [x]) (by simpa using h)]
    simp

/-! Recursion -/

theorem dec_eq {n : Nat} (h : 0 < n) (h' : n < 2 ^ 64) : dec n = n - 1 := by
  unfold dec; omega

theorem records_nested (k : Name) (s rest : R α) : records (.cons k (.record s) rest) = records s + 1 + records rest := rfl

theorem leaves_nested (k : Name) (s rest : R α) :
    leaves (.cons k (.record s) rest) = (leaves s).map (fun x => (k :: x.1, x.2)) ++ leaves rest := rfl

theorem records_other {k : Name} {d : D α} {rest : R α} (h : isRec d = false) : records (.cons k d rest) = records rest := by
  cases d <;> first | rfl | simp [isRec] at h

theorem leaves_other {k : Name} {d : D α} {rest : R α} (h : isRec d = false) :
    leaves (.cons k d rest) = ([k], d) :: leaves rest := by
  cases d <;> first | rfl | simp [isRec] at h

theorem flattenLoop_other {k : Name} {d : D α} {rest : R α} (h : isRec d = false) (n : Nat) (acc : List (Name × D α)) :
    flattenLoop n acc (.cons k d rest) = flattenLoop n (emplace acc (k, d)) rest := by
  cases d <;> first | rfl | simp [isRec] at h

theorem rec_cases (d : D α) : (∃ s, d = .record s) ∨ isRec d = false := by
  cases d with
  | record s => exact .inl ⟨s, rfl⟩
  | null => exact .inr rfl
  | scalar => exact .inr rfl
  | list => exact .inr rfl

/-- Induction over a record and the records within it. -/
theorem R.induct {P : R α → Prop} (hn : P .nil) (hr : ∀ k s rest, P s → P rest → P (.cons k (.record s) rest))
    (ho : ∀ k d rest, isRec d = false → P rest → P (.cons k d rest)) : ∀ r, P r
  | .nil => hn
  | .cons k (.record s) rest => hr k s rest (R.induct hn hr ho s) (R.induct hn hr ho rest)
  | .cons k .null rest => ho k _ rest rfl (R.induct hn hr ho rest)
  | .cons k (.scalar a) rest => ho k _ rest rfl (R.induct hn hr ho rest)
  | .cons k (.list xs) rest => ho k _ rest rfl (R.induct hn hr ho rest)

/-- A leaf with its key. -/
def keyed (x : List Name × D α) : Name × D α := (dotted x.1, x.2)

theorem leaves_ne_nil : ∀ (r : R α) (x : List Name × D α), x ∈ leaves r → x.1 ≠ [] := by
  intro r
  induction r using R.induct with
  | hn => intro x h; simp [leaves] at h
  | hr k s rest _ ih =>
    intro x h
    rw [leaves_nested, List.mem_append, List.mem_map] at h
    rcases h with ⟨y, _, rfl⟩ | h
    · simp
    · exact ih x h
  | ho k d rest hd ih =>
    intro x h
    rw [leaves_other hd, List.mem_cons] at h
    rcases h with rfl | h
    · simp
    · exact ih x h

theorem keyed_nested (k : Name) (s : R α) :
    ((leaves s).map (fun x => (k :: x.1, x.2))).map keyed = ((leaves s).map keyed).map (fun x => ((fun a => k ++ 46 :: a) x.1, x.2)) := by
  rw [List.map_map, List.map_map]
  apply List.map_congr_left
  intro x hx
  have := leaves_ne_nil s x hx
  obtain ⟨p, d⟩ := x
  cases p with
  | nil => exact absurd rfl this
  | cons a p => rfl

theorem flattenLoop_eq : ∀ (r : R α) (n : Nat) (acc : List (Name × D α)), records r < n → n < 2 ^ 64 →
    flattenLoop n acc r = ((leaves r).map keyed).foldl emplace acc := by
  intro r
  induction r using R.induct with
  | hn => intro n acc _ _; rfl
  | hr k s rest ihs ihr =>
    intro n acc h h'
    rw [records_nested] at h
    have hd := dec_eq (by omega : 0 < n) h'
    have e : flattenLoop n acc (.cons k (.record s) rest) =
        flattenLoop (dec n) (((if dec n = 0 then [] else flattenLoop (dec n) [] s).map (underKey k)).foldl emplace acc) rest := rfl
    rw [e, hd, if_neg (by omega), ihs (n - 1) [] (by omega) (by omega), ihr (n - 1) _ (by omega) (by omega)]
    rw [leaves_nested, List.map_append, List.foldl_append, keyed_nested]
    have := emplaceAll_emplaceAll (fun a => k ++ 46 :: a) acc ((leaves s).map keyed) []
    rw [show (underKey k : Name × D α → Name × D α) = fun x => ((fun a => k ++ 46 :: a) x.1, x.2) from rfl, this]
    rfl
  | ho k d rest hd ih =>
    intro n acc h h'
    rw [records_other hd] at h
    rw [flattenLoop_other hd, ih n _ h h', leaves_other hd]
    rfl

theorem flattenTypedLoop_other {k : Name} {d : D α} {rest : R α} (h : isRec d = false) (n : Nat) (acc : List (Name × D α))
    (fs : Types.Fields τ) : flattenTypedLoop n acc fs (.cons k d rest) = flattenTypedLoop n (emplace acc (k, d)) fs rest := by
  cases d <;> first | rfl | simp [isRec] at h

theorem flattenTypedLoop_fits : ∀ (r : R α) (fs : Types.Fields τ), Fits r fs → ∀ (n : Nat) (acc : List (Name × D α)),
    records r < n → n < 2 ^ 64 → flattenTypedLoop n acc fs r = some (flattenLoop n acc r) := by
  intro r fs h
  induction h with
  | nil => intro n acc _ _; rfl
  | @nested fs gs m k s rest hl _ _ ihs ihr =>
    intro n acc h h'
    rw [records_nested] at h
    have hd := dec_eq (by omega : 0 < n) h'
    rw [flattenTypedLoop, hl]
    simp only
    rw [hd, if_neg (by omega), ihs (n - 1) [] (by omega) (by omega), Option.bind_some, ihr (n - 1) _ (by omega) (by omega),
      flattenLoop, hd, if_neg (by omega)]
  | @other fs k d rest hd _ ih =>
    intro n acc h h'
    rw [records_other hd] at h
    rw [flattenTypedLoop_other hd, ih n _ h h', flattenLoop_other hd]

theorem flattenTypedLoop_none : ∀ (r : R α) (fs : Types.Fields τ) (n : Nat) (acc : List (Name × D α)),
    records r < n → n < 2 ^ 64 → ¬ Fits r fs → flattenTypedLoop n acc fs r = none := by
  intro r
  induction r using R.induct with
  | hn => intro fs n acc _ _ h; exact absurd .nil h
  | hr k s rest ihs ihr =>
    intro fs n acc h h' hf
    rw [records_nested] at h
    have hd := dec_eq (by omega : 0 < n) h'
    rw [flattenTypedLoop]
    cases hl : Types.lookup k fs.toList with
    | none => rfl
    | some t =>
      cases t with
      | leaf _ => rfl
      | alias _ => rfl
      | record m gs =>
        simp only
        rw [hd, if_neg (by omega)]
        by_cases hs : Fits s gs
        · cases hi : flattenTypedLoop (n - 1) [] gs s with
          | none => rfl
          | some inner =>
            rw [Option.bind_some]
            exact ihr fs (n - 1) _ (by omega) (by omega) (fun hr => hf (.nested hl hs hr))
        · rw [ihs gs (n - 1) [] (by omega) (by omega) hs]; rfl
  | ho k d rest hd ih =>
    intro fs n acc h h' hf
    rw [records_other hd] at h
    rw [flattenTypedLoop_other hd]
    exact ih fs n _ h h' (fun hr => hf (.other hd hr))

/-! Merging -/

theorem mergeLoop_other {k : Name} {d : D α} {rest : R α} (h : isRec d = false) (lists : Bool) (n : Nat) (dst : List (Name × D α)) :
    mergeLoop lists n dst (.cons k d rest) = mergeLoop lists n (set k (combined lists (get k dst) d) dst) rest := by
  cases d with
  | record s => simp [isRec] at h
  | null => rfl
  | scalar => rfl
  | list xs =>
    have e : combined lists (get k dst) (.list xs) = if lists then joinLists xs (get k dst) else .list xs := by
      cases lists with
      | false => simp [combined]
      | true =>
        cases get k dst with
        | none => simp [combined, joinLists]
        | some d => cases d <;> simp [combined, joinLists]
    rw [e]
    rfl

theorem mergeLoop_get (lists : Bool) : ∀ (src : R α), UniqueKeys src → ∀ (n : Nat) (dst : List (Name × D α)),
    records src < n → n < 2 ^ 64 → ∀ k,
    (get k src.toList = none → get k (mergeLoop lists n dst src) = get k dst) ∧
    (∀ s, get k src.toList = some (.record s) → ∃ m, records s < m ∧ m < 2 ^ 64 ∧ UniqueKeys s ∧
      get k (mergeLoop lists n dst src) = some (.record (.ofList (mergeLoop lists m (nestedOf (get k dst)) s)))) ∧
    (∀ d, get k src.toList = some d → isRec d = false →
      get k (mergeLoop lists n dst src) = some (combined lists (get k dst) d)) := by
  intro src hu
  induction hu with
  | nil => intro n dst _ _ k; simp [R.toList, get, mergeLoop]
  | @cons k' d rest hr hk hs ih _ =>
    intro n dst h h' k
    -- the remaining entries do not touch this one
    have hrest : ∀ (m : Nat) (dst' : List (Name × D α)), records rest < m → m < 2 ^ 64 →
        get k' (mergeLoop lists m dst' rest) = get k' dst' := by
      intro m dst' h1 h2
      exact (ih m dst' h1 h2 k').1 (get_none.2 hk)
    rcases rec_cases d with ⟨s, rfl⟩ | hd
    · rw [records_nested] at h
      have hdec := dec_eq (by omega : 0 < n) h'
      have e : mergeLoop lists n dst (.cons k' (.record s) rest) =
          mergeLoop lists (n - 1) (set k' (.record (.ofList (mergeLoop lists (n - 1) (nestedOf (get k' dst)) s))) dst) rest := by
        rw [mergeLoop, hdec, if_neg (by omega)]
      rw [e]
      by_cases hkk : k' = k
      · subst hkk
        rw [R.toList, get, if_pos rfl, hrest _ _ (by omega) (by omega), get_set_self]
        refine ⟨(fun h => by cases h), ?_, ?_⟩
        · intro s' hs'
          cases hs'
          exact ⟨n - 1, by omega, by omega, hs s rfl, rfl⟩
        · intro d hd' hn; cases hd'; simp [isRec] at hn
      · rw [R.toList, get, if_neg hkk]
        have := ih (n - 1) (set k' (.record (.ofList (mergeLoop lists (n - 1) (nestedOf (get k' dst)) s))) dst) (by omega) (by omega) k
        rw [get_set_ne (Ne.symm hkk)] at this
        exact this
    · rw [records_other hd] at h
      rw [mergeLoop_other hd]
      by_cases hkk : k' = k
      · subst hkk
        rw [R.toList, get, if_pos rfl, hrest _ _ h h', get_set_self]
        refine ⟨(fun h => by cases h), ?_, ?_⟩
        · intro s hs'; cases hs'; simp [isRec] at hd
        · intro d' hd' _; cases hd'; rfl
      · rw [R.toList, get, if_neg hkk]
        have := ih n (set k' (combined lists (get k' dst) d) dst) h h' k
        rw [get_set_ne (Ne.symm hkk)] at this
        exact this

/-- `Defines` for entries -/
def defines (p : List Name) (l : List (Name × D α)) : Prop :=
  (∃ d, at' p l = some d) ∨ ∃ q d, q <+: p ∧ at' q l = some d ∧ isRec d = false

theorem at_nested {k k' : Name} {p : List Name} {l : List (Name × D α)} {s : R α} (h : get k l = some (.record s)) :
    at' (k :: k' :: p) l = at' (k' :: p) s.toList := by rw [at', h]

theorem at_nestedOf (k k' : Name) (p : List Name) (l : List (Name × D α)) :
    at' (k :: k' :: p) l = at' (k' :: p) (nestedOf (get k l)) := by
  rw [at']
  have hn : ∀ q : List Name, at' (k' :: q) ([] : List (Name × D α)) = none := by
    intro q; cases q <;> rfl
  cases hg : get k l with
  | none => exact (hn p).symm
  | some d =>
    cases d with
    | record s => rfl
    | null => exact (hn p).symm
    | scalar a => exact (hn p).symm
    | list xs => exact (hn p).symm

theorem defines_cons {k : Name} {p : List Name} {l : List (Name × D α)} : defines (k :: p) l ↔
    ∃ d, get k l = some d ∧ (isRec d = false ∨ p = [] ∨ ∃ s, d = .record s ∧ defines p s.toList) := by
  constructor
  · rintro (⟨d, h⟩ | ⟨q, d, h1, h2, h3⟩)
    · cases p with
      | nil => exact ⟨d, h, .inr (.inl rfl)⟩
      | cons k' p =>
        rw [at'] at h
        cases hg : get k l with
        | none => rw [hg] at h; cases h
        | some d' =>
          refine ⟨d', rfl, ?_⟩
          rcases rec_cases d' with ⟨s, rfl⟩ | hd
          · rw [hg] at h
            exact .inr (.inr ⟨s, rfl, .inl ⟨d, h⟩⟩)
          · exact .inl hd
    · cases q with
      | nil => rw [at'] at h2; cases h2
      | cons a q =>
        rw [List.cons_prefix_cons] at h1
        obtain ⟨rfl, h1⟩ := h1
        cases q with
        | nil => exact ⟨d, h2, .inl h3⟩
        | cons b q =>
          rw [at'] at h2
          cases hg : get a l with
          | none => rw [hg] at h2; cases h2
          | some d' =>
            refine ⟨d', rfl, ?_⟩
            rcases rec_cases d' with ⟨s, rfl⟩ | hd
            · rw [hg] at h2
              exact .inr (.inr ⟨s, rfl, .inr ⟨_, d, h1, h2, h3⟩⟩)
            · exact .inl hd
  · rintro ⟨d, hg, h⟩
    rcases rec_cases d with ⟨s, rfl⟩ | hd
    · rcases h with h | rfl | ⟨s', hs, h⟩
      · simp [isRec] at h
      · exact .inl ⟨_, hg⟩
      · cases hs
        rcases h with ⟨d, h⟩ | ⟨q, d, h1, h2, h3⟩
        · cases p with
          | nil => rw [at'] at h; cases h
          | cons k' p => exact .inl ⟨d, by rw [at_nested hg]; exact h⟩
        · cases q with
          | nil => rw [at'] at h2; cases h2
          | cons b q => exact .inr ⟨k :: b :: q, d, by simpa using h1, by rw [at_nested hg]; exact h2, h3⟩
    · exact .inr ⟨[k], d, by simp, hg, hd⟩

theorem mergeLoop_src (lists : Bool) : ∀ (p : List Name) (src : R α) (n : Nat) (dst : List (Name × D α)) (d : D α),
    UniqueKeys src → records src < n → n < 2 ^ 64 → at' p src.toList = some d → isRec d = false →
    at' p (mergeLoop lists n dst src) = some (combined lists (at' p dst) d)
  | [], _, _, _, _, _, _, _, h, _ => by rw [at'] at h; cases h
  | [k], src, n, dst, d, hu, h1, h2, h, hd => (mergeLoop_get lists src hu n dst h1 h2 k).2.2 d h hd
  | k :: k' :: p, src, n, dst, d, hu, h1, h2, h, hd => by
    rw [at'] at h
    cases hg : get k src.toList with
    | none => rw [hg] at h; cases h
    | some x =>
      rw [hg] at h
      rcases rec_cases x with ⟨s, rfl⟩ | hx
      · obtain ⟨m, h3, h4, h5, h6⟩ := (mergeLoop_get lists src hu n dst h1 h2 k).2.1 s hg
        rw [at_nested h6, toList_ofList, mergeLoop_src lists (k' :: p) s m _ d h5 h3 h4 h hd, at_nestedOf]
      · cases x with
        | record _ => simp [isRec] at hx
        | null => cases h
        | scalar => cases h
        | list => cases h

theorem mergeLoop_dst (lists : Bool) : ∀ (p : List Name) (src : R α) (n : Nat) (dst : List (Name × D α)) ,
    UniqueKeys src → records src < n → n < 2 ^ 64 → ¬ defines p src.toList →
    at' p (mergeLoop lists n dst src) = at' p dst
  | [], _, _, _, _, _, _, _ => rfl
  | [k], src, n, dst, hu, h1, h2, h => by
    refine (mergeLoop_get lists src hu n dst h1 h2 k).1 ?_
    cases hg : get k src.toList with
    | none => rfl
    | some d => exact absurd (defines_cons.2 ⟨d, hg, .inr (.inl rfl)⟩) h
  | k :: k' :: p, src, n, dst, hu, h1, h2, h => by
    cases hg : get k src.toList with
    | none =>
      have := (mergeLoop_get lists src hu n dst h1 h2 k).1 hg
      rw [at', this, at']
    | some x =>
      rcases rec_cases x with ⟨s, rfl⟩ | hx
      · obtain ⟨m, h3, h4, h5, h6⟩ := (mergeLoop_get lists src hu n dst h1 h2 k).2.1 s hg
        rw [at_nested h6, toList_ofList, mergeLoop_dst lists (k' :: p) s m _ h5 h3 h4
          (fun hd => h (defines_cons.2 ⟨_, hg, .inr (.inr ⟨s, rfl, hd⟩)⟩)), at_nestedOf]
      · exact absurd (defines_cons.2 ⟨x, hg, .inl hx⟩) h

theorem mergeLoop_only (lists : Bool) : ∀ (p : List Name) (src : R α) (n : Nat) (dst : List (Name × D α)) (d : D α),
    UniqueKeys src → records src < n → n < 2 ^ 64 → defines p src.toList →
    at' p (mergeLoop lists n dst src) = some d → isRec d = false → ∃ d', at' p src.toList = some d' ∧ isRec d' = false
  | [], _, _, _, _, _, _, _, _, h, _ => by rw [at'] at h; cases h
  | [k], src, n, dst, d, hu, h1, h2, h, ha, hd => by
    obtain ⟨x, hg, _⟩ := defines_cons.1 h
    rcases rec_cases x with ⟨s, rfl⟩ | hx
    · obtain ⟨m, _, _, _, h6⟩ := (mergeLoop_get lists src hu n dst h1 h2 k).2.1 s hg
      rw [at', h6] at ha
      cases ha
      simp [isRec] at hd
    · exact ⟨x, hg, hx⟩
  | k :: k' :: p, src, n, dst, d, hu, h1, h2, h, ha, hd => by
    obtain ⟨x, hg, h⟩ := defines_cons.1 h
    rcases rec_cases x with ⟨s, rfl⟩ | hx
    · obtain ⟨m, h3, h4, h5, h6⟩ := (mergeLoop_get lists src hu n dst h1 h2 k).2.1 s hg
      rw [at_nested h6, toList_ofList] at ha
      rcases h with h | h | ⟨s', hs, h⟩
      · simp [isRec] at h
      · cases h
      · cases hs
        obtain ⟨d', h7, h8⟩ := mergeLoop_only lists (k' :: p) s m _ d h5 h3 h4 h ha hd
        exact ⟨d', by rw [at_nested hg]; exact h7, h8⟩
    · have h6 := (mergeLoop_get lists src hu n dst h1 h2 k).2.2 x hg hx
      rw [at', h6] at ha
      have hc : ∀ s, combined lists (get k dst) x ≠ .record s := by
        intro s
        cases x with
        | record _ => simp [isRec] at hx
        | null => simp [combined]
        | scalar => simp [combined]
        | list xs =>
          cases lists
          · simp [combined]
          · cases get k dst with
            | none => simp [combined]
            | some y => cases y <;> simp [combined]
      cases hcx : combined lists (get k dst) x with
      | record s => exact absurd hcx (hc s)
      | null => rw [hcx] at ha; cases ha
      | scalar => rw [hcx] at ha; cases ha
      | list => rw [hcx] at ha; cases ha

end Verif.Record
