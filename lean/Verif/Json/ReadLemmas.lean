import Verif.Json.ReadSpec
import Verif.Json.DocLemmas
import Verif.Calendar.Props
import Verif.DataText.Main
/-!
Lemmas about the import of JSON.
-/
namespace Verif.Json
open Verif.Data Verif.DataText Verif.DataText.Spec Verif.Json.Spec Verif.Calendar Verif.Number

/-! ## Equality of values, for examples -/

mutual
/-- Whether two values are the same. -/
def same : Value → Value → Bool
  | .null, .null => true
  | .bool a, .bool b => a == b
  | .num a, .num b => decide (a = b)
  | .str a, .str b => a == b
  | .arr a, .arr b => sameAll a b
  | .obj n a, .obj m b => n == m && sameAll a b
  | _, _ => false
/-- The same for several values. -/
def sameAll : List Value → List Value → Bool
  | [], [] => true
  | a :: as, b :: bs => same a b && sameAll as bs
  | _, _ => false
end

mutual
theorem same_eq : ∀ (a b : Value), same a b = true → a = b
  | .null, b, h => by cases b <;> simp_all [same]
  | .bool _, b, h => by cases b <;> simp_all [same]
  | .num _, b, h => by cases b <;> simp_all [same]
  | .str _, b, h => by cases b <;> simp_all [same]
  | .arr a, b, h => by
    cases b with
    | arr b => simp only [same] at h; rw [sameAll_eq a b h]
    | _ => simp [same] at h
  | .obj n a, b, h => by
    cases b with
    | obj m b => simp only [same, Bool.and_eq_true, beq_iff_eq] at h; rw [sameAll_eq a b h.2, h.1]
    | _ => simp [same] at h
theorem sameAll_eq : ∀ (a b : List Value), sameAll a b = true → a = b
  | [], b, h => by cases b <;> simp_all [sameAll]
  | x :: xs, b, h => by
    cases b with
    | nil => simp [sameAll] at h
    | cons y ys => simp only [sameAll, Bool.and_eq_true] at h; rw [same_eq x y h.1, sameAll_eq xs ys h.2]
end

theorem simdjson_eq {line : Str} {v : Value} (h : (match simdjson line with | some w => same w v | none => false) = true) : simdjson line = some v := by
  split at h
  · rename_i w e; rw [e, same_eq w v h]
  · simp at h

/-! ## Finding values -/

theorem atKey_member (k : Str) : ∀ (ns : List Str) (vs : List Value), Member k ns vs (atKey k ns vs)
  | [], vs => by cases vs <;> simp [atKey, Member]
  | _ :: _, [] => by simp [atKey, Member]
  | n :: ns, v :: vs => by
    simp only [atKey]
    split
    · rename_i h
      subst h
      exact ⟨0, rfl, by intro j w hj; omega⟩
    · rename_i h
      have ih := atKey_member k ns vs
      cases he : atKey k ns vs with
      | none =>
        rw [he] at ih
        intro w hw
        simp only [List.zip_cons_cons, List.mem_cons, Prod.mk.injEq] at hw
        rcases hw with ⟨h1, _⟩ | hw
        · exact h h1.symm
        · exact ih w hw
      | some x =>
        rw [he] at ih
        obtain ⟨i, h1, h2⟩ := ih
        refine ⟨i + 1, by simpa using h1, ?_⟩
        intro j w hj
        cases j with
        | zero =>
          simp only [List.zip_cons_cons, List.getElem?_cons_zero, ne_eq, Option.some.injEq, Prod.mk.injEq, not_and]
          intro h1; exact absurd h1 h
        | succ j =>
          simp only [List.zip_cons_cons, List.getElem?_cons_succ]
          exact h2 j w (by omega)

theorem member_unique {k : Str} {ns : List Str} {vs : List Value} {r r' : Option Value} (h : Member k ns vs r) (h' : Member k ns vs r') : r = r' := by
  cases r with
  | none =>
    cases r' with
    | none => rfl
    | some v =>
      obtain ⟨i, h1, _⟩ := h'
      exact absurd (List.mem_of_getElem? h1) (h v)
  | some v =>
    obtain ⟨i, h1, h2⟩ := h
    cases r' with
    | none => exact absurd (List.mem_of_getElem? h1) (h' v)
    | some w =>
      obtain ⟨j, g1, g2⟩ := h'
      rcases Nat.lt_trichotomy i j with hl | rfl | hl
      · exact absurd h1 (g2 i v hl)
      · rw [h1] at g1
        simp only [Option.some.injEq, Prod.mk.injEq, true_and] at g1
        rw [g1]
      · exact absurd g1 (h2 j w hl)

theorem member_iff {k : Str} {ns : List Str} {vs : List Value} {r : Option Value} : Member k ns vs r ↔ atKey k ns vs = r :=
  ⟨fun h => member_unique (atKey_member k ns vs) h, fun h => h ▸ atKey_member k ns vs⟩

theorem splitDot_none {s : Str} (h : (46 : UInt8) ∉ s) : splitDot s = none := by
  induction s with
  | nil => rfl
  | cons b s ih =>
    simp only [List.mem_cons, not_or] at h
    simp only [splitDot]
    rw [if_neg (by intro e; exact h.1 e.symm), ih h.2]
    rfl

theorem splitDot_cons {a : Str} (h : (46 : UInt8) ∉ a) (s : Str) : splitDot (a ++ 46 :: s) = some (a, s) := by
  induction a with
  | nil => simp [splitDot, ch]
  | cons b a ih =>
    simp only [List.mem_cons, not_or] at h
    simp only [List.cons_append, splitDot]
    rw [if_neg (by intro e; exact h.1 e.symm), ih h.2]
    rfl

theorem lookup_finds : ∀ (parts : List Str) (f : Nat) (ns : List Str) (vs : List Value), parts ≠ [] → (∀ p ∈ parts, (46 : UInt8) ∉ p) →
    (dotted parts).length < f → ∀ r, Finds parts ns vs r ↔ lookup f (dotted parts) ns vs = r
  | [n], f + 1, ns, vs, _, hp, _, r => by
    simp only [dotted, lookup, splitDot_none (hp n (by simp))]
    constructor
    · intro h
      cases h with
      | last _ _ _ _ h => exact member_iff.mp h
    · intro h; exact .last _ _ _ _ (member_iff.mpr h)
  | n :: m :: p, f + 1, ns, vs, _, hp, hl, r => by
    have hlen : (dotted (m :: p)).length < f := by
      simp only [dotted, List.length_append, List.length_cons] at hl; omega
    have hd : dotted (n :: m :: p) = n ++ 46 :: dotted (m :: p) := rfl
    have ih := fun ns' vs' r => lookup_finds (m :: p) f ns' vs' (by simp) (fun q hq => hp q (List.mem_cons_of_mem _ hq)) hlen r
    simp only [lookup]
    rw [hd, splitDot_cons (hp n (by simp))]
    simp only
    constructor
    · intro h
      cases h with
      | inside _ _ _ _ ns' _ vs' _ h1 h2 => rw [member_iff.mp h1]; exact (ih ns' vs' r).mp h2
      | whole _ _ _ _ _ _ h1 h2 => rw [member_iff.mp h1]; exact member_iff.mp h2
      | blocked _ _ _ _ _ v h1 h2 =>
        rw [member_iff.mp h1]
        cases v with
        | obj ns' vs' => exact absurd rfl (h2 ns' vs')
        | _ => rfl
    · intro h
      cases ha : atKey n ns vs with
      | none =>
        rw [ha] at h
        exact .whole _ _ _ _ _ _ (member_iff.mpr ha) (member_iff.mpr h)
      | some v =>
        rw [ha] at h
        cases v with
        | obj ns' vs' => exact .inside _ _ _ _ ns' _ vs' _ (member_iff.mpr ha) ((ih ns' vs' r).mpr h)
        | _ => simp only at h; subst h; exact .blocked _ _ _ _ _ _ (member_iff.mpr ha) (by simp)

theorem parts_exists : ∀ (key : Str), ∃ parts, Parts key parts
  | [] => ⟨[[]], by simp, by simp, rfl⟩
  | b :: s => by
    obtain ⟨parts, h1, h2, h3⟩ := parts_exists s
    by_cases hb : b = 46
    · subst hb
      refine ⟨[] :: parts, by simp, ?_, ?_⟩
      · intro p hp
        rcases List.mem_cons.mp hp with rfl | hp
        · simp
        · exact h2 p hp
      · rw [dotted_cons h1, h3]; rfl
    · match parts, h1 with
      | [p], _ =>
        refine ⟨[b :: p], by simp, ?_, by simp [dotted] at h3 ⊢; exact h3⟩
        have := h2 p (by simp)
        simp only [List.mem_cons, List.not_mem_nil, or_false, forall_eq, not_or]
        exact ⟨fun e => hb e.symm, this⟩
      | p :: q :: ps, _ =>
        refine ⟨(b :: p) :: q :: ps, by simp, ?_, ?_⟩
        · intro x hx
          rcases List.mem_cons.mp hx with rfl | hx
          · have := h2 p (by simp)
            simp only [List.mem_cons, not_or]
            exact ⟨fun e => hb e.symm, this⟩
          · exact h2 x (List.mem_cons_of_mem _ hx)
        · rw [← h3]; rfl

theorem parts_unique : ∀ {key : Str} {p q : List Str}, Parts key p → Parts key q → p = q
  | key, [a], [b], ⟨_, _, h1⟩, ⟨_, _, h2⟩ => by
    simp only [dotted] at h1 h2; rw [h1, h2]
  | key, [a], b :: c :: q, ⟨_, g1, h1⟩, ⟨_, g2, h2⟩ => by
    exfalso
    have := splitDot_none (g1 a (by simp))
    have h3 := splitDot_cons (g2 b (by simp)) (dotted (c :: q))
    have h1' : a = key := h1
    have h2' : b ++ 46 :: dotted (c :: q) = key := h2
    rw [h1', ← h2', h3] at this
    simp at this
  | key, a :: d :: p, [b], ⟨_, g1, h1⟩, ⟨_, g2, h2⟩ => by
    exfalso
    have := splitDot_none (g2 b (by simp))
    have h3 := splitDot_cons (g1 a (by simp)) (dotted (d :: p))
    have h1' : a ++ 46 :: dotted (d :: p) = key := h1
    have h2' : b = key := h2
    rw [h2', ← h1', h3] at this
    simp at this
  | key, a :: d :: p, b :: c :: q, ⟨_, g1, h1⟩, ⟨_, g2, h2⟩ => by
    have e1 := splitDot_cons (g1 a (by simp)) (dotted (d :: p))
    have e2 := splitDot_cons (g2 b (by simp)) (dotted (c :: q))
    have h1' : a ++ 46 :: dotted (d :: p) = key := h1
    have h2' : b ++ 46 :: dotted (c :: q) = key := h2
    rw [h1'] at e1
    rw [h2', e1] at e2
    simp only [Option.some.injEq, Prod.mk.injEq] at e2
    obtain ⟨rfl, e2⟩ := e2
    have := parts_unique (key := dotted (d :: p)) (p := d :: p) (q := c :: q) ⟨by simp, fun x hx => g1 x (List.mem_cons_of_mem _ hx), rfl⟩
      ⟨by simp, fun x hx => g2 x (List.mem_cons_of_mem _ hx), e2.symm⟩
    rw [this]

/-! ## Leaves -/

theorem leafOf_leaf {t : Ty} (ht : ∀ fs, t ≠ .record fs) (name : Str) : leafOf name t = [(name, t)] := by
  cases t with
  | record fs => exact absurd rfl (ht fs)
  | _ => simp only [leafOf]

/-- The leaf of a field. -/
def LeafField (name : Str) (t : Ty) : Prop := leafOf name t = (pathsOf t).map (fun p => (dotted (name :: p.1), p.2))

theorem leafField_leaf {t : Ty} (ht : ∀ fs, t ≠ .record fs) (name : Str) : LeafField name t := by
  unfold LeafField
  rw [leafOf_leaf ht, pathsOf_leaf ht]; simp [dotted]

mutual
theorem leafField_paths : ∀ (t : Ty) (name : Str), LeafField name t
  | .record fs, name => by
    unfold LeafField
    simp only [leafOf, pathsOf, leaves_paths fs (name ++ [ch '.'])]
    apply List.map_congr_left
    intro p hp
    rw [dotted_cons (paths_ne fs p hp)]
    simp [ch]
  | .none, _ => leafField_leaf (by simp) _
  | .bool, _ => leafField_leaf (by simp) _
  | .int, _ => leafField_leaf (by simp) _
  | .count, _ => leafField_leaf (by simp) _
  | .real, _ => leafField_leaf (by simp) _
  | .duration, _ => leafField_leaf (by simp) _
  | .time, _ => leafField_leaf (by simp) _
  | .string, _ => leafField_leaf (by simp) _
  | .pattern, _ => leafField_leaf (by simp) _
  | .address, _ => leafField_leaf (by simp) _
  | .subnet, _ => leafField_leaf (by simp) _
  | .enum _, _ => leafField_leaf (by simp) _
  | .list _, _ => leafField_leaf (by simp) _
  | .map _ _, _ => leafField_leaf (by simp) _
  | .alias _, _ => leafField_leaf (by simp) _
theorem leaves_paths : ∀ (fs : Fields) (pre : Str), leaves pre fs = (paths fs).map (fun p => (pre ++ dotted p.1, p.2))
  | .nil, _ => by simp [leaves, paths]
  | .cons n t r, pre => by
    have h1 := leafField_paths t (pre ++ n)
    have g1 := leaves_paths r pre
    unfold LeafField at h1
    simp only [leaves, h1, g1, paths, List.map_append, List.map_map]
    congr 1
    apply List.map_congr_left
    intro p _
    simp only [Function.comp_apply, Prod.mk.injEq, and_true]
    by_cases hp : p.1 = []
    · simp [hp, dotted]
    · rw [dotted_cons hp, dotted_cons hp]; simp
end

/-! ## Numbers -/

theorem integral_value {n : Num} (h : n.Integral) : n.value = (if n.neg then -1 else 1) * (numeral n.int : Rat) := by
  simp [Num.value, Num.mantissa, h.1, h.2, numeral]

theorem classify_integral {n : Num} (h : n.Integral) (i : Int) (hv : n.value = i) (h0 : -(2 ^ 63) ≤ i) (h1 : i < 2 ^ 64) :
    (i < 2 ^ 63 ∧ classify n = .int i) ∨ (2 ^ 63 ≤ i ∧ classify n = .uint i.toNat) := by
  rw [integral_value h] at hv
  unfold classify
  rw [if_pos (show n.frac = [] ∧ n.exp = none from h)]
  simp only [value_numeral]
  cases hn : n.neg with
  | true =>
    rw [hn] at hv
    simp only [if_true, neg_one_mul] at hv
    have hi : i = -(numeral n.int : Int) := by exact_mod_cast hv.symm
    left
    refine ⟨by omega, ?_⟩
    simp only [if_true]
    rw [if_pos (by omega), hi]
  | false =>
    rw [hn] at hv
    simp only [Bool.false_eq_true, if_false, one_mul] at hv
    have hi : i = (numeral n.int : Int) := by exact_mod_cast hv.symm
    simp only [Bool.false_eq_true, if_false]
    by_cases hc : i < 2 ^ 63
    · left
      refine ⟨hc, ?_⟩
      rw [if_pos (by omega), hi]
    · right
      refine ⟨by omega, ?_⟩
      rw [if_neg (by omega), if_pos (by omega), hi]
      rfl

theorem integral_int {n : Num} (h : n.Integral) : ∃ i : Int, n.value = i := by
  rw [integral_value h]
  cases n.neg with
  | true => exact ⟨-(numeral n.int : Int), by simp⟩
  | false => exact ⟨(numeral n.int : Int), by simp⟩

theorem classify_double {n : Num} (h : ¬ n.Integral) (hb : |n.value| < 2 ^ 1024 - 2 ^ 970) : classify n = .double (rnd n.value) := by
  unfold classify
  rw [if_neg (show ¬ (n.frac = [] ∧ n.exp = none) from h), if_pos (abs_lt.mp hb)]

theorem classify_fraction {n : Num} (h : ¬ n.Integral) : (∃ x, classify n = .double x) ∨ classify n = .big := by
  unfold classify
  rw [if_neg (show ¬ (n.frac = [] ∧ n.exp = none) from h)]
  split
  · exact .inl ⟨_, rfl⟩
  · exact .inr rfl

mutual
theorem fits_of : ∀ (v : Value), Fits v → fits v = true
  | .num n, h => by
    simp only [Fits] at h
    simp only [fits]
    by_cases hi : n.Integral
    · obtain ⟨i, hv⟩ := integral_int hi
      have := h.1 hi
      rw [hv] at this
      have h0 : -(2 ^ 63) ≤ i := by exact_mod_cast this.1
      have h1 : i < 2 ^ 64 := by exact_mod_cast this.2
      rcases classify_integral hi i hv h0 h1 with ⟨_, e⟩ | ⟨_, e⟩ <;> rw [e]
    · rw [classify_double hi (h.2 hi)]
  | .arr xs, h => by simp only [Fits] at h; simp only [fits]; exact fitsAll_of xs h
  | .obj _ xs, h => by simp only [Fits] at h; simp only [fits]; exact fitsAll_of xs h
  | .null, _ => rfl
  | .bool _, _ => rfl
  | .str _, _ => rfl
theorem fitsAll_of : ∀ (vs : List Value), FitsAll vs → fitsAll vs = true
  | [], _ => rfl
  | v :: vs, h => by
    simp only [FitsAll] at h
    simp only [fitsAll, fits_of v h.1, fitsAll_of vs h.2, Bool.and_self]
end

theorem seconds_exact (env : Env) (k : Int) (h : |k| < 2 ^ 32) : fromSeconds env (k : Rat) = k * 10 ^ 9 := by
  have hk : k.natAbs < 2 ^ 32 := by rw [Int.abs_eq_natAbs] at h; omega
  have h1 : rnd (k : Rat) = k := rnd_int k (by omega)
  have h2 : rnd (((k * 10 ^ 9 : Int)) : Rat) = ((k * 10 ^ 9 : Int) : Rat) := by
    have hm : k.natAbs * 1953125 < 2 ^ 53 := by omega
    have hr := rnd_nat (k.natAbs * 1953125) 9 hm
    have e : k.natAbs * 1953125 * 2 ^ 9 = k.natAbs * 10 ^ 9 := by omega
    rw [e] at hr
    by_cases hn : k < 0
    · have e2 : ((k * 10 ^ 9 : Int) : Rat) = -((k.natAbs * 10 ^ 9 : Nat) : Rat) := by
        have : k * 10 ^ 9 = -((k.natAbs * 10 ^ 9 : Nat) : Int) := by omega
        rw [this, Int.cast_neg, Int.cast_natCast]
      rw [e2, rnd_neg, hr]
    · have e2 : ((k * 10 ^ 9 : Int) : Rat) = ((k.natAbs * 10 ^ 9 : Nat) : Rat) := by
        have : k * 10 ^ 9 = ((k.natAbs * 10 ^ 9 : Nat) : Int) := by omega
        rw [this, Int.cast_natCast]
      rw [e2, hr]
  unfold fromSeconds
  rw [h1]
  have e : (k : Rat) * 10 ^ 9 = ((k * 10 ^ 9 : Int) : Rat) := by push_cast; ring
  rw [e, h2, trunc_int]
  exact int64_in env (by omega) (by omega)

/-! ## Conversions -/

theorem full_some {α : Type} {p : P α} {s : Str} {x : α} (h : p s = some (x, [])) : full p s = some x := by
  unfold full; rw [h]

theorem withNumbers_times (env : Env) : ∃ env', withNumbers env = withTimes env' :=
  ⟨{ env with
    real := fun l => .fin (litVal l)
    scale := scale env
    printReal := fun x => (printReal 10 x).getD (env.printReal x)
    printDuration := fun d => (printDuration d).getD (env.printDuration d) }, rfl⟩

theorem idxOf_first {labels : List Str} {i : Nat} {s : Str} (h : labels[i]? = some s) (hn : s ∉ labels.take i) : labels.idxOf? s = some i := by
  induction labels generalizing i with
  | nil => simp at h
  | cons l labels ih =>
    rw [List.idxOf?_cons]
    cases i with
    | zero =>
      simp only [List.getElem?_cons_zero, Option.some.injEq] at h
      subst h; simp
    | succ i =>
      simp only [List.take_succ_cons, List.mem_cons, not_or] at hn
      have hb : (l == s) = false := by simpa using fun e => hn.1 e.symm
      simp only [List.getElem?_cons_succ] at h
      rw [hb, ih h hn.2]
      simp

theorem mapSet_last (k v : Data) : ∀ (m : List (Data × Data)), (∀ e ∈ m, e.1.lt k = true) → mapSet k v m = m ++ [(k, v)]
  | [], _ => rfl
  | (a, b) :: m, h => by
    have h1 := h (a, b) (by simp)
    simp only at h1
    simp only [mapSet, h1, if_true, List.cons_append]
    rw [mapSet_last k v m fun e he => h e (by simp [he])]

theorem fold_sorted : ∀ (es m : List (Data × Data)), (m ++ es).Pairwise (fun a b => a.1.lt b.1 = true) →
    es.foldl (fun m e => mapSet e.1 e.2 m) m = m ++ es
  | [], m, _ => by simp
  | e :: es, m, h => by
    have hm : ∀ x ∈ m, x.1.lt e.1 = true := by
      intro x hx
      exact (List.pairwise_append.mp h).2.2 x hx e (by simp)
    rw [List.foldl_cons, mapSet_last e.1 e.2 m hm, fold_sorted es (m ++ [e])]
    · simp
    · simpa using h

theorem mapOf_sorted (es : List (Data × Data)) (h : es.Pairwise (fun a b => a.1.lt b.1 = true)) : mapOf es = .map (es.map Prod.fst) (es.map Prod.snd) := by
  unfold mapOf
  rw [fold_sorted es [] (by simpa using h)]
  simp

theorem pairwise_zip {R : Data → Data → Prop} : ∀ {ks xs : List Data}, ks.Pairwise R → (ks.zip xs).Pairwise (fun a b => R a.1 b.1)
  | [], _, _ => by simp
  | _ :: _, [], _ => by simp
  | k :: ks, x :: xs, h => by
    rw [List.pairwise_cons] at h
    rw [List.zip_cons_cons, List.pairwise_cons]
    refine ⟨?_, pairwise_zip h.2⟩
    intro e he
    exact h.1 e.1 (List.of_mem_zip he).1

/-- The conversion of a JSON value gives what it stands for. -/
def Converts (env : Env) (v : Value) (t : Ty) (x : Data) : Prop := convert (withNumbers env) v t = some x

theorem find_mem {n : Str} {t : Ty} : ∀ {fs : Fields}, fs.find n = some t → n ∈ fs.names
  | .nil, h => by simp [Fields.find] at h
  | .cons m u rest, h => by
    simp only [Fields.find] at h
    split at h
    · rename_i e; simp [Fields.names, e]
    · simp [Fields.names, find_mem h]

/-! ## Words and digits -/

theorem numeral_lt : ∀ {ds : List Nat}, (∀ d ∈ ds, d < 10) → numeral ds < 10 ^ ds.length
  | [], _ => by simp [numeral]
  | d :: ds, h => by
    have h1 := numeral_lt (ds := ds) fun e he => h e (by simp [he])
    have h2 : d < 10 := h d (by simp)
    have h3 : d * 10 ^ ds.length ≤ 9 * 10 ^ ds.length := Nat.mul_le_mul_right _ (by omega)
    simp only [numeral, List.length_cons, Nat.pow_succ]
    omega

theorem numeral_inj_length : ∀ {ds es : List Nat}, (∀ d ∈ ds, d < 10) → (∀ d ∈ es, d < 10) → ds.length = es.length → numeral ds = numeral es → ds = es
  | [], [], _, _, _, _ => rfl
  | d :: ds, e :: es, h1, h2, hl, h => by
    have hl' : ds.length = es.length := by simpa using hl
    have b1 := numeral_lt (ds := ds) fun e he => h1 e (by simp [he])
    have b2 := numeral_lt (ds := es) fun e he => h2 e (by simp [he])
    simp only [numeral, hl'] at h
    rw [hl'] at b1
    have hde : d = e := by
      rcases Nat.lt_trichotomy d e with hlt | heq | hlt
      · have : (d + 1) * 10 ^ es.length ≤ e * 10 ^ es.length := Nat.mul_le_mul_right _ hlt
        rw [Nat.add_mul] at this; omega
      · exact heq
      · have : (e + 1) * 10 ^ es.length ≤ d * 10 ^ es.length := Nat.mul_le_mul_right _ hlt
        rw [Nat.add_mul] at this; omega
    subst hde
    rw [numeral_inj_length (fun e he => h1 e (by simp [he])) (fun e he => h2 e (by simp [he])) hl' (by omega)]

theorem numeral_ge {d : Nat} {ds : List Nat} (h : d ≠ 0) : 10 ^ ds.length ≤ numeral (d :: ds) := by
  have : 1 * 10 ^ ds.length ≤ d * 10 ^ ds.length := Nat.mul_le_mul_right _ (by omega)
  simp only [numeral]; omega

theorem numeral_length_le {ds es : List Nat} (h1 : Digits ds) (h2 : Digits es) (hz : Number.Spec.NoLeadingZero ds) (h : numeral ds = numeral es) :
    ds.length ≤ es.length := by
  obtain ⟨hne, hd⟩ := h1
  cases ds with
  | nil => exact absurd rfl hne
  | cons d ds =>
    rcases hz with hz | hz
    · rw [hz]; have := List.length_pos_iff.mpr h2.1; simp; omega
    · have hd0 : d ≠ 0 := by simpa using hz
      have b1 := numeral_ge (ds := ds) hd0
      have b2 := numeral_lt h2.2
      rw [← h] at b2
      have : ds.length < es.length := (Nat.pow_lt_pow_iff_right (a := 10) (by omega)).mp (by omega)
      simp only [List.length_cons]; omega

theorem digits_canonical {ds : List Nat} {n : Nat} (hd : Digits ds) (hz : Number.Spec.NoLeadingZero ds) (h : numeral ds = n) : digits n = ds := by
  have he : numeral (digits n) = numeral ds := by rw [Number.numeral_digits, h]
  exact numeral_inj_length (digits_lt n) hd.2
    (Nat.le_antisymm (numeral_length_le (Number.digits_ok n) hd (Number.noLeading_digits n) he)
      (numeral_length_le hd (Number.digits_ok n) hz he.symm)) he

theorem takeSign_word {neg : Bool} {p : Str} {ds : List Nat} (hs : Signed neg p) (hd : Digits ds) : takeSign (p ++ digitText ds) = (neg, txt ds ++ []) := by
  rw [List.append_nil, Number.txt_digitText]
  rcases hs with ⟨rfl, rfl⟩ | ⟨rfl, rfl⟩ | ⟨rfl, rfl⟩
  · have := takeSign_txt ds hd.2 hd.1 []
    rw [List.append_nil, Number.txt_digitText] at this
    exact this
  · rfl
  · rfl

theorem word_ne {p : Str} {ds : List Nat} (hd : Digits ds) : p ++ digitText ds ≠ [] := by
  intro h
  rw [List.append_eq_nil_iff] at h
  exact hd.1 (by simpa [digitText] using h.2)

theorem int64P_word (env : Env) {neg : Bool} {p : Str} {ds : List Nat} (hs : Signed neg p) (hd : Digits ds) (hl : ds.length ≤ 19)
    (h0 : -(2 ^ 63) ≤ signedNumeral neg ds) (h1 : signedNumeral neg ds < 2 ^ 63) :
    int64P env (p ++ digitText ds) = some (signedNumeral neg ds, []) := by
  have e := takeDigits_all 19 ds hd.2 hl [] rfl
  have hx : (if neg = true then -(value ds : Int) else (value ds : Int)) = signedNumeral neg ds := by rw [value_numeral]; rfl
  simp only [int64P, if_neg (word_ne hd), takeSign_word hs hd, e, if_neg hd.1, hx, Env.int64]
  rw [if_pos ⟨h0, h1⟩]

theorem digit_not (d : Nat) (h : d < 10) (c : UInt8) (hc : c.toNat < 48 ∨ 57 < c.toNat) : (48 + d).toUInt8 ≠ c := by
  intro e
  have : (48 + d).toUInt8.toNat = 48 + d := by simp; omega
  rw [e] at this; omega

theorem hexP_word {neg : Bool} {p : Str} {ds : List Nat} (hs : Signed neg p) (hd : Digits ds) : hexP (p ++ digitText ds) = none := by
  obtain ⟨hne, hd⟩ := hd
  cases ds with
  | nil => exact absurd rfl hne
  | cons d ds =>
    have hx : ∀ r : Str, ∀ c : Char, (c = 'x' ∨ c = 'X') → kw [c] (digitText ds) = none := by
      intro r c hc
      cases ds with
      | nil => rcases hc with rfl | rfl <;> rfl
      | cons e es =>
        have he : e < 10 := hd e (by simp)
        have : (48 + e).toUInt8 ≠ ch c := digit_not e he _ (by rcases hc with rfl | rfl <;> decide)
        simp only [kw, digitText, List.map_cons, eat, if_neg this]
    rcases hs with ⟨rfl, rfl⟩ | ⟨rfl, rfl⟩ | ⟨rfl, rfl⟩
    · by_cases h0 : d = 0
      · subst h0
        have a1 := hx [] 'x' (.inl rfl)
        have a2 := hx [] 'X' (.inr rfl)
        simp only [hexP, List.nil_append]
        have b1 : kw ['0', 'x'] (digitText (0 :: ds)) = kw ['x'] (digitText ds) := rfl
        have b2 : kw ['0', 'X'] (digitText (0 :: ds)) = kw ['X'] (digitText ds) := rfl
        rw [b1, b2, a1, a2]; rfl
      · have hdd : d < 10 := hd d (by simp)
        have : (48 + d).toUInt8 ≠ ch '0' := by
          intro e
          have h2 : (48 + d).toUInt8.toNat = 48 + d := by simp; omega
          rw [e] at h2
          have : (ch '0').toNat = 48 := rfl
          omega
        simp only [hexP, kw, digitText, List.map_cons, List.nil_append, eat, if_neg this]; rfl
    · rfl
    · rfl

theorem countP_word {ds : List Nat} (hd : Digits ds) (hl : ds.length ≤ 20) (h : numeral ds < 2 ^ 64) : jsonCountP (digitText ds) = some (numeral ds, []) := by
  have e := takeDigits_all 20 ds hd.2 hl [] rfl
  rw [List.append_nil, Number.txt_digitText] at e
  have h1 : hexP (digitText ds) = none := hexP_word (p := []) (.inl ⟨rfl, rfl⟩) hd
  have h2 : 1 ≤ ds.length := List.length_pos_iff.mpr hd.1
  simp only [jsonCountP, h1, uintP, e, if_pos h2, value_numeral, Nat.mod_eq_of_lt h, Option.none_or]

theorem numberP_word (env : Env) {neg : Bool} {p : Str} {ds : List Nat} (hs : Signed neg p) (hd : Digits ds) (hl : ds.length ≤ 20) (h : numeral ds < 2 ^ 53) :
    jsonNumberP (withNumbers env) (p ++ digitText ds) = some (.fin (signedNumeral neg ds), []) := by
  have e := realP_digits false (word_ne hd) (takeSign_word hs hd) hd.2 hd.1 hl rfl
  have hv : litVal ⟨neg, ds, []⟩ = signedNumeral neg ds := by
    have := litVal_whole ds (by rw [value_numeral]; exact h)
    rw [value_numeral] at this
    cases neg
    · rw [this]; simp [signedNumeral]
    · have h2 : litVal ⟨true, ds, []⟩ = -litVal ⟨false, ds, []⟩ := by simp [litVal]
      rw [h2, this]; simp [signedNumeral]
  simp only [jsonNumberP, hexP_word hs hd, e, withNumbers]
  simp [hv]

theorem hex_facts {b : UInt8} {n : Nat} (h : Hex b n) : isXDigit b = true ∧ hexVal b = n := by
  cases h with
  | digit d h => revert h; revert n; decide
  | upper d h => revert h; revert d; decide
  | lower d h => revert h; revert d; decide

theorem hex_fold : ∀ {hs : Str} {ds : List Nat}, List.Forall₂ Hex hs ds → ∀ a : Nat, hs.foldl (fun a b => a * 16 + hexVal b) a = a * 16 ^ ds.length + hexNumeral ds
  | [], [], _, a => by simp [hexNumeral]
  | b :: hs, d :: ds, h, a => by
    cases h with
    | cons h1 h2 =>
      simp only [List.foldl_cons, hex_fold h2, hexNumeral, List.length_cons, (hex_facts h1).2, Nat.pow_succ]
      ring

theorem hex_all : ∀ {hs : Str} {ds : List Nat}, List.Forall₂ Hex hs ds → ∀ b ∈ hs, isXDigit b = true
  | _ :: _, _ :: _, .cons h1 h2, b, hb => by
    rcases List.mem_cons.mp hb with rfl | hb
    · exact (hex_facts h1).1
    · exact hex_all h2 b hb

theorem takeWhile_all : ∀ {hs : Str}, (∀ b ∈ hs, isXDigit b = true) → hs.takeWhile isXDigit = hs
  | [], _ => rfl
  | b :: hs, h => by rw [List.takeWhile_cons_of_pos (h b (by simp)), takeWhile_all fun c hc => h c (by simp [hc])]

theorem countP_hex {x : UInt8} {hs : Str} {ds : List Nat} (hx : x = 120 ∨ x = 88) (hne : hs ≠ []) (hl : hs.length ≤ 16) (h : List.Forall₂ Hex hs ds) :
    jsonCountP (48 :: x :: hs) = some (hexNumeral ds, []) := by
  have hk : (kw ['0', 'x'] (48 :: x :: hs)).or (kw ['0', 'X'] (48 :: x :: hs)) = some hs := by
    rcases hx with rfl | rfl <;> rfl
  have ht : (hs.take 16).takeWhile isXDigit = hs := by
    rw [List.take_of_length_le hl]
    exact takeWhile_all (hex_all h)
  have hf := hex_fold h 0
  simp only [jsonCountP, hexP, hk, ht, if_neg hne, hf, List.drop_length, Nat.zero_mul, Nat.zero_add, Option.some_or]

theorem means_convert (env : Env) {v : Value} {t : Ty} {x : Data} (h : Means v t x) : Converts env v t x := by
  refine Means.rec (motive_1 := fun v t x _ => Converts env v t x)
    (motive_2 := fun vs t xs _ => convertAll (withNumbers env) vs t = some xs ∧ vs.length = xs.length
      ∧ ∀ ns : List Str, ns.length = vs.length → convertEntries (withNumbers env) ns vs .string t = some ((ns.map Data.string).zip xs))
    (motive_3 := fun fs ns vs xs _ => fs.names = ns ∧ ns.length = xs.length ∧ ∀ whole : Fields, ns.Nodup → (∀ n t, fs.find n = some t → whole.find n = some t) →
      convertMembers (withNumbers env) ns vs whole = some (ns.zip xs))
    ?_ ?_ ?_ ?_ ?_ ?_ ?_ ?_ ?_ ?_ ?_ ?_ ?_ ?_ ?_ ?_ ?_ ?_ ?_ ?_ ?_ ?_ ?_ ?_ ?_ ?_ ?_ ?_ h
  · intro t; simp [Converts, convert]
  · intro b; rfl
  · intro b; cases b <;> rfl
  · intro n i hn hv h0 h1
    rcases classify_integral hn i hv h0 (by omega) with ⟨_, e⟩ | ⟨h, _⟩
    · simp [Converts, convert, e, convertNumber]
    · omega
  · intro n k hn hv hk
    have hv' : n.value = ((k : Int) : Rat) := by rw [hv]; simp
    rcases classify_integral hn k hv' (by omega) (by omega) with ⟨_, e⟩ | ⟨_, e⟩
    · simp only [Converts, convert, e, convertNumber]
      congr 2
      omega
    · simp [Converts, convert, e, convertNumber]
  · intro n hn hn2
    by_cases hi : n.Integral
    · obtain ⟨i, hv⟩ := integral_int hi
      have hn := hn hi
      rw [hv] at hn
      have h0 : -(2 ^ 63) ≤ i := by exact_mod_cast hn.1
      have h1 : i < 2 ^ 64 := by exact_mod_cast hn.2
      rcases classify_integral hi i hv h0 h1 with ⟨_, e⟩ | ⟨_, e⟩
      · simp [Converts, convert, e, convertNumber, hv]
      · have e2 : ((i.toNat : Nat) : Rat) = (i : Rat) := by
          rw [← Int.cast_natCast, Int.toNat_of_nonneg (by omega)]
        simp only [Converts, convert, e, convertNumber, hv, e2]
    · simp only [Converts, convert, classify_double hi (hn2 hi), convertNumber]
  · intro n k hn hv hk
    have hk' := abs_lt.mp hk
    rcases classify_integral hn k hv (by omega) (by omega) with ⟨_, e⟩ | ⟨h, _⟩
    · simp [Converts, convert, e, convertNumber, seconds_exact _ k hk]
    · omega
  · intro n k hn hv hk
    have hk' := abs_lt.mp hk
    rcases classify_integral hn k hv (by omega) (by omega) with ⟨_, e⟩ | ⟨h, _⟩
    · simp [Converts, convert, e, convertNumber, seconds_exact _ k hk]
    · omega
  · intro d name u t h0 h1 hu hw ht
    obtain ⟨g1, g2, g3⟩ := duration_whole env d h0 h1 name u hu hw
    rw [g1] at ht
    simp only [Option.some.injEq] at ht
    subst ht
    have := durationP_num (digits_ok _) (fs := [0]) ⟨by simp, by simp⟩ (digits_length 20 (d.natAbs / u) (by omega) (by omega)) (by simp) (decide (d < 0))
      (withNumbers env) name u hu.1
    have hs : (withNumbers env).scale ⟨decide (d < 0), digits (d.natAbs / u), [0]⟩ u = d := g2
    rw [hs] at this
    simp [Converts, convert, convertString, full_some this]
  · intro t h0 h1 hw
    obtain ⟨env', he⟩ := withNumbers_times env
    have := ymd_whole env' t h0 h1 hw
    have h2 : timeP (withTimes env') (printTime t) = some (t, []) := by simp [timeP, this]
    simp [Converts, convert, convertString, he, full_some h2]
  · intro s; rfl
  · intro s hs
    have := quotedP_pattern s hs []
    rw [List.append_nil] at this
    have h2 : quotedP '/' (47 :: (s ++ [47])) = some (s, []) := this
    simp [Converts, convert, convertString, full_some h2]
  · intro a
    have := addrP_print a [] rfl
    rw [List.append_nil] at this
    simp [Converts, convert, convertString, full_some this]
  · intro n hn
    have := netP_print n hn [] rfl
    rw [List.append_nil] at this
    simp [Converts, convert, convertString, full_some this]
  · intro labels i s h1 h2 h3
    simp only [Converts, convert, convertString, idxOf_first h1 h2, Option.map_some]
    congr 2
    omega
  · intro t vs xs _ ih
    simp [Converts, convert, ih.1]
  · intro t ns vs xs _ hl hs ih
    obtain ⟨_, h2, h3⟩ := ih
    simp only [Converts, convert, h3 ns hl, Option.map_some]
    have hp : ((ns.map Data.string).zip xs).Pairwise (fun a b => a.1.lt b.1 = true) := by
      apply pairwise_zip (R := fun a b => a.lt b = true)
      rw [List.pairwise_map]; exact hs
    rw [mapOf_sorted _ hp, List.map_fst_zip (by simp; omega), List.map_snd_zip (by simp; omega)]
  · intro fs ns vs xs _ hn ih
    simp only [Converts, convert, ih.2.2 fs hn (fun _ _ h => h), Option.map_some, mkRecord_zip ns xs ih.2.1 hn]
  · intro neg p ds hs hd hl h0 h1
    simp [Converts, convert, convertString, full_some (int64P_word (withNumbers env) hs hd hl h0 h1)]
  · intro ds hd hl h
    simp [Converts, convert, convertString, full_some (countP_word hd hl h)]
  · intro x hs ds hx hne hl h
    simp [Converts, convert, convertString, full_some (countP_hex hx hne hl h)]
  · intro neg p ds hs hd hl h
    simp [Converts, convert, convertString, full_some (numberP_word env hs hd hl h)]
  · intro n i ds hn hv h0 h1 hd hz he
    have e' : printNat i.natAbs = digitText ds := by
      rw [← Number.txt_digitText, printNat_eq, digits_canonical hd hz he]
    rcases classify_integral hn i hv h0 (by omega) with ⟨_, e⟩ | ⟨h, e⟩
    · simp only [Converts, convert, e, convertNumber, intText, e']
      split <;> rfl
    · have e2 : i.toNat = i.natAbs := by omega
      have e3 : ¬ i < 0 := by omega
      simp [Converts, convert, e, convertNumber, e2, e', e3]
  · intro b; cases b <;> rfl
  · intro t
    refine ⟨rfl, rfl, ?_⟩
    intro ns hl
    have : ns = [] := by simpa using hl
    subst this; rfl
  · intro v t x vs xs _ _ ih1 ih2
    obtain ⟨h1, h2, h3⟩ := ih2
    refine ⟨?_, by simp [h2], ?_⟩
    · unfold Converts at ih1
      simp only [convertAll, ih1, h1]
    · intro ns hl
      cases ns with
      | nil => simp at hl
      | cons n ns =>
        unfold Converts at ih1
        simp only [convertEntries, convertString, ih1, h3 ns (by simpa using hl), List.map_cons, List.zip_cons_cons]
  · exact ⟨rfl, rfl, fun _ _ _ => rfl⟩
  · intro n t rest v x ns vs xs _ _ ih1 ih2
    obtain ⟨h1, h2, h3⟩ := ih2
    refine ⟨by simp [Fields.names, h1], by simp [h2], ?_⟩
    intro whole hn hw
    rw [List.nodup_cons] at hn
    have e1 : whole.find n = some t := hw n t (by simp [Fields.find])
    have e2 := h3 whole hn.2 fun m u hm => hw m u (by
      have : n ≠ m := by
        rintro rfl
        exact hn.1 (h1 ▸ find_mem hm)
      simp only [Fields.find, if_neg this, hm])
    unfold Converts at ih1
    simp only [convertMembers, e1, ih1, e2, List.zip_cons_cons]

theorem means_check {v : Value} {t : Ty} {x : Data} (h : Means v t x) : typeCheck x t = true := by
  refine Means.rec (motive_1 := fun v t x _ => typeCheck x t = true)
    (motive_2 := fun vs t xs _ => ∀ x ∈ xs, typeCheck x t = true)
    (motive_3 := fun fs ns vs xs _ => typeCheckFields ns xs fs = true)
    ?_ ?_ ?_ ?_ ?_ ?_ ?_ ?_ ?_ ?_ ?_ ?_ ?_ ?_ ?_ ?_ ?_ ?_ ?_ ?_ ?_ ?_ ?_ ?_ ?_ ?_ ?_ ?_ h
  · intro t; cases t <;> simp [typeCheck]
  · intros; simp [typeCheck]
  · intros; simp [typeCheck]
  · intros; simp [typeCheck]
  · intros; simp [typeCheck]
  · intros; simp [typeCheck]
  · intros; simp [typeCheck]
  · intros; simp [typeCheck]
  · intros; simp [typeCheck]
  · intros; simp [typeCheck]
  · intros; simp [typeCheck]
  · intros; simp [typeCheck]
  · intros; simp [typeCheck]
  · intros; simp [typeCheck]
  · intro labels i s h _ _
    simp only [typeCheck, decide_eq_true_eq]
    exact (List.getElem?_eq_some_iff.mp h).1
  · intro t vs xs _ ih
    cases xs with
    | nil => simp [typeCheck]
    | cons x xs => simp only [typeCheck]; exact ih x (by simp)
  · intro t ns vs xs _ _ _ ih
    cases xs with
    | nil => cases ns <;> simp [typeCheck]
    | cons x xs =>
      cases ns with
      | nil => simp [typeCheck]
      | cons n ns => simp [typeCheck, ih x (by simp)]
  · intro fs ns vs xs _ _ ih
    simpa [typeCheck] using ih
  · intros; simp [typeCheck]
  · intros; simp [typeCheck]
  · intros; simp [typeCheck]
  · intros; simp [typeCheck]
  · intros; simp [typeCheck]
  · intros; simp [typeCheck]
  · intro t x hx; simp at hx
  · intro v t x vs xs _ _ ih1 ih2 y hy
    rcases List.mem_cons.mp hy with rfl | hy
    · exact ih1
    · exact ih2 y hy
  · rfl
  · intro n t rest v x ns vs xs _ _ ih1 ih2
    simp [typeCheckFields, ih1, ih2]

theorem convertAll_none {env : Env} {v : Value} {t : Ty} (h : convert env v t = none) : ∀ {vs : List Value}, v ∈ vs → convertAll env vs t = none
  | w :: vs, hm => by
    simp only [convertAll]
    rcases List.mem_cons.mp hm with rfl | hm
    · rw [h]
    · rw [convertAll_none h hm]
      cases convert env w t <;> rfl

theorem takeDigits_stays {b : UInt8} (hb : isDigit b = false) : ∀ (n : Nat) (s : Str), b ∈ s → b ∈ (takeDigits n s).2
  | 0, _, h => h
  | _ + 1, [], h => h
  | n + 1, c :: s, h => by
    simp only [takeDigits]
    by_cases hc : isDigit c = true
    · rw [if_pos hc]
      rcases List.mem_cons.mp h with rfl | h
      · rw [hb] at hc; cases hc
      · exact takeDigits_stays hb n s h
    · rw [if_neg hc]; exact h

theorem takeSign_stays {b : UInt8} (h1 : b ≠ 43) (h2 : b ≠ 45) : ∀ (s : Str), b ∈ s → b ∈ (takeSign s).2
  | [], h => h
  | c :: s, h => by
    simp only [takeSign]
    have k1 : ch '-' = 45 := rfl
    have k2 : ch '+' = 43 := rfl
    rcases List.mem_cons.mp h with rfl | h
    · rw [if_neg (by rw [k1]; exact h2), if_neg (by rw [k2]; exact h1)]; simp
    · split
      · exact h
      · split
        · exact h
        · simp [h]

theorem eat_stays {b : UInt8} {c : Char} (hc : b ≠ ch c) {s r : Str} (h : b ∈ s) (he : eat c s = some r) : b ∈ r := by
  cases s with
  | nil => cases h
  | cons a s =>
    simp only [eat] at he
    split at he
    · rename_i ha
      simp only [Option.some.injEq] at he
      subst he
      rcases List.mem_cons.mp h with rfl | h
      · exact absurd ha hc
      · exact h
    · cases he

theorem takeWhile_stays {b : UInt8} {q : UInt8 → Bool} (hb : q b = false) : ∀ (n : Nat) (s : Str), b ∈ s → b ∈ s.drop ((s.take n).takeWhile q).length
  | 0, _, h => by simpa using h
  | _ + 1, [], h => by cases h
  | n + 1, c :: s, h => by
    rw [List.take_succ_cons]
    by_cases hc : q c = true
    · rw [List.takeWhile_cons_of_pos hc, List.length_cons, List.drop_succ_cons]
      rcases List.mem_cons.mp h with rfl | h
      · rw [hb] at hc; cases hc
      · exact takeWhile_stays hb n s h
    · rw [List.takeWhile_cons_of_neg hc]; exact h

/-- What no number has is not consumed. -/
theorem number_stays (env : Env) {b : UInt8} (hb : NoNumber b) {s : Str} (h : b ∈ s) :
    (∀ x r, hexP s = some (x, r) → b ∈ r) ∧ (∀ x r, uintP 64 20 1 s = some (x, r) → b ∈ r) ∧ (∀ x r, int64P env s = some (x, r) → b ∈ r)
    ∧ ∀ x r, realP false s = some (x, r) → b ∈ r := by
  obtain ⟨b1, b2, b3, b4, b5, b6, b7, b8⟩ := hb
  have hd : isDigit b = false := by simp [isDigit]; omega
  have hx : isXDigit b = false := by simp [isXDigit, hd]; omega
  have ne : ∀ c : UInt8, b.toNat ≠ c.toNat → b ≠ c := fun c h e => h (by rw [e])
  have n0 : b ≠ ch '0' := ne _ (by rw [show (ch '0').toNat = 48 from rfl]; omega)
  have nx : b ≠ ch 'x' := ne _ (by rw [show (ch 'x').toNat = 120 from rfl]; omega)
  have nX : b ≠ ch 'X' := ne _ (by rw [show (ch 'X').toNat = 88 from rfl]; omega)
  have np : b ≠ ch '.' := ne _ (by rw [show (ch '.').toNat = 46 from rfl]; omega)
  have ns := takeSign_stays (ne 43 b4) (ne 45 b5) s h
  refine ⟨?_, ?_, ?_, ?_⟩
  · intro x r he
    have hk : ∀ c, b ≠ ch c → ∀ r, kw ['0', c] s = some r → b ∈ r := by
      intro c hc r hr
      simp only [kw] at hr
      split at hr
      · cases hr
      · rename_i r1 h1
        split at hr
        · cases hr
        · rename_i r2 h2
          cases hr
          exact eat_stays hc (eat_stays n0 h h1) h2
    simp only [hexP] at he
    split at he
    · cases he
    · rename_i r1 h1
      split at he
      · cases he
      · simp only [Option.some.injEq, Prod.mk.injEq] at he
        rw [← he.2]
        apply takeWhile_stays hx
        rw [Option.or_eq_some_iff] at h1
        rcases h1 with h1 | ⟨_, h1⟩
        · exact hk _ nx _ h1
        · exact hk _ nX _ h1
  · intro x r he
    simp only [uintP] at he
    split at he
    · simp only [Option.some.injEq, Prod.mk.injEq] at he
      rw [← he.2]; exact takeDigits_stays hd _ _ h
    · cases he
  · intro x r he
    simp only [int64P] at he
    split at he
    · cases he
    · split at he
      · cases he
      · simp only [Option.some.injEq, Prod.mk.injEq] at he
        rw [← he.2]; exact takeDigits_stays hd _ _ ns
  · intro x r he
    simp only [realP] at he
    split at he
    · cases he
    · have h1 := takeDigits_stays hd 20 _ ns
      split at he
      · rename_i r1 hr
        split at he
        · cases he
        · simp only [Option.some.injEq, Prod.mk.injEq] at he
          rw [← he.2]; exact takeDigits_stays hd _ _ (eat_stays np h1 hr)
      · split at he
        · cases he
        · simp only [Option.some.injEq, Prod.mk.injEq] at he
          rw [← he.2]; exact takeDigits_stays hd _ _ h1

theorem full_none {α : Type} {p : P α} {s : Str} {b : UInt8} (h : ∀ x r, p s = some (x, r) → b ∈ r) : full p s = none := by
  unfold full
  split
  · rename_i x hx
    have := h _ _ hx
    simp at this
  · rfl

theorem foreign_convert (env : Env) {v : Value} {t : Ty} (h : Foreign v t) : convert env v t = none := by
  induction h with
  | bool b t _ h1 h2 => cases t <;> first | rfl | exact absurd rfl h1 | exact absurd rfl h2
  | num n t _ h1 h2 h3 h4 h5 h6 =>
    simp only [convert]
    cases t <;> first
      | exact absurd rfl h1 | exact absurd rfl h2 | exact absurd rfl h3 | exact absurd rfl h4 | exact absurd rfl h5 | exact absurd rfl h6
      | (cases classify n <;> rfl)
  | fraction n t h1 h2 =>
    simp only [convert]
    rcases classify_fraction h1 with ⟨x, e⟩ | e <;> rw [e] <;> rcases h2 with rfl | rfl <;> rfl
  | word s h1 h2 => simp only [convert, convertString]; rw [if_neg h1, if_neg h2]
  | label s labels h =>
    simp only [convert, convertString]
    rw [List.idxOf?_eq_none_iff.mpr h]; rfl
  | number s b t hm hb ht =>
    obtain ⟨n1, n2, n3, n4⟩ := number_stays env hb hm
    have c1 : full (int64P env) s = none := full_none n3
    have c2 : full (jsonNumberP env) s = none := full_none (b := b) (by
      intro x r h
      simp only [jsonNumberP] at h
      split at h
      · rename_i y r1 hy
        cases h
        exact n1 _ _ hy
      · rw [Option.map_eq_some_iff] at h
        obtain ⟨⟨y, r1⟩, hy, h⟩ := h
        cases h
        exact n4 _ _ hy)
    have c3 : full jsonCountP s = none := full_none (b := b) (by
      intro x r h
      simp only [jsonCountP] at h
      rw [Option.or_eq_some_iff] at h
      rcases h with h | ⟨_, h⟩
      · exact n1 _ _ h
      · exact n2 _ _ h)
    rcases ht with rfl | rfl | rfl <;> simp [convert, convertString, c1, c2, c3]
  | list s t => rfl
  | map s k t => rfl
  | arr vs t _ h =>
    cases t with
    | list e => exact absurd rfl (h e)
    | _ => simp [convert]
  | element vs v t hm _ ih => simp only [convert, convertAll_none ih hm]; rfl
  | obj ns vs t _ h1 h2 =>
    cases t with
    | map k e => exact absurd rfl (h1 k e)
    | record fs => exact absurd rfl (h2 fs)
    | _ => simp [convert]

/-! ## Type checks -/

theorem check_none (t : Ty) : typeCheck .none t = true := by
  cases t <;> simp [typeCheck]

theorem check_number {env : Env} {n : Number} {t : Ty} {x : Data} (h : convertNumber env n t = some x) : typeCheck x t = true := by
  cases n <;> cases t <;> simp [convertNumber] at h <;> subst h <;> simp [typeCheck]

theorem check_string {env : Env} {s : Str} {t : Ty} {x : Data} (h : convertString env s t = some x) : typeCheck x t = true := by
  cases t with
  | bool =>
    simp only [convertString] at h
    split at h
    · simp only [Option.some.injEq] at h; subst h; rfl
    · split at h
      · simp only [Option.some.injEq] at h; subst h; rfl
      · simp at h
  | int =>
    simp only [convertString] at h
    split at h
    · simp only [Option.some.injEq] at h; subst h; simp [typeCheck]
    · simp only [Option.map_eq_some_iff] at h
      obtain ⟨_, _, rfl⟩ := h; simp [typeCheck]
  | count =>
    simp only [convertString] at h
    split at h
    · simp only [Option.some.injEq] at h; subst h; simp [typeCheck]
    · simp only [Option.map_eq_some_iff] at h
      obtain ⟨_, _, rfl⟩ := h; simp [typeCheck]
  | enum labels =>
    simp only [convertString, Option.map_eq_some_iff] at h
    obtain ⟨i, hi, rfl⟩ := h
    have : i < labels.length := by
      have := List.idxOf?_eq_some_iff.mp hi
      exact this.1
    simp only [typeCheck, decide_eq_true_eq]
    omega
  | string => simp only [convertString, Option.some.injEq] at h; subst h; simp [typeCheck]
  | real => simp only [convertString, Option.map_eq_some_iff] at h; obtain ⟨_, _, rfl⟩ := h; simp [typeCheck]
  | duration => simp only [convertString, Option.map_eq_some_iff] at h; obtain ⟨_, _, rfl⟩ := h; simp [typeCheck]
  | time => simp only [convertString, Option.map_eq_some_iff] at h; obtain ⟨_, _, rfl⟩ := h; simp [typeCheck]
  | pattern => simp only [convertString, Option.map_eq_some_iff] at h; obtain ⟨_, _, rfl⟩ := h; simp [typeCheck]
  | address => simp only [convertString, Option.map_eq_some_iff] at h; obtain ⟨_, _, rfl⟩ := h; simp [typeCheck]
  | subnet => simp only [convertString, Option.map_eq_some_iff] at h; obtain ⟨_, _, rfl⟩ := h; simp [typeCheck]
  | _ => simp [convertString] at h

theorem check_bool {b : Bool} {t : Ty} {x : Data} (h : convertBool b t = some x) : typeCheck x t = true := by
  cases t <;> simp [convertBool] at h <;> subst h <;> simp [typeCheck]

theorem mapSet_mem {k v : Data} : ∀ {m : List (Data × Data)} {e : Data × Data}, e ∈ mapSet k v m →
    (e.1 = k ∨ ∃ f ∈ m, f.1 = e.1) ∧ (e.2 = v ∨ ∃ f ∈ m, f.2 = e.2)
  | [], e, h => by simp only [mapSet, List.mem_singleton] at h; subst h; simp
  | (a, b) :: m, e, h => by
    simp only [mapSet] at h
    split at h
    · rcases List.mem_cons.mp h with rfl | h
      · exact ⟨.inr ⟨_, by simp, rfl⟩, .inr ⟨_, by simp, rfl⟩⟩
      · obtain ⟨h1, h2⟩ := mapSet_mem h
        refine ⟨h1.imp id ?_, h2.imp id ?_⟩
        · rintro ⟨f, hf, e⟩; exact ⟨f, List.mem_cons_of_mem _ hf, e⟩
        · rintro ⟨f, hf, e⟩; exact ⟨f, List.mem_cons_of_mem _ hf, e⟩
    · split at h
      · rcases List.mem_cons.mp h with rfl | h
        · exact ⟨.inl rfl, .inl rfl⟩
        · exact ⟨.inr ⟨e, h, rfl⟩, .inr ⟨e, h, rfl⟩⟩
      · rcases List.mem_cons.mp h with rfl | h
        · exact ⟨.inr ⟨(a, b), by simp, rfl⟩, .inl rfl⟩
        · exact ⟨.inr ⟨e, List.mem_cons_of_mem _ h, rfl⟩, .inr ⟨e, List.mem_cons_of_mem _ h, rfl⟩⟩

theorem fold_check {k v : Ty} : ∀ (es m : List (Data × Data)), (∀ e ∈ es, typeCheck e.1 k = true ∧ typeCheck e.2 v = true) →
    (∀ e ∈ m, typeCheck e.1 k = true ∧ typeCheck e.2 v = true) →
    ∀ e ∈ es.foldl (fun m e => mapSet e.1 e.2 m) m, typeCheck e.1 k = true ∧ typeCheck e.2 v = true
  | [], _, _, hm => hm
  | x :: es, m, he, hm => by
    rw [List.foldl_cons]
    apply fold_check es _ (fun e h => he e (List.mem_cons_of_mem _ h))
    intro e h
    obtain ⟨h1, h2⟩ := mapSet_mem h
    have hx := he x (by simp)
    constructor
    · rcases h1 with h1 | ⟨f, hf, e1⟩
      · rw [h1]; exact hx.1
      · rw [← e1]; exact (hm f hf).1
    · rcases h2 with h2 | ⟨f, hf, e2⟩
      · rw [h2]; exact hx.2
      · rw [← e2]; exact (hm f hf).2

theorem check_map {k v : Ty} {es : List (Data × Data)} (h : ∀ e ∈ es, typeCheck e.1 k = true ∧ typeCheck e.2 v = true) :
    typeCheck (mapOf es) (.map k v) = true := by
  have := fold_check es [] h (by simp)
  unfold mapOf
  generalize es.foldl (fun m e => mapSet e.1 e.2 m) [] = m at this
  cases m with
  | nil => simp [typeCheck]
  | cons e m =>
    have he := this e (by simp)
    simp [typeCheck, he.1, he.2]

mutual
theorem convert_check (env : Env) : ∀ (v : Value) (t : Ty) (x : Data), NoRecord t → convert env v t = some x → typeCheck x t = true
  | .null, t, x, _, h => by simp only [convert, Option.some.injEq] at h; subst h; exact check_none t
  | .bool b, t, x, _, h => by simp only [convert] at h; exact check_bool h
  | .num n, t, x, _, h => by simp only [convert] at h; exact check_number h
  | .str s, t, x, _, h => by simp only [convert] at h; exact check_string h
  | .arr vs, t, x, hn, h => by
    cases t with
    | list e =>
      simp only [convert, Option.map_eq_some_iff] at h
      obtain ⟨xs, h1, rfl⟩ := h
      have := convertAll_check env vs e xs (by simpa [NoRecord] using hn) h1
      cases xs with
      | nil => simp [typeCheck]
      | cons y ys => simp only [typeCheck]; exact this y (by simp)
    | _ => simp [convert] at h
  | .obj ns vs, t, x, hn, h => by
    cases t with
    | map k e =>
      simp only [convert, Option.map_eq_some_iff] at h
      obtain ⟨es, h1, rfl⟩ := h
      have := convertEntries_check env ns vs k e es (by simp only [NoRecord] at hn; exact hn.2) h1
      exact check_map this
    | record fs => simp [NoRecord] at hn
    | _ => simp [convert] at h
theorem convertAll_check (env : Env) : ∀ (vs : List Value) (t : Ty) (xs : List Data), NoRecord t → convertAll env vs t = some xs →
    ∀ x ∈ xs, typeCheck x t = true
  | [], t, xs, _, h => by simp only [convertAll, Option.some.injEq] at h; subst h; simp
  | v :: vs, t, xs, hn, h => by
    simp only [convertAll] at h
    split at h
    · rename_i d ds h1 h2
      simp only [Option.some.injEq] at h
      subst h
      intro x hx
      rcases List.mem_cons.mp hx with rfl | hx
      · exact convert_check env v t _ hn h1
      · exact convertAll_check env vs t ds hn h2 x hx
    · simp at h
theorem convertEntries_check (env : Env) : ∀ (ns : List Str) (vs : List Value) (k t : Ty) (es : List (Data × Data)), NoRecord t →
    convertEntries env ns vs k t = some es → ∀ e ∈ es, typeCheck e.1 k = true ∧ typeCheck e.2 t = true
  | ns, [], k, t, es, _, h => by
    simp only [convertEntries, Option.some.injEq] at h; subst h; simp
  | [], _ :: _, k, t, es, _, h => by simp only [convertEntries, Option.some.injEq] at h; subst h; simp
  | n :: ns, v :: vs, k, t, es, hn, h => by
    simp only [convertEntries] at h
    split at h
    · rename_i a b es' h1 h2 h3
      simp only [Option.some.injEq] at h
      subst h
      intro e he
      rcases List.mem_cons.mp he with rfl | he
      · exact ⟨check_string h1, convert_check env v t _ hn h2⟩
      · exact convertEntries_check env ns vs k t es' hn h3 e he
    · simp at h
end

/-! ## Rows -/

theorem addField_check (env : Env) (key : Str) (t : Ty) (ns : List Str) (vs : List Value) (h : NoRecord t) :
    typeCheck (addField env key t ns vs).1 t = true := by
  unfold addField
  split
  · exact check_none t
  · split
    · rename_i h1; exact convert_check env _ t _ h h1
    · exact check_none t

theorem addLeaves_rows (env : Env) (ns : List Str) (vs : List Value) : ∀ (ls : List (Str × Ty)), (∀ l ∈ ls, typeCheck (addField env l.1 l.2 ns vs).1 l.2 = true) →
    addLeaves env ns vs ls = .row (ls.map fun l => (addField env l.1 l.2 ns vs).1) (ls.all fun l => (addField env l.1 l.2 ns vs).2)
  | [], _ => rfl
  | (key, t) :: ls, h => by
    have h1 := h (key, t) (by simp)
    simp only at h1
    simp only [addLeaves, h1, if_true, addLeaves_rows env ns vs ls (fun l hl => h l (List.mem_cons_of_mem _ hl)), List.map_cons, List.all_cons]

theorem addField_finds (env : Env) {key : Str} {parts : List Str} (hp : Parts key parts) (t : Ty) {ns : List Str} {vs : List Value} {r : Option Value}
    (h : Finds parts ns vs r) : addField env key t ns vs = match r with
      | none => (.none, true)
      | some v => match convert env v t with
        | some d => (d, true)
        | none => (.none, false) := by
  obtain ⟨h1, h2, h3⟩ := hp
  have hl : (dotted parts).length < key.length + 1 := by rw [h3]; omega
  have := (lookup_finds parts (key.length + 1) ns vs h1 h2 hl r).mp h
  rw [h3] at this
  unfold addField
  rw [this]
  cases r <;> rfl

end Verif.Json
