import Verif.ArrowSlice.Spec
import Verif.MsgpackSlice.Lemmas

/-! Lemmas for C101: the array that holds given values. -/

namespace Verif.ArrowSlice
open Verif.MsgpackSlice Verif.Address Verif.ArrowSlice.Spec

@[simp] theorem appendNulls_eq : ∀ as : List Arr, Arr.appendNulls as = as.map Arr.appendNull
  | [] => rfl
  | a :: as => by simp [Arr.appendNulls, appendNulls_eq as]

@[simp] theorem finishAll_eq : ∀ as : List Arr, Arr.finishAll as = as.map Arr.finish
  | [] => rfl
  | a :: as => by simp [Arr.finishAll, finishAll_eq as]

/-- Whether a value is there. -/
def there : Datum → Bool
  | .none => false
  | _ => true

/-- The elements of a list. -/
def elems : Datum → List Datum
  | .list xs => xs
  | _ => []

/-- The keys of a map. -/
def keys : Datum → List Datum
  | .map ks _ => ks
  | _ => []

/-- The values of a map. -/
def vals : Datum → List Datum
  | .map _ vs => vs
  | _ => []

/-- The fields of a record. -/
def fields : Datum → List Datum
  | .record xs => xs
  | _ => []

/-- The sum of the sizes before each place. -/
def offs (acc : Nat) : List Nat → List Nat
  | [] => []
  | n :: ns => acc :: offs (acc + n) ns

/-- The value in an array with one value per row. -/
def cell : Datum → Option Raw
  | .bool b => some (.bool b)
  | .int x => some (.int x)
  | .count n => some (.nat n)
  | .real b => some (.bytes b)
  | .duration x => some (.int x)
  | .time x => some (.int x)
  | .string s => some (.bytes s)
  | .pattern s => some (.bytes s)
  | .enum n => some (.nat n)
  | _ => none

/-- The bytes of an address or a subnet, or zeros. -/
def flat (w : Nat) : Datum → List UInt8
  | .address a => addressBytes a
  | .subnet s => addressBytes s.network ++ [UInt8.ofNat s.length]
  | _ => List.replicate w 0

mutual
/-- The contents of the builder to which values of the type were added. -/
def arrOf : Ty → List Datum → Arr
  | .none, xs => .prim .null (xs.map cell)
  | .bool, xs => .prim .bool (xs.map cell)
  | .int, xs => .prim .int64 (xs.map cell)
  | .count, xs => .prim .uint64 (xs.map cell)
  | .real, xs => .prim .double (xs.map cell)
  | .duration, xs => .prim .int64 (xs.map cell)
  | .time, xs => .prim .timestamp (xs.map cell)
  | .string, xs => .prim .string (xs.map cell)
  | .pattern, xs => .prim .string (xs.map cell)
  | .address, xs => .fixed 16 (xs.map there) (xs.flatMap (flat 16))
  | .subnet, xs => .fixed 17 (xs.map there) (xs.flatMap (flat 17))
  | .enum _, xs => .prim .uint64 (xs.map cell)
  | .list t, xs => .list (xs.map there) (offs 0 (xs.map fun x => (elems x).length)) (arrOf t (xs.flatMap elems))
  | .map k v, xs => .list (xs.map there) (offs 0 (xs.map fun x => (keys x).length))
      (.struct ((xs.flatMap keys).map fun _ => true) [arrOf k (xs.flatMap keys), arrOf v (xs.flatMap vals)])
  | .record ts, xs => .struct (xs.map there) (arrsOf ts (xs.map fields))
  | .alias t, xs => arrOf t xs

/-- One builder for each field; a field that is not there is null. -/
def arrsOf : List Ty → List (List Datum) → List Arr
  | [], _ => []
  | t :: ts, rows => arrOf t (rows.map fun r => r.headD .none) :: arrsOf ts (rows.map List.tail)
end

mutual
theorem make_eq : ∀ t, make t = arrOf t []
  | .none | .bool | .int | .count | .real | .duration | .time | .string | .pattern | .address | .subnet | .enum _ => rfl
  | .list t => by simp [make, arrOf, offs, make_eq t]
  | .map k v => by simp [make, arrOf, offs, make_eq k, make_eq v]
  | .record ts => by simp [make, arrOf, makeAll_eq ts]
  | .alias t => by simp [make, arrOf, make_eq t]

theorem makeAll_eq : ∀ ts, makeAll ts = arrsOf ts []
  | [] => rfl
  | t :: ts => by simp [makeAll, arrsOf, make_eq t, makeAll_eq ts]
end

theorem arrOf_length : ∀ (t : Ty) (xs : List Datum), (arrOf t xs).length = xs.length
  | .none, _ | .bool, _ | .int, _ | .count, _ | .real, _ | .duration, _ | .time, _ | .string, _ | .pattern, _ | .address, _
  | .subnet, _ | .enum _, _ | .list _, _ | .map _ _, _ | .record _, _ => by simp [arrOf, Arr.length]
  | .alias t, xs => by simp [arrOf, arrOf_length t xs]

theorem offs_append (ns : List Nat) (n : Nat) : ∀ acc, offs acc (ns ++ [n]) = offs acc ns ++ [acc + ns.sum] := by
  induction ns with
  | nil => intro acc; simp [offs]
  | cons m ns ih => intro acc; simp [offs, ih, Nat.add_assoc]

theorem flatMap_length (f : Datum → List Datum) (xs : List Datum) : (xs.flatMap f).length = (xs.map fun x => (f x).length).sum := by
  induction xs with
  | nil => rfl
  | cons x xs ih => simp [ih]

mutual
theorem appendNull_arrOf : ∀ (t : Ty) (xs : List Datum), (arrOf t xs).appendNull = arrOf t (xs ++ [.none])
  | .none, _ | .bool, _ | .int, _ | .count, _ | .real, _ | .duration, _ | .time, _ | .string, _ | .pattern, _ | .address, _
  | .subnet, _ | .enum _, _ => by simp [arrOf, Arr.appendNull, cell, there, flat]
  | .list t, xs => by
    simp [arrOf, Arr.appendNull, there, elems, offs_append, arrOf_length, flatMap_length]
  | .map k v, xs => by
    simp [arrOf, Arr.appendNull, there, keys, vals, offs_append, arrOf_length, flatMap_length, Arr.length]
  | .record ts, xs => by
    simp [arrOf, Arr.appendNull, there, fields, appendNulls_arrsOf ts]
  | .alias t, xs => by simp [arrOf, appendNull_arrOf t xs]

theorem appendNulls_arrsOf : ∀ (ts : List Ty) (rows : List (List Datum)), (arrsOf ts rows).map Arr.appendNull = arrsOf ts (rows ++ [[]])
  | [], _ => rfl
  | t :: ts, rows => by simp [arrsOf, appendNull_arrOf t, appendNulls_arrsOf ts]
end

theorem addEach_arrOf {t : Ty} (h : ∀ xs x, HasType t x → add t (arrOf t xs) x = some (arrOf t (xs ++ [x]), true)) :
    ∀ (ys xs : List Datum), (∀ y, y ∈ ys → HasType t y) → addEach (add t) (arrOf t xs) ys = some (arrOf t (xs ++ ys), true)
  | [], xs, _ => by simp [addEach]
  | y :: ys, xs, hy => by
    rw [addEach, h xs y (hy y (by simp))]
    simp only
    rw [addEach_arrOf h ys (xs ++ [y]) fun z hz => hy z (by simp [hz])]
    simp

theorem addPairs_arrOf {k v : Ty} (hk : ∀ xs x, HasType k x → add k (arrOf k xs) x = some (arrOf k (xs ++ [x]), true))
    (hv : ∀ xs x, HasType v x → add v (arrOf v xs) x = some (arrOf v (xs ++ [x]), true)) :
    ∀ (ks vs : List Datum) (w : List Bool) (as bs : List Datum), ks.length = vs.length → (∀ y, y ∈ ks → HasType k y) → (∀ y, y ∈ vs → HasType v y) →
      addPairs (add k) (add v) w (arrOf k as) (arrOf v bs) ks vs
        = some ((w ++ ks.map (fun _ => true), arrOf k (as ++ ks), arrOf v (bs ++ vs)), true)
  | [], [], w, as, bs, _, _, _ => by simp [addPairs]
  | [], _ :: _, _, _, _, h, _, _ => by simp at h
  | _ :: _, [], _, _, _, h, _, _ => by simp at h
  | a :: ks, b :: vs, w, as, bs, h, h1, h2 => by
    rw [addPairs, hk as a (h1 a (by simp))]
    simp only
    rw [hv bs b (h2 b (by simp))]
    simp only
    rw [addPairs_arrOf hk hv ks vs _ _ _ (by simpa using h) (fun z hz => h1 z (by simp [hz])) fun z hz => h2 z (by simp [hz])]
    simp

mutual
/-- A value of the type is taken. -/
theorem add_arrOf : ∀ (t : Ty) (xs : List Datum) (x : Datum), HasType t x → add t (arrOf t xs) x = some (arrOf t (xs ++ [x]), true)
  | .alias t, xs, x, h => by simp only [add, arrOf]; exact add_arrOf t xs x h
  | .none, xs, x, h => by
    simp only [HasType] at h; subst h
    simp only [add, appendNull_arrOf]
  | .bool, xs, x, h | .int, xs, x, h | .count, xs, x, h | .real, xs, x, h | .duration, xs, x, h | .time, xs, x, h
  | .string, xs, x, h | .pattern, xs, x, h | .address, xs, x, h => by
    rcases h with rfl | ⟨b, rfl⟩
    · simp only [add, appendNull_arrOf]
    · simp [add, arrOf, appendRaw, appendFixed, cell, there, flat]
  | .subnet, xs, x, h => by
    rcases h with rfl | ⟨a, l, _, rfl⟩
    · simp only [add, appendNull_arrOf]
    · simp [add, arrOf, appendFixed, there, flat]
  | .enum _, xs, x, h => by
    rcases h with rfl | ⟨n, _, rfl⟩
    · simp only [add, appendNull_arrOf]
    · simp [add, arrOf, appendRaw, cell]
  | .list t, xs, x, h => by
    rcases h with rfl | ⟨ys, rfl, hy⟩
    · rw [add]; simp only [appendNull_arrOf]
    · simp only [add, arrOf]
      rw [addEach_arrOf (fun xs x => add_arrOf t xs x) ys _ hy]
      simp [there, elems, offs_append, arrOf_length, flatMap_length]
  | .map k v, xs, x, h => by
    rcases h with rfl | ⟨ks, vs, rfl, hl, hk, hv⟩
    · rw [add]; simp only [appendNull_arrOf]
    · simp only [add, arrOf]
      rw [addPairs_arrOf (fun xs x => add_arrOf k xs x) (fun xs x => add_arrOf v xs x) ks vs _ _ _ hl hk hv]
      simp [there, keys, vals, offs_append, flatMap_length]
  | .record ts, xs, x, h => by
    rcases h with rfl | ⟨ys, rfl, hy⟩
    · rw [add]; simp only [appendNull_arrOf]
    · simp only [add, arrOf]
      rw [addFields_arrsOf ts _ ys hy]
      simp [there, fields]

/-- The fields of a record are taken. -/
theorem addFields_arrsOf : ∀ (ts : List Ty) (rows : List (List Datum)) (ys : List Datum), AllHaveType ts ys →
    addFields ts (arrsOf ts rows) ys = some (arrsOf ts (rows ++ [ys]), true)
  | [], rows, ys, h => by simp only [AllHaveType] at h; subst h; simp [addFields, arrsOf]
  | t :: ts, rows, ys, h => by
    obtain ⟨y, ys, rfl, h1, h2⟩ := h
    rw [arrsOf, addFields, add_arrOf t _ y h1]
    simp only
    rw [addFields_arrsOf ts _ ys h2]
    simp [arrsOf]
end

/-! ### Reading -/

theorem gather_some {α : Type} : ∀ (l : List (Option α)) (ys : List α), l = ys.map some → gather l = some ys
  | _, [], h => by subst h; rfl
  | _, y :: ys, h => by subst h; simp [gather, gather_some _ ys rfl]

/-- Reading a part of the values one after the other. -/
theorem gather_read {f : Nat → Option Datum} {all pre mid post : List Datum} (he : all = pre ++ mid ++ post)
    (hf : ∀ i, i < all.length → f i = all[i]?) :
    gather ((List.range mid.length).map fun i => f (i + pre.length)) = some mid := by
  apply gather_some
  apply List.ext_getElem? 
  intro i
  simp only [List.getElem?_map]
  by_cases hi : i < mid.length
  · rw [List.getElem?_range hi]
    simp only [Option.map_some]
    rw [hf _ (by rw [he]; simp; omega), he, List.append_assoc, List.getElem?_append_right (by omega), Nat.add_sub_cancel,
      List.getElem?_append_left hi, List.getElem?_eq_getElem hi]
    rfl
  · rw [List.getElem?_eq_none (by simpa using hi), List.getElem?_eq_none (by simpa using hi)]
    rfl

theorem offs_length : ∀ (ns : List Nat) acc, (offs acc ns).length = ns.length
  | [], _ => rfl
  | _ :: ns, acc => by simp [offs, offs_length ns]

theorem offs_get : ∀ (ns : List Nat) (acc i : Nat), i ≤ ns.length → (offs acc ns ++ [acc + ns.sum])[i]? = some (acc + (ns.take i).sum)
  | [], acc, i, h => by
    have : i = 0 := by simpa using h
    subst this; simp [offs]
  | n :: ns, acc, 0, _ => by simp [offs]
  | n :: ns, acc, i + 1, h => by
    have := offs_get ns (acc + n) i (by simpa using h)
    simp only [offs, List.cons_append, List.getElem?_cons_succ, List.sum_cons, List.take_succ_cons]
    rw [← Nat.add_assoc, this, Nat.add_assoc]

theorem sum_take_succ (ns : List Nat) (i : Nat) (h : i < ns.length) : (ns.take (i + 1)).sum = (ns.take i).sum + ns[i] := by
  rw [← List.take_append_getElem h, List.sum_append, List.sum_cons, List.sum_nil, Nat.add_zero]

theorem split_at {xs : List Datum} {i : Nat} (h : i < xs.length) (f : Datum → List Datum) :
    xs.flatMap f = (xs.take i).flatMap f ++ f xs[i] ++ (xs.drop (i + 1)).flatMap f := by
  have he := List.take_append_drop i xs
  rw [List.drop_eq_getElem_cons h] at he
  have := congrArg (List.flatMap f) he
  rw [← this, List.flatMap_append, List.flatMap_cons, List.append_assoc]

theorem take_lengths (f : Datum → List Datum) (xs : List Datum) (i : Nat) :
    ((xs.map fun x => (f x).length).take i).sum = ((xs.take i).flatMap f).length := by
  rw [flatMap_length, List.map_take]

theorem addressOf_bytes (a : Address) : addressOf (addressBytes a) = some a := by
  obtain ⟨bs, h⟩ := a
  have hl : (addressBytes ⟨bs, h⟩).length = 16 := by simp [addressBytes, h]
  rw [addressOf, dif_pos hl]
  simp only [addressBytes, Address.v6, MsgpackSlice.toBitVec_map]

theorem addressBytes_length (a : Address) : (addressBytes a).length = 16 := by simp [addressBytes, a.len]

theorem flat_drop {w : Nat} : ∀ {xs : List Datum} {i : Nat}, (∀ x, x ∈ xs → (flat w x).length = w) → i < xs.length →
    ∃ rest, (xs.flatMap (flat w)).drop (i * w) = flat w (xs[i]?.getD .none) ++ rest
  | [], _, _, hi => by simp at hi
  | x :: xs, 0, _, _ => ⟨xs.flatMap (flat w), by simp⟩
  | x :: xs, i + 1, h, hi => by
    obtain ⟨rest, hr⟩ := flat_drop (w := w) (xs := xs) (i := i) (fun y hy => h y (by simp [hy])) (by simpa using hi)
    refine ⟨rest, ?_⟩
    have hx := h x (by simp)
    rw [List.flatMap_cons, List.drop_append, List.drop_eq_nil_of_le (by rw [hx, Nat.succ_mul]; omega), List.nil_append, hx]
    have : (i + 1) * w - w = i * w := by rw [Nat.succ_mul]; omega
    rw [this, hr]
    simp

theorem address_flat {x : Datum} (h : HasType .address x) : (flat 16 x).length = 16 := by
  rcases h with rfl | ⟨a, rfl⟩
  · simp [flat]
  · simp [flat, addressBytes_length]

theorem subnet_flat {x : Datum} (h : HasType .subnet x) : (flat 17 x).length = 17 := by
  rcases h with rfl | ⟨a, l, _, rfl⟩
  · simp [flat]
  · simp [flat, addressBytes_length]

theorem make_subnet {a : Address} {l : Nat} (h : l ≤ a.maxLength) :
    Subnet.make (Subnet.make a l).network (UInt8.ofNat (Subnet.make a l).length).toNat = Subnet.make a l := by
  obtain ⟨h1, h2⟩ := MsgpackSlice.subnet_length_lt (s := Subnet.make a l) ⟨a, l, h, rfl⟩
  have : (UInt8.ofNat (Subnet.make a l).length).toNat = (Subnet.make a l).length := by
    rw [UInt8.toNat_ofNat']; exact Nat.mod_eq_of_lt h1
  rw [this, h2]

theorem getElem_mem' {α : Type} {xs : List α} {i : Nat} (h : i < xs.length) : xs[i] ∈ xs := List.getElem_mem h

theorem none_hasType : ∀ t, HasType t .none
  | .alias t => by rw [HasType]; exact none_hasType t
  | .none | .bool | .int | .count | .real | .duration | .time | .string | .pattern | .address | .subnet | .enum _ | .list _
  | .map _ _ | .record _ => by simp [HasType]

mutual
theorem valueAt_finish : ∀ (t : Ty), NoAlias t → ∀ (xs : List Datum), (∀ x, x ∈ xs → HasType t x) → ∀ i, i < xs.length →
    valueAt t (arrOf t xs).finish i = xs[i]?
  | .alias _, hn, _, _, _, _ => hn.elim
  | .none, _, xs, h, i, hi => by
    have := h _ (getElem_mem' hi)
    simp only [HasType] at this
    simp [arrOf, Arr.finish, valueAt, hi, this, cell]
  | .bool, _, xs, h, i, hi | .int, _, xs, h, i, hi | .count, _, xs, h, i, hi | .real, _, xs, h, i, hi
  | .duration, _, xs, h, i, hi | .time, _, xs, h, i, hi | .string, _, xs, h, i, hi | .pattern, _, xs, h, i, hi => by
    rcases h _ (getElem_mem' hi) with hx | ⟨b, hx⟩ <;> simp [arrOf, Arr.finish, valueAt, hi, hx, cell, ofRaw]
  | .enum _, _, xs, h, i, hi => by
    rcases h _ (getElem_mem' hi) with hx | ⟨b, hb, hx⟩
    · simp [arrOf, Arr.finish, valueAt, hi, hx, cell]
    · simp [arrOf, Arr.finish, valueAt, hi, hx, cell, ofRaw, Nat.mod_eq_of_lt hb]
  | .address, _, xs, h, i, hi => by
    obtain ⟨rest, hr⟩ := flat_drop (w := 16) (fun x hx => address_flat (h x hx)) hi
    rcases h _ (getElem_mem' hi) with hx | ⟨a, hx⟩
    · simp [arrOf, Arr.finish, valueAt, hi, hx, there]
    · simp only [List.getElem?_eq_getElem hi, hx, Option.getD_some, flat] at hr
      simp [arrOf, Arr.finish, valueAt, hi, hx, there, hr, List.take_append, addressBytes_length]
      exact addressOf_bytes a
  | .subnet, _, xs, h, i, hi => by
    obtain ⟨rest, hr⟩ := flat_drop (w := 17) (fun x hx => subnet_flat (h x hx)) hi
    rcases h _ (getElem_mem' hi) with hx | ⟨a, l, hl, hx⟩
    · simp [arrOf, Arr.finish, valueAt, hi, hx, there]
    · simp only [List.getElem?_eq_getElem hi, hx, Option.getD_some, flat] at hr
      have hb : (xs.flatMap (flat 17))[i * 17 + 16]? = some (UInt8.ofNat (Subnet.make a l).length) := by
        rw [← List.getElem?_drop, hr, List.append_assoc, List.getElem?_append_right (by simp [addressBytes_length])]
        simp [addressBytes_length]
      have ha : ((xs.flatMap (flat 17)).drop (i * 17)).take 16 = addressBytes (Subnet.make a l).network := by
        rw [hr, List.append_assoc, List.take_append, addressBytes_length,
          List.take_of_length_le (by simp [addressBytes_length])]
        simp
      simp only [arrOf, Arr.finish, valueAt, List.getElem?_map, List.getElem?_eq_getElem hi, hx, there, Option.map_some, ha,
        addressOf_bytes, Option.bind_some, hb, make_subnet hl]
  | .list t, hn, xs, h, i, hi => by
    have ho := offs_get (xs.map fun x => (elems x).length) 0 i (by simp; omega)
    have ho' := offs_get (xs.map fun x => (elems x).length) 0 (i + 1) (by simp; omega)
    rw [sum_take_succ _ _ (by simpa using hi)] at ho'
    simp only [Nat.zero_add, List.getElem_map] at ho ho'
    rw [take_lengths] at ho ho'
    have hall : ∀ y, y ∈ xs.flatMap elems → HasType t y := by
      intro y hy
      obtain ⟨x, hx, hyx⟩ := List.mem_flatMap.mp hy
      rcases h x hx with rfl | ⟨ys, rfl, hys⟩
      · simp [elems] at hyx
      · exact hys y hyx
    rcases h _ (getElem_mem' hi) with hx | ⟨ys, hx, hys⟩
    · simp [arrOf, Arr.finish, valueAt, hi, hx, there]
    · have hs := split_at hi elems
      rw [hx] at hs ho'
      have hg := gather_read hs (fun j hj => valueAt_finish t hn (xs.flatMap elems) hall j hj)
      rw [show elems (.list ys) = ys from rfl] at hg ho'
      simp only [arrOf, Arr.finish, valueAt, arrOf_length, flatMap_length, ho, ho', List.getElem?_map, List.getElem?_eq_getElem hi, hx,
        there, Option.map_some, Nat.add_sub_cancel_left]
      rw [← flatMap_length, hg]
      rfl
  | .map k v, hn, xs, h, i, hi => by
    have ho := offs_get (xs.map fun x => (keys x).length) 0 i (by simp; omega)
    have ho' := offs_get (xs.map fun x => (keys x).length) 0 (i + 1) (by simp; omega)
    rw [sum_take_succ _ _ (by simpa using hi)] at ho'
    simp only [Nat.zero_add, List.getElem_map] at ho ho'
    rw [take_lengths] at ho ho'
    have hk : ∀ y, y ∈ xs.flatMap keys → HasType k y := by
      intro y hy
      obtain ⟨x, hx, hyx⟩ := List.mem_flatMap.mp hy
      rcases h x hx with rfl | ⟨ks, vs, rfl, _, hks, _⟩
      · simp [keys] at hyx
      · exact hks y hyx
    have hv : ∀ y, y ∈ xs.flatMap vals → HasType v y := by
      intro y hy
      obtain ⟨x, hx, hyx⟩ := List.mem_flatMap.mp hy
      rcases h x hx with rfl | ⟨ks, vs, rfl, _, _, hvs⟩
      · simp [vals] at hyx
      · exact hvs y hyx
    have hlen : ∀ zs : List Datum, (∀ z, z ∈ zs → HasType (.map k v) z) → (zs.flatMap vals).length = (zs.flatMap keys).length := by
      intro zs
      induction zs with
      | nil => intro _; rfl
      | cons z zs ih =>
        intro hz
        have := ih fun y hy => hz y (by simp [hy])
        rcases hz z (by simp) with rfl | ⟨ks, vs, rfl, hl, _⟩
        · simpa [vals, keys] using this
        · simp only [List.flatMap_cons, vals, keys, List.length_append, this, hl]
    rcases h _ (getElem_mem' hi) with hx | ⟨ks, vs, hx, hl, _⟩
    · simp [arrOf, Arr.finish, valueAt, hi, hx, there]
    · have hs := split_at hi keys
      have hs' := split_at hi vals
      rw [hx] at hs hs' ho'
      have hg := gather_read hs (fun j hj => valueAt_finish k hn.1 (xs.flatMap keys) hk j hj)
      have hg' := gather_read hs' (fun j hj => valueAt_finish v hn.2 (xs.flatMap vals) hv j hj)
      rw [hlen (xs.take i) fun z hz => h z (List.mem_of_mem_take hz)] at hg'
      rw [show keys (.map ks vs) = ks from rfl] at hg ho'
      rw [show vals (.map ks vs) = vs from rfl] at hg'
      rw [← hl] at hg'
      simp only [arrOf, Arr.finish, finishAll_eq, valueAt, Arr.length, List.length_map, flatMap_length, ho, ho', List.getElem?_map, List.getElem?_eq_getElem hi, hx,
        there, Option.map_some, Nat.add_sub_cancel_left, List.map_cons, List.map_nil]
      simp only [← flatMap_length, hg, hg', Option.bind_some, Option.map_some]
  | .record ts, hn, xs, h, i, hi => by
    rcases h _ (getElem_mem' hi) with hx | ⟨ys, hx, hys⟩
    · simp [arrOf, Arr.finish, valueAt, hi, hx, there]
    · have := fieldsAt_finish ts hn (xs.map fields) ?_ i (by simpa using hi) (by simpa [hx, fields] using hys)
      · simp only [arrOf, Arr.finish, finishAll_eq, valueAt, List.getElem?_map, List.getElem?_eq_getElem hi, hx, there, Option.map_some, this, fields]
      · intro r hr
        obtain ⟨x, hx', rfl⟩ := List.mem_map.mp hr
        rcases h x hx' with rfl | ⟨zs, rfl, hz⟩
        · exact .inl rfl
        · exact .inr hz

theorem fieldsAt_finish : ∀ (ts : List Ty), NoAliases ts → ∀ (rows : List (List Datum)), (∀ r, r ∈ rows → r = [] ∨ AllHaveType ts r) →
    ∀ i (hi : i < rows.length), AllHaveType ts rows[i] → fieldsAt ts ((arrsOf ts rows).map Arr.finish) i = rows[i]?
  | [], _, rows, _, i, hi, hr => by
    simp only [AllHaveType] at hr
    simp [arrsOf, fieldsAt, hi, hr]
  | t :: ts, hn, rows, h, i, hi, hr => by
    obtain ⟨y, ys, hy, h1, h2⟩ := hr
    have a1 := valueAt_finish t hn.1 (rows.map fun r => r.headD .none) (by
      intro x hx
      obtain ⟨r, hr, rfl⟩ := List.mem_map.mp hx
      rcases h r hr with rfl | ⟨z, zs, rfl, hz, _⟩
      · exact none_hasType t
      · exact hz) i (by simpa using hi)
    have a2 := fieldsAt_finish ts hn.2 (rows.map List.tail) (by
      intro r hr
      obtain ⟨r', hr', rfl⟩ := List.mem_map.mp hr
      rcases h r' hr' with rfl | ⟨z, zs, rfl, _, hz⟩
      · exact .inl rfl
      · exact .inr hz) i (by simpa using hi) (by simpa [hy] using h2)
    simp only [arrsOf, List.map_cons, fieldsAt, a1, a2, List.getElem?_map, List.getElem?_eq_getElem hi, hy, Option.map_some, List.headD_cons,
      List.tail_cons, Option.bind_some]
end

end Verif.ArrowSlice
