import Verif.MsgpackSlice.Spec
import Verif.Msgpack.PutLemmas
import Verif.Address.Props

/-! Lemmas on reading back what the builder has written. -/

namespace Verif.MsgpackSlice
open Verif.Msgpack Verif.Msgpack.Spec Verif.Address

theorem allSized_mem {xs : List Datum} (h : Spec.AllSized xs) : ∀ x, x ∈ xs → Spec.Sized x := by
  induction xs with
  | nil => intro x hx; cases hx
  | cons y ys ih =>
    intro x hx
    rcases List.mem_cons.1 hx with rfl | hx
    · exact h.1
    · exact ih h.2 x hx

theorem allMaps_mem {xs : List Datum} (h : Spec.AllMapsSmall xs) : ∀ x, x ∈ xs → Spec.MapsSmall x := by
  induction xs with
  | nil => intro x hx; cases hx
  | cons y ys ih =>
    intro x hx
    rcases List.mem_cons.1 hx with rfl | hx
    · exact h.1
    · exact ih h.2 x hx

/-- A value the type of a column has passes the type check. -/
theorem typeCheck_of : ∀ (t : Ty) (x : Datum), Spec.HasType t x → typeCheck t x = true
  | .none, x, h => by cases h; simp [typeCheck]
  | .record _, x, h => by cases h; simp [typeCheck]
  | .alias t, x, h => by
    have := typeCheck_of t x h
    cases x <;> simp [typeCheck, this]
  | .bool, x, h => by rcases h with rfl | ⟨_, rfl⟩ <;> simp [typeCheck]
  | .int, x, h => by rcases h with rfl | ⟨_, rfl⟩ <;> simp [typeCheck]
  | .count, x, h => by rcases h with rfl | ⟨_, rfl⟩ <;> simp [typeCheck]
  | .real, x, h => by rcases h with rfl | ⟨_, rfl⟩ <;> simp [typeCheck]
  | .duration, x, h => by rcases h with rfl | ⟨_, rfl⟩ <;> simp [typeCheck]
  | .time, x, h => by rcases h with rfl | ⟨_, rfl⟩ <;> simp [typeCheck]
  | .string, x, h => by rcases h with rfl | ⟨_, rfl⟩ <;> simp [typeCheck]
  | .pattern, x, h => by rcases h with rfl | ⟨_, rfl⟩ <;> simp [typeCheck]
  | .address, x, h => by rcases h with rfl | ⟨_, rfl⟩ <;> simp [typeCheck]
  | .subnet, x, h => by rcases h with rfl | ⟨_, rfl⟩ <;> simp [typeCheck]
  | .enum n, x, h => by
    rcases h with rfl | ⟨k, hk, rfl⟩
    · simp [typeCheck]
    · simp [typeCheck, hk]
  | .list t, x, h => by
    rcases h with rfl | ⟨xs, rfl, hx⟩
    · simp [typeCheck]
    · rw [typeCheck]
      cases xs with
      | nil => rfl
      | cons y ys => exact typeCheck_of t y (hx y (by simp))
  | .map k v, x, h => by
    rcases h with rfl | ⟨ks, vs, rfl, hk, hv⟩
    · simp [typeCheck]
    · rw [typeCheck, Bool.and_eq_true]
      constructor
      · cases ks with
        | nil => rfl
        | cons y ys => exact typeCheck_of k y (hk y (by simp))
      · cases vs with
        | nil => rfl
        | cons y ys => exact typeCheck_of v y (hv y (by simp))

theorem toBitVec_map (l : List (BitVec 8)) : (l.map UInt8.ofBitVec).map UInt8.toBitVec = l := by
  induction l with
  | nil => rfl
  | cons x xs ih => simp only [List.map_cons, ih]

theorem addressOf_bytes (a : Address) : addressOf (addressBytes a) = some a := by
  obtain ⟨bs, hlen⟩ := a
  unfold addressBytes
  by_cases h : Address.isV4 ⟨bs, hlen⟩
  · rw [if_pos h]
    have h12 : bs.take 12 = v4MappedPrefix := by simpa [Address.isV4] using h
    have hd : (bs.drop 12).length = 4 := by simp [hlen]
    have happ := List.take_append_drop 12 bs
    match hb : bs.drop 12, hd with
    | [p, q, r, s], _ =>
      simp only [List.map_cons, List.map_nil, addressOf]
      rw [hb, h12] at happ
      subst happ
      rfl
  · rw [if_neg h]
    have hl : (bs.map UInt8.ofBitVec).length = 16 := by simp [hlen]
    have hb : bs.map UInt8.ofBitVec ≠ [] ∧ ∀ p q r s, bs.map UInt8.ofBitVec ≠ [p, q, r, s] := by
      constructor
      · intro h0; rw [h0] at hl; simp at hl
      · intro p q r s h0; rw [h0] at hl; simp at hl
    unfold addressOf
    split
    · rename_i h0; exact absurd h0 (hb.2 _ _ _ _)
    · rw [dif_pos hl]
      simp only [Address.v6, toBitVec_map]

theorem addressBytes_length (a : Address) : (addressBytes a).length ≤ 31 := by
  unfold addressBytes
  split <;> simp [a.len]

theorem toSigned_small {x : Int} (h1 : 0 ≤ x) (h2 : x < 128) : toSigned 1 x.toNat = x := by
  unfold toSigned
  rw [if_pos (by omega)]
  omega

/-- What a scalar is seen as. -/
theorem put_seen {chk : Bool} {cap : Option Nat} {size : Nat} {v : Val} {e : List UInt8}
    (hf : Fits v) (hp : put chk cap size v = some e) (tail : List UInt8) :
    match v with
    | .nil => visit (e ++ tail) = .nil
    | .bool b => visit (e ++ tail) = .bool b
    | .integer x => visit (e ++ tail) = .signed 8 x
    | .sint _ x => SignedSeen (visit (e ++ tail)) x
    | .uint _ n => ∃ w, visit (e ++ tail) = .unsigned w n ∧ (n < 256 → w = 1)
    | .u8 n => visit (e ++ tail) = .unsigned 1 n
    | .double b => visit (e ++ tail) = .double b
    | .str s => visit (e ++ tail) = .str s
    | .fixstr s => visit (e ++ tail) = .str s
    | _ => True := by
  cases v with
  | nil => simp only [put] at hp; have hp := of_accepts hp; cases hp; exact obj_nil.visit tail
  | bool b => simp only [put] at hp; have hp := of_accepts hp; cases hp; exact (obj_bool b).visit tail
  | integer x =>
    simp only [put] at hp; have hp := of_accepts hp; cases hp
    have := (obj_int64 x).visit tail
    rw [toSigned_toUnsigned hf.1 hf.2] at this
    exact this
  | sint w x =>
    simp only [put] at hp; have hp := of_accepts hp; cases hp
    obtain ⟨s, ho, hs⟩ := obj_signed hf.1 hf.2.1 hf.2.2
    have := ho.visit tail
    show SignedSeen _ x
    rw [this]; exact hs
  | uint w n =>
    simp only [put] at hp; have hp := of_accepts hp; cases hp
    obtain ⟨w', ho, hw⟩ := obj_unsigned hf.1 hf.2
    exact ⟨w', ho.visit tail, hw⟩
  | u8 n => simp only [put] at hp; have hp := of_accepts hp; cases hp; exact (obj_uint8 hf).visit tail
  | double b => simp only [put] at hp; have hp := of_accepts hp; cases hp; exact (obj_double hf).visit tail
  | str s => simp only [put] at hp; exact (obj_str (of_accepts hp)).visit tail
  | fixstr s =>
    simp only [put] at hp; have hp := of_accepts hp
    have h31 : s.length ≤ 31 := hf
    rw [if_neg (by omega)] at hp
    cases hp; exact (obj_fixstr h31).visit tail
  | _ => trivial

/-- What it means for a value to be written and read back. -/
structure Trip (chk : Bool) (t : Ty) (x : Datum) (v : Val) : Prop where
  enc : encode x = some [v]
  fits : Fits v
  bin : NoShortBin v
  maps : chk = true → MapsSmall v
  dec : ∀ (cap : Option Nat) (size : Nat) (e : List UInt8), put chk cap size v = some e →
    ∀ tail, decode t (e ++ tail) = some x

/-- Lists of values that are written and read back. -/
inductive Trips (chk : Bool) (t : Ty) : List Datum → List Val → Prop
  | nil : Trips chk t [] []
  | cons {x xs v vs} (h : Trip chk t x v) (hs : Trips chk t xs vs) : Trips chk t (x :: xs) (v :: vs)

theorem Trips.of {chk : Bool} {t : Ty} : ∀ (xs : List Datum), (∀ x, x ∈ xs → ∃ v, Trip chk t x v) →
    ∃ vs, Trips chk t xs vs
  | [], _ => ⟨[], .nil⟩
  | x :: xs, h => by
    obtain ⟨v, hv⟩ := h x (by simp)
    obtain ⟨vs, hvs⟩ := Trips.of xs fun y hy => h y (by simp [hy])
    exact ⟨v :: vs, .cons hv hvs⟩

theorem Trips.each {chk : Bool} {t : Ty} {xs : List Datum} {vs : List Val} (h : Trips chk t xs vs) :
    encodeEach xs = some (vs.map fun v => [v]) ∧ vs.length = xs.length ∧ AllFit vs ∧ AllNoShortBin vs ∧
      (chk = true → AllMapsSmall vs) := by
  induction h with
  | nil => exact ⟨rfl, rfl, trivial, trivial, fun _ => trivial⟩
  | @cons x xs v vs h hs ih =>
    obtain ⟨h1, h2, h3, h4, h5⟩ := ih
    refine ⟨?_, by simp [h2], ⟨h.fits, h3⟩, ⟨h.bin, h4⟩, fun hc => ⟨h.maps hc, h5 hc⟩⟩
    rw [encodeEach, h.enc, Option.bind_some, h1]
    rfl

theorem flatten_singletons {α : Type} (vs : List α) : (vs.map fun v => [v]).flatten = vs := by
  induction vs with
  | nil => rfl
  | cons v vs ih => simp [ih]

theorem weave_map {α β : Type} (f : α → β) : ∀ (ks vs : List α), weave (ks.map f) (vs.map f) = (weave ks vs).map f
  | [], _ => by simp [weave]
  | k :: ks, [] => by simp [weave]
  | k :: ks, v :: vs => by simp [weave, weave_map f ks vs]

theorem weave_length {α : Type} : ∀ (ks vs : List α), ks.length = vs.length → (weave ks vs).length = 2 * ks.length
  | [], [], _ => rfl
  | [], _ :: _, h => by simp at h
  | _ :: _, [], h => by simp at h
  | k :: ks, v :: vs, h => by
    have := weave_length ks vs (by simpa using h)
    simp only [weave, List.length_cons, this]
    omega

theorem weave_fit : ∀ (ks vs : List Val), AllFit ks → AllFit vs → AllFit (weave ks vs)
  | [], _, _, _ => by simp [weave, AllFit]
  | _ :: _, [], _, _ => by simp [weave, AllFit]
  | k :: ks, v :: vs, hk, hv => by
    simp only [weave, AllFit]
    exact ⟨hk.1, hv.1, weave_fit ks vs hk.2 hv.2⟩

theorem weave_bin : ∀ (ks vs : List Val), AllNoShortBin ks → AllNoShortBin vs → AllNoShortBin (weave ks vs)
  | [], _, _, _ => by simp [weave, AllNoShortBin]
  | _ :: _, [], _, _ => by simp [weave, AllNoShortBin]
  | k :: ks, v :: vs, hk, hv => by
    simp only [weave, AllNoShortBin]
    exact ⟨hk.1, hv.1, weave_bin ks vs hk.2 hv.2⟩

theorem weave_maps : ∀ (ks vs : List Val), AllMapsSmall ks → AllMapsSmall vs → AllMapsSmall (weave ks vs)
  | [], _, _, _ => by simp [weave, AllMapsSmall]
  | _ :: _, [], _, _ => by simp [weave, AllMapsSmall]
  | k :: ks, v :: vs, hk, hv => by
    simp only [weave, AllMapsSmall]
    exact ⟨hk.1, hv.1, weave_maps ks vs hk.2 hv.2⟩

/-- Reading the elements of an array. -/
theorem gather_list {chk : Bool} {t : Ty} {xs : List Datum} {vs : List Val} (h : Trips chk t xs vs) :
    ∀ {cap : Option Nat} {size : Nat} {e : List UInt8}, putAll chk cap size vs = some e → ∀ tail,
      gather ((List.range vs.length).map fun i => (skip i (e ++ tail)).bind (decode t)) = some xs := by
  induction h with
  | nil => intros; rfl
  | @cons x xs v vs h hs ih =>
    intro cap size e hp tail
    obtain ⟨e1, e2, h1, h2, rfl⟩ := putAll_cons_inv hp
    have hsk := skip_succ (next_put v h.fits h.bin h1).2
    rw [List.length_cons, List.range_succ_eq_map, List.map_cons, List.map_map, gather, List.append_assoc]
    have h0 : skip 0 (e1 ++ (e2 ++ tail)) = some (e1 ++ (e2 ++ tail)) := rfl
    rw [h0, Option.bind_some, h.dec _ _ _ h1, Option.bind_some]
    have : ((fun i => (skip i (e1 ++ (e2 ++ tail))).bind (decode t)) ∘ Nat.succ) =
        fun i => (skip i (e2 ++ tail)).bind (decode t) := by
      funext i
      simp only [Function.comp, Nat.succ_eq_add_one, hsk]
    rw [this, ih h2, Option.map_some]

/-- Reading the keys and values of a map. -/
theorem gather_map {chk : Bool} {tk tv : Ty} {ks : List Datum} {kvs : List Val} (hk : Trips chk tk ks kvs) :
    ∀ {vs : List Datum} {vvs : List Val}, Trips chk tv vs vvs → ks.length = vs.length →
    ∀ {cap : Option Nat} {size : Nat} {e : List UInt8}, putAll chk cap size (weave kvs vvs) = some e → ∀ tail,
      gather ((List.range ks.length).map fun i => (skip (2 * i) (e ++ tail)).bind (decode tk)) = some ks ∧
      gather ((List.range ks.length).map fun i => (skip (2 * i + 1) (e ++ tail)).bind (decode tv)) = some vs := by
  induction hk with
  | nil =>
    intro vs vvs hv hl _ _ _ _ _
    cases hv with
    | nil => exact ⟨rfl, rfl⟩
    | cons _ _ => simp at hl
  | @cons k ks kv kvs h hs ih =>
    intro vs vvs hv hl cap size e hp tail
    cases hv with
    | nil => simp at hl
    | @cons v vs vv vvs h' hs' =>
      rw [weave] at hp
      obtain ⟨e1, e', h1, hp', rfl⟩ := putAll_cons_inv hp
      obtain ⟨e2, e3, h2, h3, rfl⟩ := putAll_cons_inv hp'
      have s1 := skip_succ (next_put kv h.fits h.bin h1).2
      have s2 := skip_succ (next_put vv h'.fits h'.bin h2).2
      obtain ⟨i1, i2⟩ := ih hs' (by simpa using hl) h3 tail
      have a : e1 ++ (e2 ++ e3) ++ tail = e1 ++ (e2 ++ (e3 ++ tail)) := by simp only [List.append_assoc]
      have z : ∀ d : List UInt8, skip 0 d = some d := fun _ => rfl
      have g1 : ((fun i => (skip (2 * i) (e1 ++ (e2 ++ (e3 ++ tail)))).bind (decode tk)) ∘ Nat.succ) =
          fun i => (skip (2 * i) (e3 ++ tail)).bind (decode tk) := by
        funext i
        simp only [Function.comp, Nat.succ_eq_add_one, Nat.mul_add, Nat.mul_one]
        rw [show 2 * i + 2 = 2 * i + 1 + 1 from rfl, s1, s2]
      have g2 : ((fun i => (skip (2 * i + 1) (e1 ++ (e2 ++ (e3 ++ tail)))).bind (decode tv)) ∘ Nat.succ) =
          fun i => (skip (2 * i + 1) (e3 ++ tail)).bind (decode tv) := by
        funext i
        simp only [Function.comp, Nat.succ_eq_add_one, Nat.mul_add, Nat.mul_one]
        rw [show 2 * i + 2 + 1 = 2 * i + 1 + 1 + 1 from rfl, s1, s2]
      rw [a]
      constructor
      · rw [List.length_cons, List.range_succ_eq_map, List.map_cons, List.map_map, gather, Nat.mul_zero, z,
          Option.bind_some, h.dec _ _ _ h1, Option.bind_some, g1, i1]
        rfl
      · rw [List.length_cons, List.range_succ_eq_map, List.map_cons, List.map_map, gather, Nat.mul_zero, s1, z,
          Option.bind_some, h'.dec _ _ _ h2, Option.bind_some, g2, i2]
        rfl

theorem decode_nil {d : List UInt8} (h : visit d = .nil) : ∀ t, decode t d = some .none
  | .alias t => by rw [decode]; exact decode_nil h t
  | .none | .bool | .int | .count | .real | .duration | .time | .string | .pattern | .address | .subnet | .enum _
  | .list _ | .map _ _ | .record _ => by
    simp only [decode, h, asBool, asSigned, asUnsigned, asReal, asText, asAddress, asSubnet, asEnum, asList, asMap]

/-- The null. -/
theorem trip_none (chk : Bool) : ∀ t, Trip chk t .none .nil := by
  intro t
  refine ⟨rfl, trivial, trivial, fun _ => trivial, ?_⟩
  intro cap size e hp tail
  exact decode_nil (put_seen (v := .nil) trivial hp tail) t

theorem trip_signed {chk : Bool} {t : Ty} {x : Datum} {n : Int} {f : Int → Datum} (hx : x = f n)
    (he : encode (f n) = some [.sint 8 n]) (hd : ∀ d, decode t d = asSigned f (visit d))
    (h : -2 ^ 63 ≤ n ∧ n < 2 ^ 63) : ∃ v, Trip chk t x v := by
  subst hx
  have hf : Fits (.sint 8 n) := ⟨.inr (.inr (.inr rfl)), by omega, by omega⟩
  refine ⟨_, he, hf, trivial, fun _ => trivial, ?_⟩
  intro cap size e hp tail
  rw [hd]
  have hs : SignedSeen (visit (e ++ tail)) n := put_seen (v := .sint 8 n) hf hp tail
  rcases hs with ⟨w, hw⟩ | ⟨hw, h0, h1⟩
  · rw [hw]; rfl
  · rw [hw, asSigned, toSigned_small h0 h1]

theorem trip_text {chk : Bool} {t : Ty} {x : Datum} {s : List UInt8} {f : List UInt8 → Datum} (hx : x = f s)
    (he : encode (f s) = some [.str s]) (hd : ∀ d, decode t d = asText f (visit d))
    (h : s.length < 2 ^ 32) : ∃ v, Trip chk t x v := by
  subst hx
  have hf : Fits (.str s) := h
  refine ⟨_, he, hf, trivial, fun _ => trivial, ?_⟩
  intro cap size e hp tail
  rw [hd, put_seen (v := .str s) hf hp tail]
  rfl

theorem subnet_length_lt {s : Subnet} (h : Spec.Sized (.subnet s)) :
    s.length < 256 ∧ Subnet.make s.network s.length = s := by
  obtain ⟨a, l, hl, rfl⟩ := h
  have h1 := (C48_length_network a l hl).1
  refine ⟨?_, C48_idempotent a l hl⟩
  rw [h1]
  have : a.maxLength ≤ 128 := by unfold Address.maxLength; split <;> omega
  omega

theorem trip_subnet {chk : Bool} {s : Subnet} (h : Spec.Sized (.subnet s)) : ∃ v, Trip chk .subnet (.subnet s) v := by
  obtain ⟨hl, hm⟩ := subnet_length_lt h
  have hfa : Fits (.fixstr (addressBytes s.network)) := addressBytes_length _
  have hfl : Fits (.u8 s.length) := hl
  have hf : Fits (.arr 2 [.fixstr (addressBytes s.network), .u8 s.length]) :=
    ⟨rfl, by omega, hfa, hfl, trivial⟩
  refine ⟨_, rfl, hf, ⟨trivial, trivial, trivial⟩, fun _ => ⟨trivial, trivial, trivial⟩, ?_⟩
  intro cap size e hp tail
  obtain ⟨k, body, hk, hb, rfl⟩ := put_arr_inv hp
  obtain ⟨e1, e', h1, hb', rfl⟩ := putAll_cons_inv hb
  obtain ⟨e2, e3, h2, h3, rfl⟩ := putAll_cons_inv hb'
  have v1 := put_seen hfa h1 (e2 ++ (e3 ++ tail))
  have v2 := put_seen hfl h2 (e3 ++ tail)
  have n1 := (next_put _ hfa trivial h1).2
  simp only at v1 v2
  simp only [List.length_cons, List.length_nil, Nat.zero_add, Nat.reduceAdd, List.append_assoc]
  rw [decode, visit_arr hk]
  simp only [asSubnet, v1, subnetAddress, addressOf_bytes, Option.bind_some, next]
  rw [n1 _ _ (by simp)]
  simp only [Option.bind_some, v2, subnetLength, Option.map_some, hm]

/-- Every value of a type is written and read back. -/
theorem trip {chk : Bool} : ∀ (t : Ty) (x : Datum), Spec.HasType t x → Spec.Sized x →
    (chk = true → Spec.MapsSmall x) → ∃ v, Trip chk t x v
  | .none, x, h, _, _ => by cases h; exact ⟨_, trip_none chk _⟩
  | .record _, x, h, _, _ => by cases h; exact ⟨_, trip_none chk _⟩
  | .alias t, x, h, hs, hm => by
    obtain ⟨v, hv⟩ := trip t x h hs hm
    exact ⟨v, hv.enc, hv.fits, hv.bin, hv.maps, hv.dec⟩
  | .bool, x, h, hs, _ => by
    rcases h with rfl | ⟨b, rfl⟩
    · exact ⟨_, trip_none chk _⟩
    · refine ⟨_, rfl, trivial, trivial, fun _ => trivial, ?_⟩
      intro cap size e hp tail
      rw [decode, put_seen (v := .bool b) trivial hp tail]; rfl
  | .int, x, h, hs, _ => by
    rcases h with rfl | ⟨n, rfl⟩
    · exact ⟨_, trip_none chk _⟩
    · have hs : -2 ^ 63 ≤ n ∧ n < 2 ^ 63 := hs
      have hf : Fits (.integer n) := ⟨by omega, by omega⟩
      refine ⟨_, rfl, hf, trivial, fun _ => trivial, ?_⟩
      intro cap size e hp tail
      rw [decode, put_seen (v := .integer n) hf hp tail]; rfl
  | .count, x, h, hs, _ => by
    rcases h with rfl | ⟨n, rfl⟩
    · exact ⟨_, trip_none chk _⟩
    · have hs : n < 2 ^ 64 := hs
      have hf : Fits (.uint 8 n) := ⟨.inr (.inr (.inr rfl)), by omega⟩
      refine ⟨_, rfl, hf, trivial, fun _ => trivial, ?_⟩
      intro cap size e hp tail
      obtain ⟨w, hw, _⟩ := put_seen (v := .uint 8 n) hf hp tail
      rw [decode, hw]; rfl
  | .real, x, h, hs, _ => by
    rcases h with rfl | ⟨b, rfl⟩
    · exact ⟨_, trip_none chk _⟩
    · have hf : Fits (.double b) := hs
      refine ⟨_, rfl, hf, trivial, fun _ => trivial, ?_⟩
      intro cap size e hp tail
      rw [decode, put_seen (v := .double b) hf hp tail]; rfl
  | .duration, x, h, hs, _ => by
    rcases h with rfl | ⟨n, rfl⟩
    · exact ⟨_, trip_none chk _⟩
    · exact trip_signed (f := .duration) rfl rfl (fun _ => by rw [decode]) hs
  | .time, x, h, hs, _ => by
    rcases h with rfl | ⟨n, rfl⟩
    · exact ⟨_, trip_none chk _⟩
    · exact trip_signed (f := .time) rfl rfl (fun _ => by rw [decode]) hs
  | .string, x, h, hs, _ => by
    rcases h with rfl | ⟨s, rfl⟩
    · exact ⟨_, trip_none chk _⟩
    · exact trip_text (f := .string) rfl rfl (fun _ => by rw [decode]) hs
  | .pattern, x, h, hs, _ => by
    rcases h with rfl | ⟨s, rfl⟩
    · exact ⟨_, trip_none chk _⟩
    · exact trip_text (f := .pattern) rfl rfl (fun _ => by rw [decode]) hs
  | .address, x, h, hs, _ => by
    rcases h with rfl | ⟨a, rfl⟩
    · exact ⟨_, trip_none chk _⟩
    · have hf : Fits (.fixstr (addressBytes a)) := addressBytes_length a
      refine ⟨_, rfl, hf, trivial, fun _ => trivial, ?_⟩
      intro cap size e hp tail
      rw [decode, put_seen (v := .fixstr (addressBytes a)) hf hp tail, asAddress, addressOf_bytes]; rfl
  | .subnet, x, h, hs, _ => by
    rcases h with rfl | ⟨s, rfl⟩
    · exact ⟨_, trip_none chk _⟩
    · exact trip_subnet hs
  | .enum m, x, h, hs, _ => by
    rcases h with rfl | ⟨n, _, rfl⟩
    · exact ⟨_, trip_none chk _⟩
    · have hs : n < 256 := hs
      have hf : Fits (.uint 1 n) := ⟨.inl rfl, by omega⟩
      refine ⟨_, rfl, hf, trivial, fun _ => trivial, ?_⟩
      intro cap size e hp tail
      obtain ⟨w, hw, hw1⟩ := put_seen (v := .uint 1 n) hf hp tail
      rw [decode, hw, hw1 hs]; rfl
  | .list t, x, h, hs, hm => by
    rcases h with rfl | ⟨xs, rfl, hx⟩
    · exact ⟨_, trip_none chk _⟩
    · obtain ⟨hl, hall⟩ : xs.length < 2 ^ 32 ∧ Spec.AllSized xs := hs
      obtain ⟨vs, hvs⟩ := Trips.of (chk := chk) (t := t) xs fun y hy =>
        trip t y (hx y hy) (allSized_mem hall y hy) fun hc => allMaps_mem (hm hc) y hy
      obtain ⟨h1, h2, h3, h4, h5⟩ := hvs.each
      refine ⟨.arr xs.length vs, ?_, ⟨h2.symm, hl, h3⟩, h4, h5, ?_⟩
      · rw [encode, h1, Option.map_some, flatten_singletons]
      · intro cap size e hp tail
        obtain ⟨k, body, hk, hb, rfl⟩ := put_arr_inv hp
        rw [decode, List.append_assoc, visit_arr (h2 ▸ hk), asList, gather_list hvs hb]
        rfl
  | .map tk tv, x, h, hs, hm => by
    rcases h with rfl | ⟨ks, vs, rfl, hk, hv⟩
    · exact ⟨_, trip_none chk _⟩
    · obtain ⟨hlen, hl, hak, hav⟩ : ks.length = vs.length ∧ ks.length < 2 ^ 31 ∧ Spec.AllSized ks ∧ Spec.AllSized vs := hs
      obtain ⟨kv, hkv⟩ := Trips.of (chk := chk) (t := tk) ks fun y hy =>
        trip tk y (hk y hy) (allSized_mem hak y hy) fun hc => allMaps_mem (hm hc).2.1 y hy
      obtain ⟨vv, hvv⟩ := Trips.of (chk := chk) (t := tv) vs fun y hy =>
        trip tv y (hv y hy) (allSized_mem hav y hy) fun hc => allMaps_mem (hm hc).2.2 y hy
      obtain ⟨a1, a2, a3, a4, a5⟩ := hkv.each
      obtain ⟨b1, b2, b3, b4, b5⟩ := hvv.each
      have hwl := weave_length kv vv (by omega)
      refine ⟨.map ks.length (weave kv vv), ?_, ⟨by omega, hl, weave_fit _ _ a3 b3⟩, weave_bin _ _ a4 b4,
        fun hc => ⟨(hm hc).1, weave_maps _ _ (a5 hc) (b5 hc)⟩, ?_⟩
      · rw [encode, a1, Option.bind_some, b1, Option.map_some, weave_map, flatten_singletons]
      · intro cap size e hp tail
        obtain ⟨k, body, hk', hb, rfl⟩ := put_map_inv hp
        have hn : (weave kv vv).length / 2 = ks.length := by omega
        obtain ⟨g1, g2⟩ := gather_map hkv hvv hlen hb tail
        rw [decode, List.append_assoc, hn, visit_map hk' hl, asMap, Nat.mul_div_cancel_left _ (by omega), g1, g2]
        rfl

end Verif.MsgpackSlice
