import Verif.Msgpack.PutLemmas

/-! # C47: MessagePack values round-trip and can be skipped

`put` writes a value (msgpack_builder.hpp), `visit` decodes the object at the start of a buffer
(msgpack.hpp), `next` and `skip` move an overlay over one object or several (msgpack.cpp).
`Spec.readTree` is a client that decodes an object and all its elements with them. -/

namespace Verif.Msgpack
open Spec

/-- Every value that is no container is decoded as what was written, whatever follows in the buffer, for
    all values of its type except for some time stamps. -/
theorem C47_scalar_partial (chk : Bool) (v : Val) (hv : Scalar v) (hf : Fits v) (ht : TimesPlain v) :
    ∃ e, put chk none 0 v = some e ∧ ∀ tail, readTree e.length (e ++ tail) = some (tree v) := by
  obtain ⟨e, he⟩ := put_some (chk := chk) v (cap := none) (size := 0) hf
    (by intro _; cases v <;> first | exact hv.elim | trivial) rfl
  refine ⟨e, he, fun tail => ?_⟩
  have h := put_scalar hv hf he
  have hpos := h.1
  obtain ⟨m, hm⟩ : ∃ m', e.length = m' + 1 := ⟨e.length - 1, by omega⟩
  rw [hm]
  exact h.2.2 ht m tail

/-- Values of any depth: writing one succeeds, an overlay skips exactly what was written, whatever follows,
    and decoding the object gives the value back. Missing: binary data of less than 256 bytes, some time
    stamps, and with input validation maps that have between 8 and 15 entries or between 32768 and 65535:
    the theorems below show that all three fail. -/
theorem C47_round_trip_partial (chk : Bool) (v : Val) (hf : Fits v) (hb : NoShortBin v) (ht : TimesPlain v)
    (hm : chk = true → MapsSmall v) :
    ∃ e, put chk none 0 v = some e ∧ ∀ tail, next (e ++ tail) = some tail ∧
      readTree e.length (e ++ tail) = some (tree v) := by
  obtain ⟨e, he⟩ := put_some (chk := chk) v (cap := none) (size := 0) hf hm rfl
  refine ⟨e, he, fun tail => ⟨?_, read_put v hf hb ht he e.length tail (Nat.le_refl _)⟩⟩
  exact (next_put v hf hb he).2 _ tail (by simp)

theorem skip_putAll {chk : Bool} : ∀ (vs : List Val) {cap : Option Nat} {size : Nat} {e : List UInt8}, AllFit vs →
    AllNoShortBin vs → AllTimesPlain vs → putAll chk cap size vs = some e →
    ∀ (tail : List UInt8) (i : Nat) (v : Val), vs[i]? = some v → ∃ rest, skip i (e ++ tail) = some rest ∧
      readTree rest.length rest = some (tree v)
  | [], _, _, _, _, _, _, _, _, i, v, hv => by simp at hv
  | x :: xs, cap, size, e, hf, hb, ht, hp, tail, i, v, hv => by
    obtain ⟨e1, e2, h1, h2, rfl⟩ := putAll_cons_inv hp
    rw [List.append_assoc]
    cases i with
    | zero =>
      simp at hv; subst hv
      exact ⟨_, rfl, read_put x hf.1 hb.1 ht.1 h1 _ _ (by simp)⟩
    | succ i =>
      rw [skip_succ (next_put x hf.1 hb.1 h1).2]
      exact skip_putAll xs hf.2 hb.2 ht.2 h2 tail i v (by simpa using hv)

/-- Values written one after the other: skipping `i` objects finds the `i`-th. The same values are
    missing. -/
theorem C47_sequence_partial (vs : List Val) (hf : AllFit vs) (hb : AllNoShortBin vs) (ht : AllTimesPlain vs) :
    ∃ e, putAll false none 0 vs = some e ∧ skip vs.length e = some [] ∧
      ∀ (i : Nat) (v : Val), vs[i]? = some v → ∃ rest, skip i e = some rest ∧
        readTree rest.length rest = some (tree v) := by
  obtain ⟨e, he⟩ := putAll_some (chk := false) vs (cap := none) (size := 0) hf (by simp) (by simp)
  refine ⟨e, he, ?_, ?_⟩
  · have : ∀ (vs : List Val) {cap : Option Nat} {size : Nat} {e : List UInt8}, AllFit vs → AllNoShortBin vs →
        putAll false cap size vs = some e → skip vs.length e = some [] := by
      intro vs
      induction vs with
      | nil => intro cap size e _ _ hp; rw [putAll] at hp; cases hp; rfl
      | cons x xs ih =>
        intro cap size e hf hb hp
        obtain ⟨e1, e2, h1, h2, rfl⟩ := putAll_cons_inv hp
        rw [List.length_cons, skip_succ (next_put x hf.1 hb.1 h1).2]
        exact ih hf.2 hb.2 h2
    exact this vs hf hb he
  · intro i v hv
    have := skip_putAll vs hf hb ht he [] i v hv
    rwa [List.append_nil] at this

/-- a map of an array and a time stamp, in an array, with validation -/
example : ∃ v, Fits v ∧ NoShortBin v ∧ TimesPlain v ∧ MapsSmall v ∧
    v = .arr 2 [.map 2 [.str [97], .arr 2 [.sint 8 (-70000), .uint 2 300], .u8 7, .time 1500000000123456789], .bool true] :=
  ⟨_, by simp [Fits, AllFit], by simp [NoShortBin, AllNoShortBin], by simp [TimesPlain, AllTimesPlain],
    by simp [MapsSmall, AllMapsSmall], rfl⟩

/-- An overlay does not skip binary data of less than 256 bytes: it stops one byte early. -/
theorem C47_short_binary_refuted :
    ∃ (v : Val) (e tail : List UInt8), Fits v ∧ TimesPlain v ∧ put false none 0 v = some e ∧
      next (e ++ tail) ≠ some tail := by
  refine ⟨.bin [7], [0xc4, 1, 7], [0xc0], by simp [Fits], trivial, rfl, ?_⟩
  have : next ([0xc4, 1, 7] ++ [0xc0]) = some [7, 0xc0] := by decide +kernel
  rw [this]
  decide

/-- An element that follows such data in an array is decoded wrongly. -/
theorem C47_short_binary_element_refuted :
    ∃ (v : Val) (e : List UInt8), Fits v ∧ put false none 0 v = some e ∧
      tree v = .arr false [.bin [7], .nil] ∧ readTree e.length e = some (.arr false [.bin [7], .int 7]) :=
  ⟨.arr 2 [.bin [7], .nil], [0x92, 0xc4, 1, 7, 0xc0], by simp [Fits, AllFit], rfl, rfl, rfl⟩

set_option maxRecDepth 100000 in
/-- A whole second after January 2038 is read as one before 1970. -/
theorem C47_time_2038_refuted :
    ∃ (t t' : Int) (e : List UInt8), Fits (.time t) ∧ 0 < t ∧ t' < 0 ∧ put false none 0 (.time t) = some e ∧
      readTree e.length e = some (.time t') :=
  ⟨2147483648000000000, -2147483648000000000, [0xd6, 0xff, 0x80, 0, 0, 0], by simp [Fits], by decide, by decide,
    rfl, rfl⟩

/-- A fraction of a second before the epoch is read as a time many years after it. -/
theorem C47_time_negative_refuted :
    ∃ (t t' : Int) (e : List UInt8), Fits (.time t) ∧ t = -500000000 ∧ 0 < t' ∧ put false none 0 (.time t) = some e ∧
      readTree e.length e = some (.time t') :=
  ⟨-500000000, 573741824, [0xd7, 0xff, 0x88, 0xca, 0x6c, 0, 0, 0, 0, 0], by simp [Fits], rfl, by decide, rfl, rfl⟩

/-- With input validation, a map of eight entries cannot be written. -/
theorem C47_map_refuted : ∃ v : Val, Fits v ∧ NoShortBin v ∧ TimesPlain v ∧ put true none 0 v = none ∧
    v = .map 8 (List.replicate 16 .nil) := by
  refine ⟨_, ?_, ?_, ?_, ?_, rfl⟩
  · simp [Fits, AllFit, List.replicate]
  · simp [NoShortBin, AllNoShortBin, List.replicate]
  · simp [TimesPlain, AllTimesPlain, List.replicate]
  · rfl

end Verif.Msgpack
