import Verif.HashAppend.Lemmas
/-! # C177, C178: what is hashed of a value is determined by the value, and determines it -/
namespace Verif.HashAppend
open Spec

/-- **C177.**  Equal values are given to the hash function as equal bytes, whatever is in the padding of their memory. -/
theorem C177_equal (same : Bool) (t : Ty) (v w : Val t) (h : Same t v w) (o o' : List UInt8) (ho : Appends same t v o) (ho' : Appends same t w o') : o = o' := by
  rw [(appends_iff same t v o).mp ho, (appends_iff same t w o').mp ho']
  exact flat_same same t v w h

/-- **C177.**  There are bytes for every value. -/
theorem C177_total (same : Bool) (t : Ty) (v : Val t) : ∃ o, Appends same t v o := ⟨_, (appends_iff same t v _).mpr rfl⟩

/-- **C177.**  Different values of a type are given to the hash function as different bytes: collisions are due to the hash function alone. -/
theorem C177_different (same : Bool) (t : Ty) (v w : Val t) (o : List UInt8) (ho : Appends same t v o) (ho' : Appends same t w o) : Same t v w := by
  rw [appends_iff] at ho ho'
  exact (flat_inj same t v w [] [] (by rw [List.nil_append, List.nil_append, ← ho, ← ho'])).1

/-- **C177.**  The same for several values in a row, as when a salt is added: bytes are not shifted from one value into the next. -/
theorem C177_row (same : Bool) : ∀ (ts : List Ty) (vs ws : List ((t : Ty) × Val t)), vs.map Sigma.fst = ts → ws.map Sigma.fst = ts → ∀ (o p q : List UInt8),
    Calls same vs p → Calls same ws q → ∀ (a b : List UInt8), a ++ p = o → b ++ q = o →
      a = b ∧ List.Forall₂ (fun x y => ∃ (t : Ty) (v w : Val t), x = ⟨t, v⟩ ∧ y = ⟨t, w⟩ ∧ Same t v w) vs ws
  | [], vs, ws, hv, hw, o, p, q, hp, hq, a, b, ha, hb => by
    obtain rfl := List.map_eq_nil_iff.mp hv
    obtain rfl := List.map_eq_nil_iff.mp hw
    obtain rfl : p = [] := hp
    obtain rfl : q = [] := hq
    exact ⟨by simpa using ha.trans hb.symm, .nil⟩
  | t :: ts, vs, ws, hv, hw, o, p, q, hp, hq, a, b, ha, hb => by
    obtain ⟨⟨t1, v⟩, vs, rfl, e1, hv'⟩ := List.map_eq_cons_iff.mp hv
    obtain ⟨⟨t2, w⟩, ws, rfl, e2, hw'⟩ := List.map_eq_cons_iff.mp hw
    dsimp only at e1 e2
    subst e1 e2
    obtain ⟨x, y, h1, h2, rfl⟩ := hp
    obtain ⟨x', y', h3, h4, rfl⟩ := hq
    rw [← List.append_assoc] at ha hb
    obtain ⟨e, f⟩ := C177_row same ts vs ws hv' hw' o y y' h2 h4 _ _ ha hb
    dsimp only at h1 h3
    rw [appends_iff] at h1 h3
    subst h1 h3
    obtain ⟨s, e⟩ := flat_inj same _ v w a b e
    exact ⟨e, .cons ⟨_, v, w, rfl, rfl, s⟩ f⟩

/-- A pair with padding is given member by member, one without as it is. -/
example : contiguous true (.pair (.int 1) (.int 4)) = false ∧ contiguous true (.pair (.int 4) (.int 4)) = true ∧
    contiguous true (.array 15 (.int 1)) = true ∧ contiguous false (.pair (.int 4) (.int 4)) = false := by decide

example : flat true (.pair (.int 1) (.pair .str .real)) ((7 : Fin 256), (⟨[97, 98], by decide⟩, (⟨2 ^ 63, by decide⟩ : Fin (256 ^ 8)))) =
    [7, 97, 98, 2, 0, 0, 0, 0, 0, 0, 0, 0, 0, 0, 0, 0, 0, 0, 0] := by decide +kernel

/-- **C178 (partial).**  Unordered sets with different elements are given as different bytes, and those whose elements come in the same order as the same.  Missing: equal sets whose elements
come in different orders, for which this fails. -/
theorem C178_unordered_partial (same : Bool) (t : Ty) (l r : List (Val t)) (hl : l.length < 256 ^ 8) (hr : r.length < 256 ^ 8) (o o' : List UInt8)
    (ho : AppendsUnordered same t l o) (ho' : AppendsUnordered same t r o') : o = o' ↔ List.Forall₂ (Same t) l r := by
  have h1 : Appends same (.set t) ⟨l, hl⟩ o := ho
  have h2 : Appends same (.set t) ⟨r, hr⟩ o' := ho'
  constructor
  · rintro rfl
    exact C177_different same (.set t) _ _ o h1 h2
  · exact fun h => C177_equal same (.set t) ⟨l, hl⟩ ⟨r, hr⟩ h o o' h1 h2

/-- **C178 (refuted).**  For unordered sets, the bytes depend on the order in which the elements come: sets that are equal are given as different bytes. -/
theorem C178_unordered_refuted : ∃ (l r : List (Val (.int 1))) (o o' : List UInt8), l.Perm r ∧ AppendsUnordered true (.int 1) l o ∧
    AppendsUnordered true (.int 1) r o' ∧ o ≠ o' := by
  have hs : ∀ x : Val (.int 1), Appends true (.int 1) x (flat true (.int 1) x) := fun x => (appends_iff _ _ _ _).mpr rfl
  refine ⟨[(1 : Fin 256), (2 : Fin 256)], [(2 : Fin 256), (1 : Fin 256)], _, _, .swap _ _ _, ⟨_, .cons (hs _) (.cons (hs _) .nil), rfl⟩,
    ⟨_, .cons (hs _) (.cons (hs _) .nil), rfl⟩, ?_⟩
  decide +kernel

/-- **C178 (refuted).**  Values of different types may be given as the same bytes: a text, and a list of its characters. -/
theorem C178_types_refuted : ∃ (s : Val .str) (l : Val (.vec (.int 1))) (o : List UInt8), Appends true .str s o ∧ Appends true (.vec (.int 1)) l o := by
  refine ⟨⟨[97], by decide⟩, ⟨[(97 : Fin 256)], show (1 : Nat) < 256 ^ 8 by decide⟩, _, (appends_iff _ _ _ _).mpr rfl, (appends_iff _ _ _ _).mpr ?_⟩
  decide +kernel

end Verif.HashAppend
