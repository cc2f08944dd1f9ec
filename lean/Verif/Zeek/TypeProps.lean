import Verif.Zeek.Spec
/-!
C95: the names of types in Zeek logs.
-/
namespace Verif.Zeek
open Verif.Data Verif.DataText

/-! ### C95 -/

theorem ascii_eq (s : String) : DataText.Spec.ascii s = str s := rfl

theorem behindOpen_append (p : Str) (h : ch '[' ∉ p) (r : Str) : behindOpen (p ++ ch '[' :: r) = some r := by
  induction p with
  | nil => simp [behindOpen]
  | cons b p ih =>
    have hb : ¬ b = ch '[' := fun e => h (by simp [e])
    simp only [List.cons_append, behindOpen, hb, if_false]
    exact ih fun e => h (by simp [e])

theorem beforeClose_append (p : Str) : beforeClose (p ++ [ch ']']) = some p := by
  induction p with
  | nil => rfl
  | cons b p ih => simp only [List.cons_append, beforeClose, ih]

/-- A container of elements with a name that is understood. -/
theorem parse_container (w : String) (hw : w = "vector" ∨ w = "set" ∨ w = "table") (k : Nat) (n : Str) (t : Ty)
    (h : parseTypeN k n = some t) : parseTypeN (k + 1) (str w ++ ch '[' :: (n ++ [ch ']'])) = some (.list t) := by
  have hb : between (str w ++ ch '[' :: (n ++ [ch ']'])) = some n := by
    have h1 : behindOpen (str w ++ ch '[' :: (n ++ [ch ']'])) = some (n ++ [ch ']']) := by
      apply behindOpen_append
      rcases hw with rfl | rfl | rfl <;> decide
    have h2 : beforeClose (str w ++ ch '[' :: (n ++ [ch ']'])) = some (str w ++ ch '[' :: n) := by
      have : str w ++ ch '[' :: (n ++ [ch ']']) = (str w ++ ch '[' :: n) ++ [ch ']'] := by simp
      rw [this, beforeClose_append]
    simp [between, h1, h2, beforeClose_append]
  have hf : basic.find? (fun e => decide (str e.1 = str w ++ ch '[' :: (n ++ [ch ']']))) = none := by
    rw [List.find?_eq_none]
    intro e he
    have hc : ch '[' ∉ str e.1 := by
      have hall : ∀ e ∈ basic, ch '[' ∉ str e.1 := by decide
      exact hall e he
    simp only [decide_eq_true_eq]
    intro heq
    exact hc (by rw [heq]; simp)
  have hp : ((str "vector").isPrefixOf (str w ++ ch '[' :: (n ++ [ch ']'])) || (str "set").isPrefixOf (str w ++ ch '[' :: (n ++ [ch ']']))
      || (str "table").isPrefixOf (str w ++ ch '[' :: (n ++ [ch ']']))) = true := by
    have hpre : ∀ (a b : Str), a.isPrefixOf (a ++ b) = true := fun a b => List.isPrefixOf_iff_prefix.mpr ⟨b, rfl⟩
    rcases hw with rfl | rfl | rfl <;> simp [hpre]
  simp [parseTypeN, hf, hp, hb, h]

theorem parse_names {n : Str} {t : Ty} (h : Spec.Names n t) : ∀ k, n.length < k → parseTypeN k n = some t := by
  have hone : ∀ (s : String) (t : Ty), (∀ j, parseTypeN (j + 1) (str s) = some t) → ∀ k, (str s).length < k → parseTypeN k (str s) = some t := by
    intro s t hj k hk
    obtain ⟨j, rfl⟩ : ∃ j, k = j + 1 := ⟨k - 1, by omega⟩
    exact hj j
  have hcon : ∀ (w : String) (n : Str) (t : Ty), w = "vector" ∨ w = "set" ∨ w = "table" → (∀ k, n.length < k → parseTypeN k n = some t) →
      ∀ k, (str w ++ ch '[' :: (n ++ [ch ']'])).length < k → parseTypeN k (str w ++ ch '[' :: (n ++ [ch ']'])) = some (.list t) := by
    intro w n t hw ih k hk
    simp only [List.length_append, List.length_cons, List.length_nil] at hk
    obtain ⟨j, rfl⟩ : ∃ j, k = j + 1 := ⟨k - 1, by omega⟩
    exact parse_container w hw j n t (ih j (by omega))
  induction h with
  | vector n t _ ih => intro k hk; have := hcon "vector" n t (by simp) ih k; simpa [Spec.Names, ascii_eq, str, ch, DataText.Spec.ascii] using this (by simpa [ascii_eq, str] using hk)
  | set n t _ ih => intro k hk; have := hcon "set" n t (by simp) ih k; simpa [Spec.Names, ascii_eq, str, ch, DataText.Spec.ascii] using this (by simpa [ascii_eq, str] using hk)
  | table n t _ ih => intro k hk; have := hcon "table" n t (by simp) ih k; simpa [Spec.Names, ascii_eq, str, ch, DataText.Spec.ascii] using this (by simpa [ascii_eq, str] using hk)
  | _ => exact hone _ _ fun _ => rfl

/-- C95: every name of a type that Zeek writes is understood, at any depth. -/
theorem C95_names (n : Str) (t : Ty) (h : Spec.Names n t) : parseType n = some t := parse_names h _ (by omega)

example : Spec.Names (str "table[vector[addr]]") (.list (.list .addr)) := .table _ _ (.vector _ _ .addr)
example : parseType (str "set[enum]") = some (.list .string) := by decide

/-- The basic types of VAST that Zeek has, and lists of such. -/
def Spec.Plain : Ty → Prop
  | .enum => False
  | .map => False
  | .list t => Spec.Plain t
  | _ => True

theorem names_typeName (t : Ty) (h : Spec.Plain t) : Spec.Names (typeName t) t := by
  induction t with
  | enum => cases h
  | map => cases h
  | list t ih => exact .vector _ _ (ih h)
  | bool => exact .bool
  | int => exact .int
  | count => exact .count
  | real => exact .double
  | time => exact .time
  | duration => exact .interval
  | string => exact .string
  | pattern => exact .pattern
  | addr => exact .addr
  | subnet => exact .subnet
  | port => exact .port

/-- C95: on export, types without enumerations and maps get a name that Zeek has for them, and that is understood on import. -/
theorem C95_export_partial (t : Ty) (h : Spec.Plain t) : Spec.Names (typeName t) t ∧ parseType (typeName t) = some t :=
  ⟨names_typeName t h, C95_names _ _ (names_typeName t h)⟩

example : Spec.Plain (.list (.list .subnet)) := trivial

/-- **Refuted** for enumerations and maps: their names are not those of Zeek types, and the import rejects them. -/
theorem C95_enum_refuted : typeName .enum = str "enumeration" ∧ parseType (typeName .enum) = none ∧ parseType (typeName (.list .map)) = none
    ∧ ∀ t, ¬ Spec.Names (typeName .enum) t := by
  refine ⟨rfl, by decide, by decide, ?_⟩
  intro t h
  have := C95_names _ _ h
  rw [show parseType (typeName .enum) = none by decide] at this
  cases this

/-- C95: a name that is neither that of a basic type nor begins like that of a container is rejected. -/
theorem C95_unknown_partial (n : Str) (h : ∀ t, ¬ Spec.Names n t) (hv : ¬ str "vector" <+: n) (hs : ¬ str "set" <+: n) (ht : ¬ str "table" <+: n) :
    parseType n = none := by
  have hf : basic.find? (fun e => decide (str e.1 = n)) = none := by
    rw [List.find?_eq_none]
    intro e he
    simp only [decide_eq_true_eq]
    intro heq
    subst heq
    simp only [basic, List.mem_cons, List.not_mem_nil, or_false] at he
    rcases he with rfl | rfl | rfl | rfl | rfl | rfl | rfl | rfl | rfl | rfl | rfl | rfl | rfl
    · exact h _ .enum
    · exact h _ .string
    · exact h _ .file
    · exact h _ .bool
    · exact h _ .int
    · exact h _ .count
    · exact h _ .double
    · exact h _ .time
    · exact h _ .interval
    · exact h _ .pattern
    · exact h _ .addr
    · exact h _ .subnet
    · exact h _ .port
  have hp : ∀ w : String, ¬ str w <+: n → (str w).isPrefixOf n = false := by
    intro w hw
    rw [Bool.eq_false_iff]
    exact fun e => hw (List.isPrefixOf_iff_prefix.mp e)
  simp [parseType, parseTypeN, hf, hp "vector" hv, hp "set" hs, hp "table" ht]

example : parseType (str "opaque") = none := by decide

/-- **Refuted** that everything else is rejected: what stands between the name of a container and the first bracket, and behind the
last one, does not matter, and brackets in the wrong order are taken, too. -/
theorem C95_junk_refuted : parseType (str "settings[string]") = some (.list .string) ∧ parseType (str "set[string] of x") = some (.list .string)
    ∧ parseType (str "vector][string") = some (.list .string) ∧ (∀ t, ¬ Spec.Names (str "vector][string") t) := by
  refine ⟨by decide, by decide, by decide, ?_⟩
  intro t h
  have key : ∀ n t, Spec.Names n t → n ≠ str "vector][string" := by
    intro n t h
    cases h <;> try decide
    all_goals
      intro e
      have := congrArg List.getLast? e
      rw [List.getLast?_append, show List.getLast? (DataText.Spec.ascii "]") = some 93 from rfl] at this
      revert this
      simp [str]
  exact key _ _ h rfl

end Verif.Zeek
