import Verif.SchemaText.Print

/-! # C100: schemas arrive as they were sent -/

namespace Verif.SchemaText

open Verif.Types (Name Meta)
open Spec

variable {sch : List T}

theorem defs_names (sch : List T) : (defs sch).map (·.1) = sch.map T.name := by simp [defs, Function.comp_def]

theorem nodup_perm {a b : List T} (ha : (a.map T.name).Nodup) (hb : (b.map T.name).Nodup) (h : ∀ t, t ∈ a ↔ t ∈ b) : a.Perm b := by
  have ha' : a.Nodup := List.Pairwise.imp (fun h e => h (congrArg _ e)) (List.pairwise_map.mp ha)
  have hb' : b.Nodup := List.Pairwise.imp (fun h e => h (congrArg _ e)) (List.pairwise_map.mp hb)
  exact (List.perm_ext_iff_of_nodup ha' hb').mpr h

/-- C100: the text of a schema is read as its types, in the order of the hash table. Missing: schemas that are not
    `Faithful`; the order. -/
theorem C100_text_partial (hf : Faithful sch) (hn : sch ≠ []) (order : List (Name × T) → List (Name × T))
    (ho : ∀ l : List (Name × T), l.Perm (order l)) :
    ∃ r, schemaP order (schemaText sch) = .ok (.ok r) [] ∧ r.Perm sch := by
  have hs : SymbolsText (schemaText sch) (defs sch) := .intro (g := []) .nil (schema_text hf (fun _ h => h) hn)
  have hm : ∀ n d, (n, d) ∈ defs sch → ∃ t, Means [] (defs sch) n d t := by
    intro n d h
    obtain ⟨t, ht, e⟩ := List.mem_map.mp h
    cases e
    exact ⟨t, def_means hf t ht⟩
  have hd : ((defs sch).map (·.1)).Nodup := by rw [defs_names]; exact hf.distinct
  obtain ⟨r, h1, h2, h3⟩ := C99_schema _ _ order ho hs hd hm
  refine ⟨r, h1, nodup_perm h2 hf.distinct fun t => ?_⟩
  rw [h3]
  constructor
  · rintro ⟨n, d, h, ht⟩
    obtain ⟨u, hu, e⟩ := List.mem_map.mp h
    cases e
    have hp : Parsed (defs sch) := ⟨hd, decls_parsed (schema_text hf (fun _ h => h) hn)⟩
    rw [C98_unique (by simp) hp _ _ t u ht (def_means hf u hu)]
    exact hu
  · intro ht
    exact ⟨t.name, defOf t, List.mem_map_of_mem (f := fun t => (t.name, defOf t)) ht, def_means hf t ht⟩

/-- C100: a schema that is sent arrives with the same types, whatever the schema at the receiver was before. Missing: as
    above. -/
theorem C100_transfer_partial (hf : Faithful sch) (hn : sch ≠ []) (old : List T)
    (order : List (Name × T) → List (Name × T)) (ho : ∀ l : List (Name × T), l.Perm (order l)) :
    ∃ r, transfer order old sch = .ok r ∧ r.Perm sch := by
  obtain ⟨r, h1, h2⟩ := C100_text_partial hf hn order ho
  refine ⟨r, ?_, h2⟩
  have : schemaText sch ≠ [] := by
    cases sch with
    | nil => exact absurd rfl hn
    | cons t l => simp [schemaText]
  rw [transfer, if_neg this, h1]

/-! ### An example: an alias, a named type within others, attributes -/

def exP : T := .basic .count ⟨str "p", [(str "k", some (str "v")), (str "s", none)]⟩
def exQ : T := .record (.cons (str "a") (.list exP ⟨[], [(str "s", none)]⟩) (.cons (str "b") (.enum [str "x", str "y"] {}) .nil))
  ⟨str "q", []⟩
def exR : T := .alias exQ ⟨str "r", []⟩

/-- decides what the specification asks of attributes -/
theorem plainAttrs_of {as : List (Name × Option Name)} (h : ((as.map (·.1)).Nodup) ∧ (as.all fun a =>
    (!a.1.isEmpty && a.1.all isIdent) && match a.2 with
      | none => true
      | some w => !w.isEmpty && w.all isValueChar && w.head? != some 34) = true) : PlainAttrs as := by
  refine ⟨h.1, fun k v hm => ?_⟩
  have := List.all_eq_true.mp h.2 (k, v) hm
  simp only [Bool.and_eq_true, Bool.not_eq_true', List.all_eq_true] at this
  refine ⟨⟨by intro e; simp [e] at this, fun b hb => isIdent_iff.mp (this.1.2 b hb)⟩, fun w hw => ?_⟩
  subst hw
  have h2 := this.2
  simp only [Bool.and_eq_true, Bool.not_eq_true', List.all_eq_true] at h2
  exact ⟨by intro e; simp [e] at h2, fun b hb => isValueChar_iff.mp (h2.1.2 b hb), by simpa using h2.2⟩

theorem exFaithful : Faithful [exR, exQ, exP] := by
  refine ⟨by decide +kernel, fun t ht => ?_, fun t ht => ?_⟩
  · simp only [List.mem_cons, List.not_mem_nil, or_false] at ht
    rcases ht with rfl | rfl | rfl <;> exact ⟨name_of (by decide +kernel), by intro b; cases b <;> decide +kernel⟩
  · simp only [List.mem_cons, List.not_mem_nil, or_false] at ht
    rcases ht with rfl | rfl | rfl
    · exact .inr ⟨_, _, rfl, by simp, rfl⟩
    · refine .inl (.record (by simp) (.cons (name_of (by decide +kernel)) (.unnamed rfl (.list (.named (by decide +kernel)
        (by simp)) (plainAttrs_of (by decide +kernel)))) (.cons (name_of (by decide +kernel)) (.unnamed rfl (.enum (by simp)
        (fun l hl => name_of ?_) (plainAttrs_of (by decide +kernel)))) .nil)) (plainAttrs_of (by decide +kernel)))
      have : ∀ l ∈ [str "x", str "y"], l ≠ [] ∧ ∀ b ∈ l, isIdent b = true := by decide +kernel
      exact this l hl
    · exact .inl (.basic (plainAttrs_of (by decide +kernel)))

example : ∃ r, transfer List.reverse [exP] [exR, exQ, exP] = .ok r ∧ r.Perm [exR, exQ, exP] :=
  C100_transfer_partial exFaithful (by simp) [exP] List.reverse fun l => (List.reverse_perm l).symm

/-! ### What does not arrive as it was -/

/-- C100, refuted: that the types arrive in the same order: it is the order of a hash table. -/
theorem C100_order_refuted : ∃ sch, Faithful sch ∧ transfer List.reverse [] sch = .ok sch.reverse ∧ sch.reverse ≠ sch := by
  refine ⟨[exP, .basic .bool ⟨str "z", []⟩], ⟨by decide +kernel, fun t ht => ?_, fun t ht => ?_⟩, by decide +kernel, by decide +kernel⟩
  · simp only [List.mem_cons, List.not_mem_nil, or_false] at ht
    rcases ht with rfl | rfl <;> exact ⟨name_of (by decide +kernel), by intro b; cases b <;> decide +kernel⟩
  · simp only [List.mem_cons, List.not_mem_nil, or_false] at ht
    rcases ht with rfl | rfl <;> exact .inl (.basic (plainAttrs_of (by decide +kernel)))

/-- C100, refuted: that an empty schema replaces the one at the receiver. -/
theorem C100_empty_refuted (order : List (Name × T) → List (Name × T)) (old : List T) : transfer order old [] = .ok old := rfl

/-- C100, refuted: that a record without fields, a field whose name is not an identifier, a label with a space, an attribute
    value with a space or a type within another one that is not part of the schema leave the rest of the schema alone: all
    types are lost. -/
theorem C100_lost_refuted : ∀ t ∈ [T.record .nil ⟨str "q", []⟩, .record (.cons (str "a b") (.basic .int {}) .nil) ⟨str "q", []⟩,
      .enum [str "a b"] ⟨str "q", []⟩, .basic .int ⟨str "q", [(str "k", some (str "v w"))]⟩,
      .list (.basic .int ⟨str "i", []⟩) ⟨str "q", []⟩, .none ⟨str "q", []⟩],
    transfer id [] [exP, t] = .ok [] := by
  intro t ht
  simp only [List.mem_cons, List.not_mem_nil, or_false] at ht
  rcases ht with rfl | rfl | rfl | rfl | rfl | rfl <;> decide +kernel

/-- C100, refuted: that an alias arrives as an alias: if its value has no name, it becomes the value. -/
theorem C100_alias_refuted : transfer id [] [.alias (.basic .real {}) ⟨str "q", []⟩] = .ok [.basic .real ⟨str "q", []⟩] := by
  decide +kernel

/-- C100, refuted: that attributes stay: those of an alias move to its value, and those of a named type within another are
    replaced by those of the type of that name in the schema. -/
theorem C100_attributes_refuted :
    transfer id [] [.basic .real ⟨str "p", []⟩, .alias (.basic .real ⟨str "p", []⟩) ⟨str "q", [(str "k", none)]⟩] =
      .ok [.basic .real ⟨str "p", []⟩, .alias (.basic .real ⟨str "p", [(str "k", none)]⟩) ⟨str "q", []⟩] ∧
    transfer id [] [.basic .real ⟨str "p", []⟩, .list (.basic .real ⟨str "p", [(str "k", none)]⟩) ⟨str "q", []⟩] =
      .ok [.basic .real ⟨str "p", []⟩, .list (.basic .real ⟨str "p", []⟩) ⟨str "q", []⟩] := by
  constructor <;> decide +kernel

end Verif.SchemaText
