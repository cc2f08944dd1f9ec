import Verif.SchemaText.TextProps

/-! # C100: schemas as texts

Models the printers of libvast/vast/concept/printable/vast/{type,attribute,schema}.hpp and the serialization of schemas
of libvast/src/schema.cpp. -/

namespace Verif.SchemaText

open Verif.Types (Name Meta updateAttrs setAttr)
open Verif.DataText (ch)

/-- printable/vast/attribute.hpp:25-33 -/
def attrText (a : Name × Option Name) : Str :=
  35 :: (a.1 ++ match a.2 with
    | some v => 61 :: v
    | none => [])

/-- printable/vast/type.hpp:20-24 `make_attr_printer` -/
def attrsText (as : List (Name × Option Name)) : Str := as.flatMap fun a => 32 :: attrText a

/-- printable/vast/type.hpp:65-75 -/
def basicText : Basic → Str
  | .bool => [98, 111, 111, 108]
  | .int => [105, 110, 116]
  | .count => [99, 111, 117, 110, 116]
  | .real => [114, 101, 97, 108]
  | .duration => [100, 117, 114, 97, 116, 105, 111, 110]
  | .time => [116, 105, 109, 101]
  | .string => [115, 116, 114, 105, 110, 103]
  | .pattern => [112, 97, 116, 116, 101, 114, 110]
  | .addr => [97, 100, 100, 114]
  | .subnet => [115, 117, 98, 110, 101, 116]

/-- core/list.hpp `p % ", "` -/
def commas : List Name → Str
  | [] => []
  | [n] => n
  | n :: ns => n ++ 44 :: 32 :: commas ns

mutual
/-- printable/vast/type.hpp:28-38, 65-75, 163-215 and `type_printer<type_only>`: a type without its name. Types within it
    are printed with `type_printer<name_only>` (128-143): the name if there is one. -/
def text : T → Str
  | .none m => [110, 111, 110, 101] ++ attrsText m.attrs
  | .basic b m => basicText b ++ attrsText m.attrs
  | .enum ls m => [101, 110, 117, 109, 32, 123] ++ commas ls ++ 125 :: attrsText m.attrs
  | .list t m => [108, 105, 115, 116, 60] ++ (if t.name.isEmpty then text t else t.name) ++ 62 :: attrsText m.attrs
  | .map k v m => [109, 97, 112, 60] ++ (if k.name.isEmpty then text k else k.name) ++ 44 :: 32 ::
    ((if v.name.isEmpty then text v else v.name) ++ 62 :: attrsText m.attrs)
  | .record fs m => [114, 101, 99, 111, 114, 100, 123] ++ textFields fs ++ 125 :: attrsText m.attrs
  | .alias t m => (if t.name.isEmpty then text t else t.name) ++ attrsText m.attrs

/-- printable/vast/type.hpp:184-192 `record_field_printer`, between `", "` -/
def textFields : Fs → Str
  | .nil => []
  | .cons n t .nil => n ++ 58 :: 32 :: (if t.name.isEmpty then text t else t.name)
  | .cons n t (.cons n' t' fs) =>
    n ++ 58 :: 32 :: ((if t.name.isEmpty then text t else t.name) ++ 44 :: 32 :: textFields (.cons n' t' fs))
end

/-- printable/vast/schema.hpp:24-34 `schema_printer` -/
def schemaText (sch : List T) : Str := sch.flatMap fun t => [116, 121, 112, 101, 32] ++ t.name ++ [32, 61, 32] ++ text t ++ [10]

/-- schema.cpp:174-187: a schema is serialized as its text (`serialize` with a serializer) and read into a schema
    `old` (`serialize` with a deserializer): nothing happens if the text is empty; otherwise the schema is cleared and the
    text is read; errors are ignored. -/
def transfer (order : List (Name × T) → List (Name × T)) (old sch : List T) : R (List T) :=
  if schemaText sch = [] then .ok old
  else match schemaP order (schemaText sch) with
    | .ok (.ok r) _ => .ok r
    | .ok .error _ | .fail => .ok []
    | .ok .stuck _ | .stuck => .stuck
    | .ok .abort _ | .overflow => .abort

namespace Spec

/-- Attributes that a text can have: keys are distinct names; values are not empty and need no quotes. -/
def PlainAttrs (as : List (Name × Option Name)) : Prop :=
  (as.map (·.1)).Nodup ∧ ∀ k v, (k, v) ∈ as → IsName k ∧
    ∀ w, v = some w → w ≠ [] ∧ (∀ b ∈ w, ValueChar b) ∧ w.head? ≠ some 34

mutual
/-- A type, apart from its name, that a text in the schema can describe. -/
inductive Writable (sch : List T) : T → Prop
  | basic {b : Basic} {m : Meta} : PlainAttrs m.attrs → Writable sch (.basic b m)
  | enum {ls : List Name} {m : Meta} : ls ≠ [] → (∀ l ∈ ls, IsName l) → PlainAttrs m.attrs → Writable sch (.enum ls m)
  | list {t : T} {m : Meta} : Inner sch t → PlainAttrs m.attrs → Writable sch (.list t m)
  | map {k v : T} {m : Meta} : Inner sch k → Inner sch v → PlainAttrs m.attrs → Writable sch (.map k v m)
  | record {fs : Fs} {m : Meta} : fs ≠ .nil → InnerAll sch fs → PlainAttrs m.attrs → Writable sch (.record fs m)

/-- A type within another one: one of the schema if it has a name. -/
inductive Inner (sch : List T) : T → Prop
  | named {t : T} : t.name ≠ [] → t ∈ sch → Inner sch t
  | unnamed {t : T} : t.name = [] → Writable sch t → Inner sch t

/-- The fields of a record: their names are names. -/
inductive InnerAll (sch : List T) : Fs → Prop
  | nil : InnerAll sch .nil
  | cons {n : Name} {t : T} {fs : Fs} : IsName n → Inner sch t → InnerAll sch fs → InnerAll sch (.cons n t fs)
end

/-- A schema that a text can describe: the names of the types are distinct names other than those of the basic types;
    types within others are types of the schema if they have names; aliases have no attributes, and their values
    have names. -/
structure Faithful (sch : List T) : Prop where
  distinct : (sch.map T.name).Nodup
  names : ∀ t ∈ sch, IsName t.name ∧ ∀ b, (t.name, b) ∉ basicNames
  types : ∀ t ∈ sch, Writable sch t ∨ ∃ v m, t = .alias v m ∧ v ∈ sch ∧ m.attrs = []

end Spec

open Spec

/-! ### The text describes a schema with references in place of names -/

mutual
/-- The type that the text describes. -/
def body : T → T
  | .none m => .none m
  | .basic b m => .basic b ⟨[], m.attrs⟩
  | .enum ls m => .enum ls ⟨[], m.attrs⟩
  | .list t m => .list (if t.name.isEmpty then body t else .none ⟨t.name, []⟩) ⟨[], m.attrs⟩
  | .map k v m => .map (if k.name.isEmpty then body k else .none ⟨k.name, []⟩)
    (if v.name.isEmpty then body v else .none ⟨v.name, []⟩) ⟨[], m.attrs⟩
  | .record fs m => .record (bodyFields fs) ⟨[], m.attrs⟩
  | .alias t _ => .none ⟨t.name, []⟩

@[inherit_doc body] def bodyFields : Fs → Fs
  | .nil => .nil
  | .cons n t fs => .cons n (if t.name.isEmpty then body t else .none ⟨t.name, []⟩) (bodyFields fs)
end

/-- The definition that the text describes. -/
def defOf (t : T) : T :=
  match t with
  | .alias v m => .alias (.none ⟨v.name, []⟩) ⟨m.name, []⟩
  | t => (body t).withMeta t.meta

theorem attrs_text : ∀ {as : List (Name × Option Name)}, (∀ k v, (k, v) ∈ as → IsName k ∧
    ∀ w, v = some w → w ≠ [] ∧ (∀ b ∈ w, ValueChar b) ∧ w.head? ≠ some 34) → AttrsText (attrsText as) as
  | [], _ => .nil
  | (k, v) :: as, h => by
    have ha : AttrText (attrText (k, v)) (k, v) := by
      have h1 := h k v (by simp)
      cases v with
      | none => simp only [attrText, List.append_nil]; exact .key h1.1
      | some w =>
        have := h1.2 w rfl
        exact .value h1.1 this.1 this.2.1 this.2.2
    have := AttrsText.cons blank_space (by simp) ha (attrs_text (as := as) fun k v hm => h k v (by simp [hm]))
    rw [show attrsText ((k, v) :: as) = [32] ++ attrText (k, v) ++ attrsText as by simp [attrsText]]
    exact this

theorem type_attrs {s : Str} {t : T} {as : List (Name × Option Name)} (h : CoreText s t) (hm : t.meta.attrs = [])
    (ha : PlainAttrs as) : TypeText (s ++ attrsText as) (t.withMeta { t.meta with attrs := as }) := by
  have := TypeText.intro h (attrs_text ha.2) ha.1
  rwa [hm, List.nil_append] at this

theorem labels_text : ∀ {ls : List Name} {g : Str}, ls ≠ [] → (∀ l ∈ ls, IsName l) → Gap g → LabelsText (g ++ commas ls) ls
  | [], _, h, _, _ => absurd rfl h
  | [n], g, _, h, hg => by
    have := LabelsText.one hg (h n (by simp)) .nil
    rwa [List.append_nil] at this
  | n :: n' :: ns, g, _, h, hg => by
    have h1 := labels_text (ls := n' :: ns) (g := [32]) (by simp) (fun l hl => h l (by simp [List.mem_cons.mp hl])) space_gap
    have := LabelsText.more hg (h n (by simp)) .nil h1
    rw [List.append_nil] at this
    rw [commas]
    · simpa using this
    · simp

variable {sch : List T}

theorem ref_text {n : Name} (hn : IsName n) (hb : ∀ b, (n, b) ∉ basicNames) : TypeText n (.none ⟨n, []⟩) :=
  type_plain (.ref hn hb) rfl

mutual
theorem writable_text (hf : Faithful sch) : (t : T) → Writable sch t → TypeText (text t) (body t)
  | .none _, h => by cases h
  | .alias _ _, h => by cases h
  | .basic b m, .basic ha => by
    have := type_attrs (.basic (n := basicText b) (b := b) (by cases b <;> decide +kernel)) rfl ha
    rw [text, body]
    exact this
  | .enum ls m, .enum h1 h2 ha => by
    have := type_attrs (.enum (g := [32]) (s := commas ls) space_gap (labels_text (g := []) h1 h2 .nil)) rfl ha
    rw [text, body]
    simpa [T.withMeta, T.meta] using this
  | .list t m, .list h ha => by
    have := type_attrs (.list (g := []) (g1 := []) (g2 := []) .nil .nil (inner_text hf t h) blank_nil) rfl ha
    rw [text, body]
    simpa [T.withMeta, T.meta] using this
  | .map k v m, .map h h' ha => by
    have := type_attrs (.map (g := []) (g1 := []) (g2 := []) (g3 := [32]) (g4 := []) .nil .nil (inner_text hf k h) blank_nil
      space_gap (inner_text hf v h') blank_nil) rfl ha
    rw [text, body]
    simpa [T.withMeta, T.meta] using this
  | .record fs m, .record h1 h2 ha => by
    have := type_attrs (.record (.intro (g := []) .nil (fields_text hf fs h2 h1 [] .nil))) rfl ha
    rw [text, body]
    simpa [T.withMeta, T.meta] using this

theorem inner_text (hf : Faithful sch) : (t : T) → Inner sch t →
    TypeText (if t.name.isEmpty then text t else t.name) (if t.name.isEmpty then body t else .none ⟨t.name, []⟩)
  | t, .named h1 h2 => by
    have h3 := hf.names t h2
    rw [if_neg (by simpa using h1), if_neg (by simpa using h1)]
    exact ref_text h3.1 h3.2
  | t, .unnamed h1 h2 => by
    rw [if_pos (by simpa using h1), if_pos (by simpa using h1)]
    exact writable_text hf t h2

theorem fields_text (hf : Faithful sch) : (fs : Fs) → InnerAll sch fs → fs ≠ .nil → (g : Str) → Gap g →
    FieldsText (g ++ textFields fs) (bodyFields fs)
  | .nil, _, h, _, _ => absurd rfl h
  | .cons n t .nil, .cons h1 h2 _, _, g, hg => by
    have := FieldText.intro (g2 := []) (g3 := [32]) (g4 := []) hg (.name h1) .nil space_gap (inner_text hf t h2) blank_nil
    rw [textFields, bodyFields, bodyFields]
    exact .one (by simpa using this)
  | .cons n t (.cons n' t' fs), .cons h1 h2 h3, _, g, hg => by
    have h4 := FieldText.intro (g2 := []) (g3 := [32]) (g4 := []) hg (.name h1) .nil space_gap (inner_text hf t h2) blank_nil
    have := FieldsText.more h4 (fields_text hf (.cons n' t' fs) h3 (by simp) [32] space_gap)
    rw [textFields, bodyFields]
    simpa using this
end

theorem def_text (hf : Faithful sch) {t : T} (ht : t ∈ sch) :
    DeclText ([116, 121, 112, 101, 32] ++ t.name ++ [32, 61, 32] ++ text t) t.name (defOf t) := by
  have hn := hf.names t ht
  have key : ∃ u, TypeText (text t) u ∧ Defined t.name u (defOf t) := by
    rcases hf.types t ht with h | ⟨v, m, rfl, hv, ha⟩
    · refine ⟨_, writable_text hf t h, ?_⟩
      right
      cases h <;> exact ⟨(fun m h => by simp [body] at h), rfl⟩
    · have h3 := hf.names v hv
      refine ⟨.none ⟨v.name, []⟩, ?_, .inl ⟨_, rfl, rfl⟩⟩
      rw [text, if_neg (by simpa using h3.1.1), ha]
      simpa [attrsText] using ref_text h3.1 h3.2
  obtain ⟨u, h1, h2⟩ := key
  have := DeclText.intro (g1 := [32]) (g2 := [32]) (g3 := [32]) space_gap hn.1 space_gap space_gap h1 h2
  simpa using this

theorem schema_text (hf : Faithful sch) : ∀ {l : List T}, (∀ t ∈ l, t ∈ sch) → l ≠ [] →
    DeclsText (schemaText l) (l.map fun t => (t.name, defOf t))
  | [], _, h => absurd rfl h
  | [t], h, _ => by
    have := DeclsText.one (g := [10]) (def_text hf (h t (by simp))) (.gap (.space (by decide +kernel) .nil))
      (fun b r e => by cases e; decide +kernel)
    rw [schemaText, List.flatMap_singleton]
    exact this
  | t :: t' :: l, h, _ => by
    have h1 := schema_text hf (l := t' :: l) (fun u hu => h u (by simp [List.mem_cons.mp hu])) (by simp)
    have := DeclsText.more (g := [10]) (def_text hf (h t (by simp)))
      ⟨.space (by decide +kernel) .nil, fun b r e => by cases e; decide +kernel⟩ (by simp) h1
    rw [schemaText, List.flatMap_cons]
    exact this

/-! ### and the references mean the types of the schema -/

/-- The definitions of the schema. -/
def defs (sch : List T) : List (Name × T) := sch.map fun t => (t.name, defOf t)

theorem update_nil (t : T) : t.update [] = t := by cases t <;> rfl

theorem withMeta_self (t : T) : t.withMeta t.meta = t := by cases t <;> rfl

theorem faithful_unique : ∀ {l : List T}, (l.map T.name).Nodup → ∀ {t u : T}, t ∈ l → u ∈ l → t.name = u.name → t = u
  | [], _, _, _, h, _, _ => by cases h
  | x :: l, hd, t, u, ht, hu, e => by
    simp only [List.map_cons, List.nodup_cons] at hd
    rcases List.mem_cons.mp ht with rfl | ht' <;> rcases List.mem_cons.mp hu with rfl | hu'
    · rfl
    · exact absurd (e ▸ List.mem_map_of_mem hu') hd.1
    · exact absurd (e ▸ List.mem_map_of_mem ht') hd.1
    · exact faithful_unique hd.2 ht' hu' e

/-- The attributes that a text can have do not mark an expression. -/
theorem plain_algebra {as : List (Name × Option Name)} (h : PlainAttrs as) (v : Option Name) : (algebraKey, v) ∉ as := by
  intro hm
  have := (h.2 _ v hm).1.2 36 (by decide)
  exact absurd this (by decide +kernel)

theorem body_meta {t : T} (h : Writable sch t) (hn : t.name = []) : (body t).withMeta t.meta = body t := by
  have e : t.meta = ⟨[], t.meta.attrs⟩ := by
    have : t.meta.name = [] := hn
    cases hm : t.meta with
    | mk n as => rw [hm] at this; simp at this; simp [this]
  rw [e]
  cases h <;> rfl

mutual
/-- A definition means its type. -/
theorem def_means (hf : Faithful sch) : (t : T) → t ∈ sch → Means [] (defs sch) t.name (defOf t) t
  | t, ht => by
    rcases hf.types t ht with h | ⟨v, m, rfl, hv, ha⟩
    · have e : defOf t = (body t).withMeta t.meta := by cases h <;> rfl
      rw [e]
      exact body_means hf t h t.name fun u hu he => by rw [faithful_unique hf.distinct hu ht he]; exact Nat.le_refl _
    · have hne : v.name ≠ (T.alias v m).name := by
        intro he
        have := faithful_unique hf.distinct hv ht he
        have := congrArg sizeOf this
        simp at this
        omega
      have h1 := Means.symbol (globals := []) (self := (T.alias v m).name) (as := []) (hf.names v hv).1.1 hne
        (List.mem_map_of_mem (f := fun t => (t.name, defOf t)) hv) (def_means hf v hv)
      rw [update_nil] at h1
      have e : m = ⟨m.name, []⟩ := by cases m; simp at ha; simp [ha]
      have h2 := Means.alias (m := m) h1
      rw [defOf, ← e]
      exact h2
termination_by t => (sizeOf t, 2)
decreasing_by
  all_goals simp_wf
  all_goals first
    | (apply Prod.Lex.right; omega)
    | (apply Prod.Lex.left; subst_vars; simp; omega)
    | skip

theorem body_means (hf : Faithful sch) : (t : T) → Writable sch t → (self : Name) →
    (∀ u ∈ sch, u.name = self → sizeOf t ≤ sizeOf u) → Means [] (defs sch) self ((body t).withMeta t.meta) t
  | .none _, h, _, _ => by cases h
  | .alias _ _, h, _, _ => by cases h
  | .basic b m, _, _, _ => .basic
  | .enum ls m, _, _, _ => .enum
  | .list t m, .list h _, self, hs => .list (inner_means hf t h self fun u hu he => by
      have := hs u hu he; simp at this; omega)
  | .map k v m, .map h h' _, self, hs => .map (inner_means hf k h self fun u hu he => by
      have := hs u hu he; simp at this; omega) (inner_means hf v h' self fun u hu he => by
      have := hs u hu he; simp at this; omega)
  | .record fs m, .record _ h2 ha, self, hs => .record (fun v => plain_algebra ha v) (fields_means hf fs h2 self fun u hu he => by
      have := hs u hu he; simp at this; omega)
termination_by t => (sizeOf t, 1)

theorem inner_means (hf : Faithful sch) : (t : T) → Inner sch t → (self : Name) →
    (∀ u ∈ sch, u.name = self → sizeOf t < sizeOf u) →
    Means [] (defs sch) self (if t.name.isEmpty then body t else .none ⟨t.name, []⟩) t
  | t, .named h1 h2, self, hs => by
    rw [if_neg (by simpa using h1)]
    have hne : t.name ≠ self := by
      intro he
      have := hs t h2 he
      omega
    have := Means.symbol (globals := []) (self := self) (as := []) h1 hne
      (List.mem_map_of_mem (f := fun t => (t.name, defOf t)) h2) (def_means hf t h2)
    rwa [update_nil] at this
  | t, .unnamed h1 h2, self, hs => by
    rw [if_pos (by simpa using h1), ← body_meta h2 h1]
    exact body_means hf t h2 self fun u hu he => Nat.le_of_lt (hs u hu he)
termination_by t => (sizeOf t, 3)

theorem fields_means (hf : Faithful sch) : (fs : Fs) → InnerAll sch fs → (self : Name) →
    (∀ u ∈ sch, u.name = self → sizeOf fs < sizeOf u) → MeansAll [] (defs sch) self (bodyFields fs) fs
  | .nil, _, _, _ => .nil
  | .cons n t fs, .cons _ h2 h3, self, hs => .cons (inner_means hf t h2 self fun u hu he => by
      have := hs u hu he; simp at this; omega) (fields_means hf fs h3 self fun u hu he => by
      have := hs u hu he; simp at this; omega)
termination_by fs => (sizeOf fs, 0)
end

end Verif.SchemaText
