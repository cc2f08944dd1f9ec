import Verif.SchemaText.TextSpec

/-! # C99: all texts of schemas that are accepted

The grammar of `TextSpec`, without the restrictions there: gaps may be empty or begin with a comment wherever they stand, an attribute
may have a key that another one has, and a value that begins with a quote may be without an end of the quote. -/

namespace Verif.SchemaText.Spec.Wide

open Verif.Types (Name Meta)
open Verif.SchemaText.Spec

/-- An attribute: `#key`, `#key=value` or `#key="value"`. -/
inductive AttrText : Str → Name × Option Name → Prop
  | key {k : Name} : IsName k → AttrText (35 :: k) (k, none)
  | value {k v : Name} : IsName k → v ≠ [] → (∀ b ∈ v, ValueChar b) → AttrText (35 :: (k ++ 61 :: v)) (k, some v)
  | quoted {k v : Name} {s : Str} : IsName k → QuotedText s v → AttrText (35 :: (k ++ 61 :: s)) (k, some v)

/-- Attributes. -/
inductive AttrsText : Str → List (Name × Option Name) → Prop
  | nil : AttrsText [] []
  | cons {g s r : Str} {a : Name × Option Name} {as : List (Name × Option Name)} : Gap g → AttrText s a →
    AttrsText r as → AttrsText (g ++ s ++ r) (a :: as)

/-- One attribute more: the value of the key is replaced, or the attribute is the last. -/
inductive Put (k : Name) (v : Option Name) : List (Name × Option Name) → List (Name × Option Name) → Prop
  | new {l : List (Name × Option Name)} : k ∉ l.map (·.1) → Put k v l (l ++ [(k, v)])
  | old {l r : List (Name × Option Name)} {w : Option Name} : k ∉ l.map (·.1) → Put k v (l ++ (k, w) :: r) (l ++ (k, v) :: r)

/-- The attributes one after the other. -/
inductive PutAll : List (Name × Option Name) → List (Name × Option Name) → List (Name × Option Name) → Prop
  | nil {l : List (Name × Option Name)} : PutAll [] l l
  | cons {k : Name} {v : Option Name} {as l m r : List (Name × Option Name)} : Put k v l m → PutAll as m r → PutAll ((k, v) :: as) l r

mutual
/-- A type with attributes. -/
inductive TypeText : Str → T → Prop
  | intro {s r : Str} {t : T} {as l : List (Name × Option Name)} : CoreText s t → AttrsText r as → PutAll as t.meta.attrs l →
    TypeText (s ++ r) (t.withMeta { t.meta with attrs := l })

/-- A type without its attributes. Names other than those of basic types are references. -/
inductive CoreText : Str → T → Prop
  | basic {n : Name} {b : Basic} : (n, b) ∈ basicNames → CoreText n (.basic b {})
  | ref {n : Name} : IsName n → (∀ b, (n, b) ∉ basicNames) → CoreText n (.none ⟨n, []⟩)
  | enum {g s : Str} {ls : List Name} : Gap g → LabelsText s ls →
    CoreText ([101, 110, 117, 109] ++ g ++ 123 :: (s ++ [125])) (.enum ls {})
  | list {g g1 s g2 : Str} {t : T} : Gap g → Gap g1 → TypeText s t → Gap g2 →
    CoreText ([108, 105, 115, 116] ++ g ++ 60 :: (g1 ++ s ++ g2 ++ [62])) (.list t {})
  | map {g g1 s g2 g3 s' g4 : Str} {k v : T} : Gap g → Gap g1 → TypeText s k → Gap g2 → Gap g3 → TypeText s' v →
    Gap g4 → CoreText ([109, 97, 112] ++ g ++ 60 :: (g1 ++ s ++ g2 ++ 44 :: (g3 ++ s' ++ g4 ++ [62]))) (.map k v {})
  | record {s : Str} {fs : Fs} : RecordText s fs → CoreText s (.record fs {})
  | expr {s r : Str} {t : T} {ops : Fs} : OperandText s t → OpsText r ops →
    CoreText (s ++ r) (.record (.cons [] t ops) ⟨[], [(algebraKey, none)]⟩)

/-- A record: `record{...}`. -/
inductive RecordText : Str → Fs → Prop
  | intro {g s : Str} {fs : Fs} : Gap g → FieldsText s fs →
    RecordText ([114, 101, 99, 111, 114, 100] ++ g ++ 123 :: (s ++ [125])) fs

/-- The fields of a record, between commas; a comma may follow the last. -/
inductive FieldsText : Str → Fs → Prop
  | one {s : Str} {n : Name} {t : T} : FieldText s n t → FieldsText s (.cons n t .nil)
  | last {s g : Str} {n : Name} {t : T} : FieldText s n t → Gap g → FieldsText (s ++ 44 :: g) (.cons n t .nil)
  | more {s r : Str} {n : Name} {t : T} {fs : Fs} : FieldText s n t → FieldsText r fs →
    FieldsText (s ++ 44 :: r) (.cons n t fs)

/-- A field: `name: type`. -/
inductive FieldText : Str → Name → T → Prop
  | intro {g1 s g2 g3 r g4 : Str} {n : Name} {t : T} : Gap g1 → FieldName s n → Gap g2 → Gap g3 → TypeText r t → Gap g4 →
    FieldText (g1 ++ s ++ g2 ++ 58 :: (g3 ++ r ++ g4)) n t

/-- An operand of an expression. -/
inductive OperandText : Str → T → Prop
  | ref {n : Name} : IsName n → OperandText n (.none ⟨n, []⟩)
  | record {s : Str} {fs : Fs} : RecordText s fs → OperandText s (.record fs {})

/-- Operators with their right operands. -/
inductive OpsText : Str → Fs → Prop
  | one {s : Str} {n : Name} {t : T} : OpText s n t → OpsText s (.cons n t .nil)
  | more {s r : Str} {n : Name} {t : T} {ops : Fs} : OpText s n t → OpsText r ops → OpsText (s ++ r) (.cons n t ops)

/-- An operator with its right operand: `+ type`, `<+ type`, `+> type` or `- path`. -/
inductive OpText : Str → Name → T → Prop
  | op {o : Name} {g g' s : Str} {t : T} : o ∈ [[43], [60, 43], [43, 62]] → Gap g → Gap g' → OperandText s t →
    OpText (g ++ o ++ g' ++ s) o t
  | minus {g g' s : Str} {ns : List Name} : Gap g → Gap g' → PathText s ns →
    OpText (g ++ 45 :: (g' ++ s)) [45] (.record (pathFields ns) {})
end

/-- A definition: `type name = type`. -/
inductive DeclText : Str → Name → T → Prop
  | intro {g1 n g2 g3 s : Str} {t d : T} : Gap g1 → IsName n → Gap g2 → Gap g3 → TypeText s t → Defined n t d →
    DeclText ([116, 121, 112, 101] ++ g1 ++ n ++ g2 ++ 61 :: (g3 ++ s)) n d

/-- Definitions. -/
inductive DeclsText : Str → List (Name × T) → Prop
  | one {s g : Str} {n : Name} {t : T} : DeclText s n t → LastGap g → DeclsText (s ++ g) [(n, t)]
  | more {s g r : Str} {n : Name} {t : T} {ds : List (Name × T)} : DeclText s n t → Gap g → DeclsText r ds →
    DeclsText (s ++ g ++ r) ((n, t) :: ds)

/-- A text with definitions. -/
inductive SymbolsText : Str → List (Name × T) → Prop
  | intro {g s : Str} {ds : List (Name × T)} : Gap g → DeclsText s ds → SymbolsText (g ++ s) ds

end Verif.SchemaText.Spec.Wide
