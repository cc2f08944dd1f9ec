import Verif.SchemaText.Text

/-! # C99: the texts of schemas and what they say -/

namespace Verif.SchemaText

open Verif.Types (Name Meta)

namespace Spec

/-- White space. -/
def Space (b : UInt8) : Prop := b.toNat = 32 ∨ (9 ≤ b.toNat ∧ b.toNat ≤ 13)

/-- A letter, a digit or an underscore. -/
def WordChar (b : UInt8) : Prop :=
  (48 ≤ b.toNat ∧ b.toNat ≤ 57) ∨ (65 ≤ b.toNat ∧ b.toNat ≤ 90) ∨ (97 ≤ b.toNat ∧ b.toNat ≤ 122) ∨ b.toNat = 95

/-- A character of names: a letter, a digit, an underscore or a dot. -/
def NameChar (b : UInt8) : Prop := WordChar b ∨ b.toNat = 46

/-- A control character. -/
def Control (b : UInt8) : Prop := b.toNat < 32 ∨ b.toNat = 127

/-- A name. -/
def IsName (n : Name) : Prop := n ≠ [] ∧ ∀ b ∈ n, NameChar b

/-- White space and comments, which go from `//` to the end of the line. -/
inductive Gap : Str → Prop
  | nil : Gap []
  | space {b : UInt8} {s : Str} : Space b → Gap s → Gap (b :: s)
  | comment {c s : Str} : 10 ∉ c → Gap s → Gap (47 :: 47 :: (c ++ 10 :: s))

/-- The same, with white space at the beginning if it is not empty. -/
def Blank (s : Str) : Prop := Gap s ∧ ∀ b r, s = b :: r → Space b

/-- What may follow the last definition: a gap, or one with a comment without end of line. -/
inductive LastGap : Str → Prop
  | gap {s : Str} : Gap s → LastGap s
  | comment {s c : Str} : Gap s → 10 ∉ c → LastGap (s ++ 47 :: 47 :: c)

/-- What is within quotes, and what it stands for: `\"` for a quote; everything else is literal, also `\\`. -/
inductive InQuotes : Str → Name → Prop
  | nil : InQuotes [] []
  | plain {b : UInt8} {s : Str} {v : Name} : ¬ Control b → b ≠ 34 → b ≠ 92 → InQuotes s v → InQuotes (b :: s) (b :: v)
  | quote {s : Str} {v : Name} : InQuotes s v → InQuotes (92 :: 34 :: s) (34 :: v)
  | backslashes {s : Str} {v : Name} : InQuotes s v → InQuotes (92 :: 92 :: s) (92 :: 92 :: v)
  | backslash {b : UInt8} {s : Str} {v : Name} : ¬ Control b → b ≠ 34 → b ≠ 92 → InQuotes s v →
    InQuotes (92 :: b :: s) (92 :: b :: v)

/-- A quoted string. -/
inductive QuotedText : Str → Name → Prop
  | intro {s : Str} {v : Name} : InQuotes s v → QuotedText (34 :: (s ++ [34])) v

/-- A character of an attribute value without quotes. -/
def ValueChar (b : UInt8) : Prop := ¬ Control b ∧ ¬ Space b ∧ b ≠ 44 ∧ b ≠ 62 ∧ b ≠ 125

/-- An attribute: `#key`, `#key=value` or `#key="value"`. -/
inductive AttrText : Str → Name × Option Name → Prop
  | key {k : Name} : IsName k → AttrText (35 :: k) (k, none)
  | value {k v : Name} : IsName k → v ≠ [] → (∀ b ∈ v, ValueChar b) → v.head? ≠ some 34 →
    AttrText (35 :: (k ++ 61 :: v)) (k, some v)
  | quoted {k v : Name} {s : Str} : IsName k → QuotedText s v → AttrText (35 :: (k ++ 61 :: s)) (k, some v)

/-- Attributes, each after white space. -/
inductive AttrsText : Str → List (Name × Option Name) → Prop
  | nil : AttrsText [] []
  | cons {g s r : Str} {a : Name × Option Name} {as : List (Name × Option Name)} : Blank g → g ≠ [] → AttrText s a →
    AttrsText r as → AttrsText (g ++ s ++ r) (a :: as)

/-- The names of the basic types. -/
def basicNames : List (Name × Basic) :=
  [([98, 111, 111, 108], .bool), ([105, 110, 116], .int), ([99, 111, 117, 110, 116], .count),
    ([114, 101, 97, 108], .real), ([100, 117, 114, 97, 116, 105, 111, 110], .duration), ([116, 105, 109, 101], .time),
    ([115, 116, 114, 105, 110, 103], .string), ([112, 97, 116, 116, 101, 114, 110], .pattern),
    ([97, 100, 100, 114], .addr), ([115, 117, 98, 110, 101, 116], .subnet)]

/-- The labels of an enumeration, between commas; a comma may follow the last. -/
inductive LabelsText : Str → List Name → Prop
  | one {g g' : Str} {n : Name} : Gap g → IsName n → Gap g' → LabelsText (g ++ n ++ g') [n]
  | last {g g' g'' : Str} {n : Name} : Gap g → IsName n → Gap g' → Gap g'' → LabelsText (g ++ n ++ g' ++ 44 :: g'') [n]
  | more {g g' s : Str} {n : Name} {ns : List Name} : Gap g → IsName n → Gap g' → LabelsText s ns →
    LabelsText (g ++ n ++ g' ++ 44 :: s) (n :: ns)

/-- The name of a field: a name or a quoted string. -/
inductive FieldName : Str → Name → Prop
  | name {n : Name} : IsName n → FieldName n n
  | quoted {s : Str} {n : Name} : QuotedText s n → FieldName s n

/-- A component of a path: a word or a quoted string. -/
inductive PathWord : Str → Name → Prop
  | word {n : Name} : n ≠ [] → (∀ b ∈ n, WordChar b) → PathWord n n
  | quoted {s : Str} {n : Name} : QuotedText s n → PathWord s n

/-- The path of a field: words with dots in between. -/
inductive PathText : Str → List Name → Prop
  | one {s : Str} {n : Name} : PathWord s n → PathText s [n]
  | more {s r : Str} {n : Name} {ns : List Name} : PathWord s n → PathText r ns → PathText (s ++ 46 :: r) (n :: ns)

/-- A path as a record of booleans. -/
def pathFields : List Name → Fs
  | [] => .nil
  | n :: ns => .cons n (.basic .bool {}) (pathFields ns)

mutual
/-- A type with attributes. -/
inductive TypeText : Str → T → Prop
  | intro {s r : Str} {t : T} {as : List (Name × Option Name)} : CoreText s t → AttrsText r as → (as.map (·.1)).Nodup →
    TypeText (s ++ r) (t.withMeta { t.meta with attrs := t.meta.attrs ++ as })

/-- A type without its attributes. Names other than those of basic types are references. -/
inductive CoreText : Str → T → Prop
  | basic {n : Name} {b : Basic} : (n, b) ∈ basicNames → CoreText n (.basic b {})
  | ref {n : Name} : IsName n → (∀ b, (n, b) ∉ basicNames) → CoreText n (.none ⟨n, []⟩)
  | enum {g s : Str} {ls : List Name} : Gap g → LabelsText s ls →
    CoreText ([101, 110, 117, 109] ++ g ++ 123 :: (s ++ [125])) (.enum ls {})
  | list {g g1 s g2 : Str} {t : T} : Gap g → Gap g1 → TypeText s t → Blank g2 →
    CoreText ([108, 105, 115, 116] ++ g ++ 60 :: (g1 ++ s ++ g2 ++ [62])) (.list t {})
  | map {g g1 s g2 g3 s' g4 : Str} {k v : T} : Gap g → Gap g1 → TypeText s k → Blank g2 → Gap g3 → TypeText s' v →
    Blank g4 → CoreText ([109, 97, 112] ++ g ++ 60 :: (g1 ++ s ++ g2 ++ 44 :: (g3 ++ s' ++ g4 ++ [62]))) (.map k v {})
  | record {s : Str} {fs : Fs} : RecordText s fs → CoreText s (.record fs {})
  | expr {s r : Str} {t : T} {ops : Fs} : OperandText s t → OpsText r ops →
    CoreText (s ++ r) (.record (.cons [] t ops) ⟨[], [(algebraKey, none)]⟩)

/-- A record: `record{...}`. -/
inductive RecordText : Str → Fs → Prop
  | intro {g s : Str} {fs : Fs} : Gap g → FieldsText s fs →
    RecordText ([114, 101, 99, 111, 114, 100] ++ g ++ 123 :: (s ++ [125])) fs

/-- The fields of a record, between commas; a comma may follow the last. -/
inductive FieldsText : Str → Fs → Prop
  | one {s : Str} {n : Name} {t : T} : FieldText s n t → FieldsText s (.cons n t .nil)
  | last {s g : Str} {n : Name} {t : T} : FieldText s n t → Gap g → FieldsText (s ++ 44 :: g) (.cons n t .nil)
  | more {s r : Str} {n : Name} {t : T} {fs : Fs} : FieldText s n t → FieldsText r fs →
    FieldsText (s ++ 44 :: r) (.cons n t fs)

/-- A field: `name: type`. -/
inductive FieldText : Str → Name → T → Prop
  | intro {g1 s g2 g3 r g4 : Str} {n : Name} {t : T} : Gap g1 → FieldName s n → Gap g2 → Gap g3 → TypeText r t → Blank g4 →
    FieldText (g1 ++ s ++ g2 ++ 58 :: (g3 ++ r ++ g4)) n t

/-- An operand of an expression. -/
inductive OperandText : Str → T → Prop
  | ref {n : Name} : IsName n → OperandText n (.none ⟨n, []⟩)
  | record {s : Str} {fs : Fs} : RecordText s fs → OperandText s (.record fs {})

/-- Operators with their right operands. -/
inductive OpsText : Str → Fs → Prop
  | one {s : Str} {n : Name} {t : T} : OpText s n t → OpsText s (.cons n t .nil)
  | more {s r : Str} {n : Name} {t : T} {ops : Fs} : OpText s n t → OpsText r ops → OpsText (s ++ r) (.cons n t ops)

/-- An operator with its right operand: `+ type`, `<+ type`, `+> type` or `- path`. -/
inductive OpText : Str → Name → T → Prop
  | op {o : Name} {g g' s : Str} {t : T} : o ∈ [[43], [60, 43], [43, 62]] → Gap g → Gap g' → OperandText s t →
    OpText (g ++ o ++ g' ++ s) o t
  | minus {g g' s : Str} {ns : List Name} : Gap g → Gap g' → PathText s ns →
    OpText (g ++ 45 :: (g' ++ s)) [45] (.record (pathFields ns) {})
end

/-- What a definition defines: a reference is an alias, everything else gets the name. -/
def Defined (n : Name) (t d : T) : Prop :=
  (∃ m, t = .none m ∧ d = .alias t ⟨n, []⟩) ∨ ((∀ m, t ≠ .none m) ∧ d = t.withMeta { t.meta with name := n })

/-- A definition: `type name = type`. -/
inductive DeclText : Str → Name → T → Prop
  | intro {g1 n g2 g3 s : Str} {t d : T} : Gap g1 → IsName n → Gap g2 → Gap g3 → TypeText s t → Defined n t d →
    DeclText ([116, 121, 112, 101] ++ g1 ++ n ++ g2 ++ 61 :: (g3 ++ s)) n d

/-- Definitions, with white space in between. -/
inductive DeclsText : Str → List (Name × T) → Prop
  | one {s g : Str} {n : Name} {t : T} : DeclText s n t → LastGap g → (∀ b r, g = b :: r → Space b) → DeclsText (s ++ g) [(n, t)]
  | more {s g r : Str} {n : Name} {t : T} {ds : List (Name × T)} : DeclText s n t → Blank g → g ≠ [] → DeclsText r ds →
    DeclsText (s ++ g ++ r) ((n, t) :: ds)

/-- A text with definitions. -/
inductive SymbolsText : Str → List (Name × T) → Prop
  | intro {g s : Str} {ds : List (Name × T)} : Gap g → DeclsText s ds → SymbolsText (g ++ s) ds

end Spec

end Verif.SchemaText
