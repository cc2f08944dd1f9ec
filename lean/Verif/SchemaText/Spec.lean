import Verif.SchemaText.Model

/-! # C98: what the definitions of a schema mean -/

namespace Verif.SchemaText

open Verif.Types (Name Meta)

namespace Spec

/-- The effect of one operator on a record `l` and its right operand. The operators on records are those of C63 and
    C64; other operators do not occur in texts. -/
inductive Applied : Name → Meta × Types.Fields T → Meta × Types.Fields T → Meta × Types.Fields T → Prop
  | plus {l r v : Meta × Types.Fields T} : Types.merge l.1 l.2 r.2 = some v → Applied [43] l r v
  | left {l r : Meta × Types.Fields T} : Applied [60, 43] l r (Types.priorityMerge false l.1 l.2 r.1 r.2)
  | right {l r : Meta × Types.Fields T} : Applied [43, 62] l r (Types.priorityMerge true l.1 l.2 r.1 r.2)
  | minus {l r : Meta × Types.Fields T} {fs : Types.Fields T} : r.2.toList ≠ [] →
    Types.removePath (r.2.toList.map (·.1)) l.2 = some fs → Applied [45] l r (l.1, fs)
  | other {op : Name} {l r : Meta × Types.Fields T} : op ∉ [[43], [60, 43], [43, 62], [45]] → Applied op l r l

/-- The effect of operators, from left to right; all operands are records. -/
inductive AppliedAll : Meta × Types.Fields T → Fs → Meta × Types.Fields T → Prop
  | nil {l : Meta × Types.Fields T} : AppliedAll l .nil l
  | cons {op : Name} {l v w : Meta × Types.Fields T} {fs rest : Fs} {m : Meta} :
    Applied op l (m, fs.toFields) v → AppliedAll v rest w → AppliedAll l (.cons op (.record fs m) rest) w

/-- The value of an expression: the operators are applied to the first operand; the result is not empty, its fields
    have names, and it gets the name of the expression. -/
inductive Value (n : Name) : Fs → T → Prop
  | intro {k : Name} {fs rest : Fs} {m : Meta} {w : Meta × Types.Fields T} : rest ≠ .nil →
    AppliedAll (m, fs.toFields) rest w → w.2.toList ≠ [] → (∀ f ∈ w.2.toList, f.1 ≠ []) →
    Value n (.cons k (.record fs m) rest) (.record (ofFields w.2) { w.1 with name := n })

mutual
/-- The meaning of a type in the definition of `self`: every reference is replaced by the meaning of its definition,
    with the attributes of the reference. A reference is to one of the symbols, or else to one of the global symbols;
    a reference to the symbol `self` itself is to the global symbol. -/
inductive Means (globals symbols : List (Name × T)) : Name → T → T → Prop
  | symbol {self n : Name} {as : List (Name × Option Name)} {d t : T} : n ≠ [] → n ≠ self → (n, d) ∈ symbols →
    Means globals symbols n d t → Means globals symbols self (.none ⟨n, as⟩) (t.update as)
  | global {self n : Name} {as : List (Name × Option Name)} {t : T} : n ≠ [] →
    (n = self ∨ ∀ d, (n, d) ∉ symbols) → (n, t) ∈ globals →
    Means globals symbols self (.none ⟨n, as⟩) (t.update as)
  | basic {self : Name} {b : Basic} {m : Meta} : Means globals symbols self (.basic b m) (.basic b m)
  | enum {self : Name} {l : List Name} {m : Meta} : Means globals symbols self (.enum l m) (.enum l m)
  | list {self : Name} {t t' : T} {m : Meta} : Means globals symbols self t t' →
    Means globals symbols self (.list t m) (.list t' m)
  | map {self : Name} {k v k' v' : T} {m : Meta} : Means globals symbols self k k' → Means globals symbols self v v' →
    Means globals symbols self (.map k v m) (.map k' v' m)
  | alias {self : Name} {t t' : T} {m : Meta} : Means globals symbols self t t' →
    Means globals symbols self (.alias t m) (.alias t' m)
  | record {self : Name} {fs fs' : Fs} {m : Meta} : (∀ v, (algebraKey, v) ∉ m.attrs) →
    MeansAll globals symbols self fs fs' → Means globals symbols self (.record fs m) (.record fs' m)
  | algebra {self : Name} {fs fs' : Fs} {m : Meta} {v : Option Name} {t : T} : (algebraKey, v) ∈ m.attrs →
    MeansAll globals symbols self fs fs' → Value m.name fs' t → Means globals symbols self (.record fs m) t

/-- The meaning of the fields of a record. -/
inductive MeansAll (globals symbols : List (Name × T)) : Name → Fs → Fs → Prop
  | nil {self : Name} : MeansAll globals symbols self .nil .nil
  | cons {self n : Name} {t t' : T} {rest rest' : Fs} : Means globals symbols self t t' →
    MeansAll globals symbols self rest rest' → MeansAll globals symbols self (.cons n t rest) (.cons n t' rest')
end

mutual
/-- The references in a type. -/
def refs : T → List Name
  | .none m => [m.name]
  | .basic _ _ => []
  | .enum _ _ => []
  | .list t _ => refs t
  | .map k v _ => refs k ++ refs v
  | .alias t _ => refs t
  | .record fs _ => refsAll fs

/-- The references in the fields of a record. -/
def refsAll : Fs → List Name
  | .nil => []
  | .cons _ t rest => refs t ++ refsAll rest
end

/-- The definition of `a` refers to another symbol `b`. -/
def Uses (symbols : List (Name × T)) (a b : Name) : Prop :=
  ∃ d, (a, d) ∈ symbols ∧ b ∈ refs d ∧ b ≠ a ∧ ∃ e, (b, e) ∈ symbols

/-- The definition of `a` refers to `b` directly or through the definitions of other symbols. -/
inductive Reaches (symbols : List (Name × T)) : Name → Name → Prop
  | single {a b : Name} : Uses symbols a b → Reaches symbols a b
  | step {a b c : Name} : Reaches symbols a b → Uses symbols b c → Reaches symbols a c

/-- Symbols as they result from reading texts: the names are distinct and not empty, a definition has the name of
    its symbol, and no definition is just a reference (it is an alias of one). -/
structure Parsed (symbols : List (Name × T)) : Prop where
  distinct : (symbols.map (·.1)).Nodup
  named : ∀ n d, (n, d) ∈ symbols → n ≠ [] ∧ d.name = n ∧ ∀ m, d ≠ .none m

end Spec

end Verif.SchemaText
