import Verif.Taxonomy.Model
/-!
# Loading of concepts and models

Models `convert` and `extract_…` of libvast/src/taxonomies.cpp:27-176 and the handler for `atom::load` of
libvast/src/system/type_registry.cpp:198-244.  Descriptions are left out: they have no effect but a warning.
-/
namespace Verif.Registry
open Verif.Taxonomy (Name find Concept Concepts Models)
open Verif.Data (Data str)

/-- The strings of a list (taxonomies.cpp:46-50, 65-69, 146-150); `none` if there is something else. -/
def strings : List Data → Option (List Name)
  | [] => some []
  | .string s :: xs => (strings xs).map (s :: ·)
  | _ :: _ => none

/-- The list of strings for a key of a record; empty if there is no such key (taxonomies.cpp:39-45, 58-64, 139-145). -/
def stringsAt (r : List (Name × Data)) (key : Name) : Option (List Name) :=
  match find r key with
  | none => some []
  | some (.list xs) => strings xs
  | some _ => none

/-- The loop over fields (taxonomies.cpp:46-56). -/
def addFields (c : Concept) (fs : List Name) : Concept :=
  fs.foldl (fun c f => if f ∈ c.fields then c else { c with fields := c.fields ++ [f] }) c

/-- The loop over concepts (taxonomies.cpp:65-75).  It looks for duplicates among the fields. -/
def addConcepts (c : Concept) (cs : List Name) : Concept :=
  cs.foldl (fun c x => if x ∈ c.fields then c else { c with concepts := c.concepts ++ [x] }) c

/-- `out[name]` of a `stable_map`, and a change of what it refers to. -/
def update {α : Type} (m : List (Name × α)) (n : Name) (init : α) (f : α → α) : List (Name × α) :=
  match m with
  | [] => [(n, f init)]
  | e :: m => if e.1 = n then (n, f e.2) :: m else e :: update m n init f

/-- `convert` to a concept (taxonomies.cpp:27-88); `none` is an error.  After an error the map may have changed in the code, but
then the caller drops it. -/
def convertConcept (d : Data) (out : Concepts) : Option Concepts :=
  match d with
  | .record ns vs =>
    match find (ns.zip vs) (str "name") with
    | some (.string name) =>
      match stringsAt (ns.zip vs) (str "fields"), stringsAt (ns.zip vs) (str "concepts") with
      | some fs, some cs => some (update out name ⟨[], []⟩ fun c => addConcepts (addFields c fs) cs)
      | _, _ => none
    | _ => none
  | _ => none

/-- `convert` to a model (taxonomies.cpp:118-163). -/
def convertModel (d : Data) (out : Models) : Option Models :=
  match d with
  | .record ns vs =>
    match find (ns.zip vs) (str "name") with
    | some (.string name) =>
      match find out name with
      | some _ => none
      | none => match stringsAt (ns.zip vs) (str "definition") with
        | some xs => some (out ++ [(name, xs)])
        | none => none
    | _ => none
  | _ => none

/-- The loops of `extract_concepts` and `extract_models` (taxonomies.cpp:91-102, 166-177). -/
def extract {α : Type} (key : Name) (convert : Data → α → Option α) : List Data → α → Option α
  | [], out => some out
  | .record ns vs :: items, out =>
    match find (ns.zip vs) key with
    | none => extract key convert items out
    | some d => match convert d out with
      | none => none
      | some out' => extract key convert items out'
  | _ :: items, out => extract key convert items out

/-- One file (type_registry.cpp:216-238). -/
def extractDoc (d : Data) (out : Concepts × Models) : Option (Concepts × Models) :=
  match d with
  | .list items =>
    match extract (str "concept") convertConcept items out.1 with
    | none => none
    | some cs => match extract (str "model") convertModel items out.2 with
      | none => none
      | some ms => some (cs, ms)
  | _ => some out

/-- All files one after the other. -/
def extractAll : List Data → Concepts × Models → Option (Concepts × Models)
  | [], out => some out
  | d :: ds, out => match extractDoc d out with
    | none => none
    | some out' => extractAll ds out'

/-- A schema directory: it does not exist, its files cannot be read, or it has these documents. -/
inductive Dir where
  | absent
  | broken
  | docs (ds : List Data)

/-- The loop over directories (type_registry.cpp:204-240). -/
def loadDirs : List Dir → Concepts × Models → Option (Concepts × Models)
  | [], out => some out
  | .absent :: dirs, out => loadDirs dirs out
  | .broken :: _, _ => none
  | .docs ds :: dirs, out => match extractAll ds out with
    | none => none
    | some out' => loadDirs dirs out'

/-- The handler for `atom::load` (type_registry.cpp:198-244): the new taxonomies, and whether there is no error. -/
def load (dirs : List Dir) (old : Concepts × Models) : (Concepts × Models) × Bool :=
  match loadDirs dirs ([], []) with
  | none => (old, false)
  | some new => (new, true)

end Verif.Registry
