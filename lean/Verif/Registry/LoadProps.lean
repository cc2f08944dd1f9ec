import Verif.Registry.LoadLemmas
/-!
# C114: concepts and models are what the schema files define
-/
namespace Verif.Registry
open Verif.Taxonomy (Name find Concept Concepts Models)
open Verif.Data (Data str)

/-- What is in the schema directories: all documents of those that exist, or `none` if one cannot be read. -/
def Spec.documents : List Dir → Option (List Data)
  | [] => some []
  | .absent :: dirs => Spec.documents dirs
  | .broken :: _ => none
  | .docs ds :: dirs => (Spec.documents dirs).map (ds ++ ·)

private theorem documents_eq : ∀ (dirs : List Dir), allDocs dirs = Spec.documents dirs
  | [] => rfl
  | .absent :: dirs => by rw [allDocs, Spec.documents]; exact documents_eq dirs
  | .broken :: dirs => rfl
  | .docs ds :: dirs => by rw [allDocs, Spec.documents, documents_eq dirs]

/-- Every definition of a concept or a model is well formed, and no two models have the same name. -/
def Spec.Good (docs : List Data) : Prop :=
  (∀ d ∈ Spec.concepts docs, ∃ n fs cs, Spec.IsConcept d n fs cs) ∧ (∀ d ∈ Spec.models docs, ∃ n xs, Spec.IsModel d n xs)
  ∧ (Spec.models docs).Pairwise fun d e => ∀ n xs ys, Spec.IsModel d n xs → ¬ Spec.IsModel e n ys

private theorem load_ok (dirs : List Dir) (old : Concepts × Models) (h : (load dirs old).2 = true) :
    ∃ docs, Spec.documents dirs = some docs ∧ foldDefs convertConcept (Spec.concepts docs) [] = some (load dirs old).1.1
      ∧ foldDefs convertModel (Spec.models docs) [] = some (load dirs old).1.2 := by
  unfold load at h ⊢
  rw [loadDirs_docs, documents_eq] at h ⊢
  cases hd : Spec.documents dirs with
  | none => rw [hd] at h; cases h
  | some docs =>
    rw [hd] at h
    simp only [Option.bind_some] at h ⊢
    rw [extractAll_fold] at h ⊢
    refine ⟨docs, rfl, ?_⟩
    cases hc : foldDefs convertConcept (Spec.concepts docs) [] with
    | none => rw [hc] at h; cases h
    | some cs =>
      cases hm : foldDefs convertModel (Spec.models docs) [] with
      | none => rw [hc, hm] at h; cases h
      | some ms => exact ⟨rfl, rfl⟩

/-- **C114.** Loading succeeds if and only if all files can be read and all definitions are good. -/
theorem C114_accepts (dirs : List Dir) (old : Concepts × Models) :
    (load dirs old).2 = true ↔ ∃ docs, Spec.documents dirs = some docs ∧ Spec.Good docs := by
  constructor
  · intro h
    obtain ⟨docs, h1, h2, h3⟩ := load_ok dirs old h
    have hc := concepts_fold _ _ _ h2
    have hm := models_fold _ _ _ h3
    exact ⟨docs, h1, hc.1, fun d hd => by obtain ⟨n, xs, h, _⟩ := hm.1 d hd; exact ⟨n, xs, h⟩, hm.2.1⟩
  · rintro ⟨docs, h1, h2, h3, h4⟩
    obtain ⟨cs, hc⟩ := concepts_fold_ok _ [] h2
    obtain ⟨ms, hm⟩ := models_fold_ok _ [] (fun d hd => by obtain ⟨n, xs, h⟩ := h3 d hd; exact ⟨n, xs, h, rfl⟩) h4
    unfold load
    rw [loadDirs_docs, documents_eq, h1]
    simp only [Option.bind_some]
    rw [extractAll_fold, hc, hm]
    rfl

/-- **C114.** If it does not succeed, the concepts and models stay as they were. -/
theorem C114_atomic (dirs : List Dir) (old : Concepts × Models) (h : (load dirs old).2 = false) : (load dirs old).1 = old := by
  unfold load at h ⊢
  cases hl : loadDirs dirs ([], []) with
  | none => rfl
  | some x => rw [hl] at h; cases h

/-- **C114.** Afterwards there are the concepts that are defined and no others; what was there before does not matter.  The fields of
a concept are those of all its definitions, each of them once. -/
theorem C114_fields (dirs : List Dir) (old : Concepts × Models) (docs : List Data) (hd : Spec.documents dirs = some docs)
    (h : (load dirs old).2 = true) :
    (∀ n, (∃ c, find (load dirs old).1.1 n = some c) ↔ ∃ d ∈ Spec.concepts docs, ∃ fs cs, Spec.IsConcept d n fs cs)
    ∧ ∀ n c, find (load dirs old).1.1 n = some c →
      c.fields.Nodup ∧ ∀ f, f ∈ c.fields ↔ ∃ d ∈ Spec.concepts docs, ∃ fs cs, Spec.IsConcept d n fs cs ∧ f ∈ fs := by
  obtain ⟨docs', h1, h2, _⟩ := load_ok dirs old h
  rw [hd] at h1
  cases h1
  obtain ⟨_, g2, g3, _, _, g6⟩ := concepts_fold _ _ _ h2
  refine ⟨fun n => ?_, fun n c hc => ⟨g6 (by intro n c h; simp [find_nil] at h) n c hc, fun f => ?_⟩⟩
  · rw [g2]; simp [find_nil]
  · have := g3 n f
    rw [hc] at this
    simpa [find_nil] using this

/-- **C114.** A concept contains another concept only if one of its definitions says so. -/
theorem C114_concepts_sound (dirs : List Dir) (old : Concepts × Models) (docs : List Data) (hd : Spec.documents dirs = some docs)
    (h : (load dirs old).2 = true) (n : Name) (c : Concept) (hc : find (load dirs old).1.1 n = some c) (x : Name)
    (hx : x ∈ c.concepts) : ∃ d ∈ Spec.concepts docs, ∃ fs cs, Spec.IsConcept d n fs cs ∧ x ∈ cs := by
  obtain ⟨docs', h1, h2, _⟩ := load_ok dirs old h
  rw [hd] at h1
  cases h1
  obtain ⟨_, _, _, g4, _⟩ := concepts_fold _ _ _ h2
  rcases g4 n x ⟨c, hc, hx⟩ with ⟨c, h, _⟩ | h
  · simp [find_nil] at h
  · exact h

/-- **C114.** A concept contains all concepts that its definitions name, unless the same name is also one of its fields.  What is
missing is the exception, see `C114_concepts_refuted`. -/
theorem C114_concepts_partial (dirs : List Dir) (old : Concepts × Models) (docs : List Data) (hd : Spec.documents dirs = some docs)
    (h : (load dirs old).2 = true) (n x : Name) (d : Data) (hmem : d ∈ Spec.concepts docs) (fs cs : List Name)
    (hdef : Spec.IsConcept d n fs cs) (hx : x ∈ cs)
    (hfield : ∀ d ∈ Spec.concepts docs, ∀ fs cs, Spec.IsConcept d n fs cs → x ∉ fs) :
    ∃ c, find (load dirs old).1.1 n = some c ∧ x ∈ c.concepts := by
  obtain ⟨docs', h1, h2, _⟩ := load_ok dirs old h
  rw [hd] at h1
  cases h1
  obtain ⟨_, _, _, _, g5, _⟩ := concepts_fold _ _ _ h2
  refine g5 n x (.inr ⟨⟨d, hmem, fs, cs, hdef, hx⟩, ?_⟩)
  rintro (⟨c, h, _⟩ | ⟨d, h1, fs, cs, h2, h3⟩)
  · simp [find_nil] at h
  · exact hfield d h1 fs cs h2 h3

/-- **C114.** Afterwards the models are those that are defined, with their definitions. -/
theorem C114_models (dirs : List Dir) (old : Concepts × Models) (docs : List Data) (hd : Spec.documents dirs = some docs)
    (h : (load dirs old).2 = true) (n : Name) (xs : List Name) :
    find (load dirs old).1.2 n = some xs ↔ ∃ d ∈ Spec.models docs, Spec.IsModel d n xs := by
  obtain ⟨docs', h1, _, h3⟩ := load_ok dirs old h
  rw [hd] at h1
  cases h1
  rw [(models_fold _ _ _ h3).2.2]
  simp [find_nil]

/-! ## Examples -/

/-- An item of a schema file that defines a concept. -/
def conceptItem (name : String) (fields concepts : List String) : Data :=
  .record [str "concept"] [.record [str "name", str "fields", str "concepts"]
    [.string (str name), .list (fields.map fun f => .string (str f)), .list (concepts.map fun f => .string (str f))]]

/-- An item of a schema file that defines a model. -/
def modelItem (name : String) (xs : List String) : Data :=
  .record [str "model"] [.record [str "name", str "definition"] [.string (str name), .list (xs.map fun f => .string (str f))]]

/-- Two files in one directory, and one in another; one more directory does not exist.  The concept `port` has two definitions. -/
def exDirs : List Dir :=
  [.docs [.list [conceptItem "port" ["zeek.conn.id.resp_p"] [], modelItem "conn" ["port", "addr"]],
     .list [conceptItem "addr" ["zeek.conn.id.orig_h"] ["net.addr"]]],
   .absent, .docs [.list [.record [str "type"] [.none], conceptItem "port" ["suricata.flow.dest_port", "zeek.conn.id.resp_p"] []]]]

example : load exDirs ([(str "old", ⟨[], []⟩)], []) =
    (([(str "port", ⟨[str "zeek.conn.id.resp_p", str "suricata.flow.dest_port"], []⟩),
       (str "addr", ⟨[str "zeek.conn.id.orig_h"], [str "net.addr"]⟩)],
      [(str "conn", [str "port", str "addr"])]), true) := by decide +kernel

/-- An error: two definitions of one model. -/
example : load [.docs [.list [modelItem "m" ["a"], modelItem "m" ["a"]]]] ([(str "old", ⟨[], []⟩)], []) =
    (([(str "old", ⟨[], []⟩)], []), false) := by decide +kernel

/-- `conceptItem` is what it claims to be. -/
theorem conceptItem_is (name : String) (fields concepts : List String) :
    ∃ d, Spec.entry "concept" (conceptItem name fields concepts) = some d
      ∧ Spec.IsConcept d (str name) (fields.map str) (concepts.map str) := by
  refine ⟨.record [str "name", str "fields", str "concepts"]
    [.string (str name), .list (fields.map fun f => .string (str f)), .list (concepts.map fun f => .string (str f))],
    by rw [conceptItem, Spec.entry]; simp [find], _, _, rfl, ?_, ?_, ?_⟩
  · simp [find]
  · right
    have h1 : (str "name" = str "fields") = False := by simp; decide
    simp [find, h1, Function.comp_def]
  · right
    have h1 : (str "name" = str "concepts") = False := by simp; decide
    have h2 : (str "fields" = str "concepts") = False := by simp; decide
    simp [find, h1, h2, Function.comp_def]

/-- **C114, what is missing.** The concepts are compared with the fields instead of the concepts (taxonomies.cpp:71), so a concept
with the name of a field is not there, and one that is named twice is there twice. -/
theorem C114_concepts_refuted :
    let dirs := [Dir.docs [.list [conceptItem "source" ["net.src"] ["net.src", "host", "host"],
      conceptItem "net.src" ["zeek.conn.id.orig_h"] []]]]
    (load dirs ([], [])).2 = true
    ∧ find (load dirs ([], [])).1.1 (str "source") = some ⟨[str "net.src"], [str "host", str "host"]⟩ := by
  decide +kernel

/-- **C114, what is missing.** Whether it is there depends on the order of the files. -/
theorem C114_order_refuted :
    let a := Data.list [conceptItem "source" ["net.src"] []]
    let b := Data.list [conceptItem "source" [] ["net.src"]]
    find (load [.docs [a, b]] ([], [])).1.1 (str "source") = some ⟨[str "net.src"], []⟩
    ∧ find (load [.docs [b, a]] ([], [])).1.1 (str "source") = some ⟨[str "net.src"], [str "net.src"]⟩ := by
  decide +kernel

end Verif.Registry
