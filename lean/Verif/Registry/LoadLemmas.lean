import Verif.Registry.LoadModel
import Verif.Registry.LoadSpec
/-! Helper lemmas about loading concepts and models. -/
namespace Verif.Registry
open Verif.Taxonomy (Name find Concept Concepts Models)
open Verif.Data (Data str)

theorem strings_iff : ∀ (xs : List Data) (ys : List Name), strings xs = some ys ↔ xs = ys.map .string
  | [], ys => by cases ys <;> simp [strings]
  | x :: xs, ys => by
    cases x with
    | string s =>
      rw [strings]
      cases ys with
      | nil => cases strings xs <;> simp
      | cons y ys =>
        have ih := strings_iff xs ys
        cases hs : strings xs with
        | none =>
          rw [hs] at ih
          simp at ih ⊢
          exact fun _ => ih
        | some zs =>
          rw [hs] at ih
          simp at ih ⊢
          exact fun _ => ih
    | _ => cases ys <;> simp [strings]

theorem stringsAt_iff (r : List (Name × Data)) (key : String) (ys : List Name) :
    stringsAt r (str key) = some ys ↔ Spec.Strings r key ys := by
  rw [stringsAt, Spec.Strings]
  cases h : find r (str key) with
  | none => simp [eq_comm]
  | some d =>
    cases d with
    | list xs => simp [strings_iff]
    | _ => simp

theorem strings_unique {r : List (Name × Data)} {key : String} {a b : List Name} (ha : Spec.Strings r key a)
    (hb : Spec.Strings r key b) : a = b := by
  rw [← stringsAt_iff] at ha hb
  rw [ha] at hb
  exact Option.some.inj hb

theorem find_nil {α : Type} (n : Name) : find ([] : List (Name × α)) n = none := rfl

theorem find_cons {α : Type} (e : Name × α) (m : List (Name × α)) (n : Name) :
    find (e :: m) n = if e.1 = n then some e.2 else find m n := by
  rw [find, find, List.find?_cons]
  by_cases h : e.1 = n
  · simp [h]
  · simp [h]

theorem find_update {α : Type} (m : List (Name × α)) (n k : Name) (init : α) (f : α → α) :
    find (update m n init f) k = if k = n then some (f ((find m n).getD init)) else find m k := by
  induction m with
  | nil =>
    rw [update, find_cons, find_nil, find_nil]
    by_cases h : k = n
    · rw [if_pos h.symm, if_pos h]; rfl
    · rw [if_neg (fun e => h e.symm), if_neg h]
  | cons e m ih =>
    rw [update]
    by_cases he : e.1 = n
    · rw [if_pos he, find_cons, find_cons, find_cons]
      by_cases h : k = n
      · rw [if_pos h.symm, if_pos h, if_pos he]; rfl
      · rw [if_neg (fun e => h e.symm), if_neg h, if_neg (fun e' => h (e'.symm.trans he))]
    · rw [if_neg he, find_cons, find_cons, find_cons, ih, if_neg he]
      by_cases h : k = n
      · rw [if_pos h, if_neg (fun e' => he (e'.trans h)), if_pos h]
      · rw [if_neg h, if_neg h]

theorem find_append {α : Type} (m m' : List (Name × α)) (n : Name) : find (m ++ m') n = (find m n).or (find m' n) := by
  induction m with
  | nil => simp [find_nil]
  | cons e m ih =>
    rw [List.cons_append, find_cons, find_cons, ih]
    by_cases h : e.1 = n <;> simp [h]

theorem addFields_spec (fs : List Name) : ∀ (c : Concept),
    (addFields c fs).concepts = c.concepts ∧ (∀ f, f ∈ (addFields c fs).fields ↔ f ∈ c.fields ∨ f ∈ fs)
    ∧ (c.fields.Nodup → (addFields c fs).fields.Nodup) := by
  induction fs with
  | nil => intro c; simp [addFields]
  | cons x fs ih =>
    intro c
    have e : addFields c (x :: fs) = addFields (if x ∈ c.fields then c else { c with fields := c.fields ++ [x] }) fs := rfl
    rw [e]
    by_cases hx : x ∈ c.fields
    · rw [if_pos hx]
      obtain ⟨h1, h2, h3⟩ := ih c
      refine ⟨h1, fun f => ?_, h3⟩
      rw [h2]
      constructor
      · rintro (h | h)
        · exact .inl h
        · exact .inr (List.mem_cons_of_mem _ h)
      · rintro (h | h)
        · exact .inl h
        · rcases List.mem_cons.mp h with rfl | h
          · exact .inl hx
          · exact .inr h
    · rw [if_neg hx]
      obtain ⟨h1, h2, h3⟩ := ih { c with fields := c.fields ++ [x] }
      refine ⟨h1, fun f => ?_, fun hn => h3 ?_⟩
      · rw [h2]; simp [or_assoc]
      · rw [List.nodup_append]
        exact ⟨hn, by simp, fun a ha b hb => by simp at hb; subst hb; exact fun e => hx (e ▸ ha)⟩

theorem addConcepts_spec (cs : List Name) : ∀ (c : Concept),
    (addConcepts c cs).fields = c.fields
    ∧ ∀ x, x ∈ (addConcepts c cs).concepts ↔ x ∈ c.concepts ∨ (x ∈ cs ∧ x ∉ c.fields) := by
  induction cs with
  | nil => intro c; simp [addConcepts]
  | cons y cs ih =>
    intro c
    have e : addConcepts c (y :: cs) = addConcepts (if y ∈ c.fields then c else { c with concepts := c.concepts ++ [y] }) cs := rfl
    rw [e]
    by_cases hy : y ∈ c.fields
    · rw [if_pos hy]
      obtain ⟨h1, h2⟩ := ih c
      refine ⟨h1, fun x => ?_⟩
      rw [h2]
      constructor
      · rintro (h | ⟨h, h'⟩)
        · exact .inl h
        · exact .inr ⟨List.mem_cons_of_mem _ h, h'⟩
      · rintro (h | ⟨h, h'⟩)
        · exact .inl h
        · rcases List.mem_cons.mp h with rfl | h
          · exact absurd hy h'
          · exact .inr ⟨h, h'⟩
    · rw [if_neg hy]
      obtain ⟨h1, h2⟩ := ih { c with concepts := c.concepts ++ [y] }
      refine ⟨h1, fun x => ?_⟩
      rw [h2]
      rw [List.mem_append, List.mem_singleton, List.mem_cons]
      constructor
      · rintro ((h | rfl) | ⟨h, h'⟩)
        · exact .inl h
        · exact .inr ⟨.inl rfl, hy⟩
        · exact .inr ⟨.inr h, h'⟩
      · rintro (h | ⟨rfl | h, h'⟩)
        · exact .inl (.inl h)
        · exact .inl (.inr rfl)
        · exact .inr ⟨h, h'⟩

/-! ## One definition -/

theorem convertConcept_iff (d : Data) (out out' : Concepts) : convertConcept d out = some out' ↔
    ∃ n fs cs, Spec.IsConcept d n fs cs ∧ out' = update out n ⟨[], []⟩ fun c => addConcepts (addFields c fs) cs := by
  constructor
  · intro h
    rw [convertConcept.eq_def] at h
    split at h
    · rename_i ns vs
      split at h
      · rename_i name hn
        split at h
        · rename_i fs cs h1 h2
          cases h
          exact ⟨name, fs, cs, ⟨ns, vs, rfl, hn, (stringsAt_iff _ _ _).mp h1, (stringsAt_iff _ _ _).mp h2⟩, rfl⟩
        · cases h
      · cases h
    · cases h
  · rintro ⟨n, fs, cs, ⟨ns, vs, rfl, hn, h1, h2⟩, rfl⟩
    rw [convertConcept.eq_def]
    simp only [hn, (stringsAt_iff _ _ _).mpr h1, (stringsAt_iff _ _ _).mpr h2]

theorem convertModel_iff (d : Data) (out out' : Models) : convertModel d out = some out' ↔
    ∃ n xs, Spec.IsModel d n xs ∧ find out n = none ∧ out' = out ++ [(n, xs)] := by
  constructor
  · intro h
    rw [convertModel.eq_def] at h
    split at h
    · rename_i ns vs
      split at h
      · rename_i name hn
        split at h
        · cases h
        · rename_i hf
          split at h
          · rename_i xs h1
            cases h
            exact ⟨name, xs, ⟨ns, vs, rfl, hn, (stringsAt_iff _ _ _).mp h1⟩, hf, rfl⟩
          · cases h
      · cases h
    · cases h
  · rintro ⟨n, xs, ⟨ns, vs, rfl, hn, h1⟩, hf, rfl⟩
    rw [convertModel.eq_def]
    simp only [hn, hf, (stringsAt_iff _ _ _).mpr h1]

theorem isConcept_unique {d : Data} {n n' : Name} {fs fs' cs cs' : List Name} (h : Spec.IsConcept d n fs cs)
    (h' : Spec.IsConcept d n' fs' cs') : n = n' ∧ fs = fs' ∧ cs = cs' := by
  obtain ⟨ns, vs, rfl, h1, h2, h3⟩ := h
  obtain ⟨ns', vs', e, h1', h2', h3'⟩ := h'
  cases e
  rw [h1] at h1'
  cases h1'
  exact ⟨rfl, strings_unique h2 h2', strings_unique h3 h3'⟩

theorem isModel_unique {d : Data} {n n' : Name} {xs xs' : List Name} (h : Spec.IsModel d n xs)
    (h' : Spec.IsModel d n' xs') : n = n' ∧ xs = xs' := by
  obtain ⟨ns, vs, rfl, h1, h2⟩ := h
  obtain ⟨ns', vs', e, h1', h2'⟩ := h'
  cases e
  rw [h1] at h1'
  cases h1'
  exact ⟨rfl, strings_unique h2 h2'⟩

/-! ## All definitions -/

/-- A fold over definitions. -/
def foldDefs {α : Type} (convert : Data → α → Option α) : List Data → α → Option α
  | [], out => some out
  | d :: ds, out => match convert d out with
    | none => none
    | some out' => foldDefs convert ds out'

theorem foldDefs_append {α : Type} (convert : Data → α → Option α) (a b : List Data) : ∀ (out : α),
    foldDefs convert (a ++ b) out = (foldDefs convert a out).bind (foldDefs convert b) := by
  induction a with
  | nil => intro out; rfl
  | cons d a ih =>
    intro out
    rw [List.cons_append, foldDefs, foldDefs]
    cases convert d out with
    | none => rfl
    | some o => exact ih o

theorem extract_fold {α : Type} (key : String) (convert : Data → α → Option α) : ∀ (items : List Data) (out : α),
    extract (str key) convert items out = foldDefs convert (Spec.entries key (.list items)) out
  | [], out => rfl
  | item :: items, out => by
    have other : Spec.entry key item = none → extract (str key) convert (item :: items) out = extract (str key) convert items out →
        extract (str key) convert (item :: items) out = foldDefs convert (Spec.entries key (.list (item :: items))) out := by
      intro h1 h2
      rw [h2, extract_fold key convert items out, Spec.entries, Spec.entries, List.filterMap_cons, h1]
    cases item with
    | record ns vs =>
      cases hf : find (ns.zip vs) (str key) with
      | none => exact other hf (by rw [extract, hf])
      | some d =>
        rw [extract, hf, Spec.entries, List.filterMap_cons]
        have he : Spec.entry key (.record ns vs) = some d := hf
        simp only [he, foldDefs]
        cases convert d out with
        | none => rfl
        | some o => exact extract_fold key convert items o
    | _ => exact other rfl (by rw [extract]; simp)

theorem extractDoc_fold (d : Data) (out : Concepts × Models) : extractDoc d out =
    (foldDefs convertConcept (Spec.entries "concept" d) out.1).bind fun cs =>
      (foldDefs convertModel (Spec.entries "model" d) out.2).map fun ms => (cs, ms) := by
  cases d with
  | list items =>
    rw [extractDoc, extract_fold, extract_fold]
    cases foldDefs convertConcept (Spec.entries "concept" (.list items)) out.1 with
    | none => rfl
    | some cs => cases foldDefs convertModel (Spec.entries "model" (.list items)) out.2 <;> rfl
  | _ => rfl

theorem extractAll_fold : ∀ (docs : List Data) (out : Concepts × Models), extractAll docs out =
    (foldDefs convertConcept (Spec.concepts docs) out.1).bind fun cs =>
      (foldDefs convertModel (Spec.models docs) out.2).map fun ms => (cs, ms)
  | [], out => rfl
  | d :: docs, out => by
    rw [extractAll, extractDoc_fold, Spec.concepts, Spec.models, List.flatMap_cons, List.flatMap_cons, foldDefs_append,
      foldDefs_append]
    cases hc : foldDefs convertConcept (Spec.entries "concept" d) out.1 with
    | none => rfl
    | some cs =>
      cases hm : foldDefs convertModel (Spec.entries "model" d) out.2 with
      | none =>
        simp only [Option.bind_some, Option.map_none, Option.bind_none]
        cases foldDefs convertConcept (List.flatMap (Spec.entries "concept") docs) cs <;> rfl
      | some ms =>
        simp only [Option.bind_some, Option.map_some]
        rw [extractAll_fold docs (cs, ms)]
        rfl

/-- All documents of directories. -/
def allDocs : List Dir → Option (List Data)
  | [] => some []
  | .absent :: dirs => allDocs dirs
  | .broken :: _ => none
  | .docs ds :: dirs => (allDocs dirs).map (ds ++ ·)

theorem extractAll_append (a b : List Data) : ∀ (out : Concepts × Models),
    extractAll (a ++ b) out = (extractAll a out).bind (extractAll b) := by
  induction a with
  | nil => intro out; rfl
  | cons d a ih =>
    intro out
    rw [List.cons_append, extractAll, extractAll]
    cases extractDoc d out with
    | none => rfl
    | some o => exact ih o

theorem loadDirs_docs : ∀ (dirs : List Dir) (out : Concepts × Models), loadDirs dirs out = (allDocs dirs).bind fun ds => extractAll ds out
  | [], out => rfl
  | .absent :: dirs, out => by rw [loadDirs, allDocs]; exact loadDirs_docs dirs out
  | .broken :: dirs, out => rfl
  | .docs ds :: dirs, out => by
    rw [loadDirs, allDocs]
    cases he : extractAll ds out with
    | none =>
      cases allDocs dirs with
      | none => rfl
      | some l => simp [extractAll_append, he]
    | some o =>
      simp only
      rw [loadDirs_docs dirs o]
      cases allDocs dirs with
      | none => rfl
      | some l => simp [extractAll_append, he]

/-! ## What a fold gives -/

/-- Concepts are what their definitions say. -/
theorem concepts_fold : ∀ (defs : List Data) (out out' : Concepts), foldDefs convertConcept defs out = some out' →
    (∀ d ∈ defs, ∃ n fs cs, Spec.IsConcept d n fs cs)
    ∧ (∀ n, (∃ c, find out' n = some c) ↔ (∃ c, find out n = some c) ∨ ∃ d ∈ defs, ∃ fs cs, Spec.IsConcept d n fs cs)
    ∧ (∀ n f, (∃ c, find out' n = some c ∧ f ∈ c.fields) ↔
        (∃ c, find out n = some c ∧ f ∈ c.fields) ∨ ∃ d ∈ defs, ∃ fs cs, Spec.IsConcept d n fs cs ∧ f ∈ fs)
    ∧ (∀ n x, (∃ c, find out' n = some c ∧ x ∈ c.concepts) →
        (∃ c, find out n = some c ∧ x ∈ c.concepts) ∨ ∃ d ∈ defs, ∃ fs cs, Spec.IsConcept d n fs cs ∧ x ∈ cs)
    ∧ (∀ n x, ((∃ c, find out n = some c ∧ x ∈ c.concepts)
          ∨ (∃ d ∈ defs, ∃ fs cs, Spec.IsConcept d n fs cs ∧ x ∈ cs)
            ∧ ¬ ((∃ c, find out n = some c ∧ x ∈ c.fields) ∨ ∃ d ∈ defs, ∃ fs cs, Spec.IsConcept d n fs cs ∧ x ∈ fs))
        → ∃ c, find out' n = some c ∧ x ∈ c.concepts)
    ∧ ((∀ n c, find out n = some c → c.fields.Nodup) → ∀ n c, find out' n = some c → c.fields.Nodup)
  | [], out, out', h => by
    rw [foldDefs] at h
    cases h
    simp
  | d :: defs, out, out', h => by
    rw [foldDefs] at h
    cases hc : convertConcept d out with
    | none => rw [hc] at h; cases h
    | some out1 =>
      rw [hc] at h
      obtain ⟨n0, fs0, cs0, hd, rfl⟩ := (convertConcept_iff d out out1).mp hc
      obtain ⟨i1, i2, i3, i4, i5, i6⟩ := concepts_fold defs _ out' h
      have hdef : ∀ n (P : List Name → List Name → Prop), (∃ fs cs, Spec.IsConcept d n fs cs ∧ P fs cs) ↔ n = n0 ∧ P fs0 cs0 := by
        intro n P
        constructor
        · rintro ⟨fs, cs, h1, h2⟩
          obtain ⟨rfl, rfl, rfl⟩ := isConcept_unique h1 hd
          exact ⟨rfl, h2⟩
        · rintro ⟨rfl, hP⟩; exact ⟨fs0, cs0, hd, hP⟩
      have hmem : ∀ n (P : List Name → List Name → Prop), (∃ e ∈ d :: defs, ∃ fs cs, Spec.IsConcept e n fs cs ∧ P fs cs)
          ↔ (n = n0 ∧ P fs0 cs0) ∨ ∃ e ∈ defs, ∃ fs cs, Spec.IsConcept e n fs cs ∧ P fs cs := by
        intro n P
        rw [← hdef n P]
        constructor
        · rintro ⟨e, he, h⟩
          rcases List.mem_cons.mp he with rfl | he
          · exact .inl h
          · exact .inr ⟨e, he, h⟩
        · rintro (h | ⟨e, he, h⟩)
          · exact ⟨d, by simp, h⟩
          · exact ⟨e, List.mem_cons_of_mem _ he, h⟩
      have hex : ∀ n, (∃ e ∈ d :: defs, ∃ fs cs, Spec.IsConcept e n fs cs)
          ↔ n = n0 ∨ ∃ e ∈ defs, ∃ fs cs, Spec.IsConcept e n fs cs := by
        intro n
        have := hmem n (fun _ _ => True)
        simpa using this
      -- the state after the first definition
      have s1 : ∀ n, (∃ c, find (update out n0 ⟨[], []⟩ fun c => addConcepts (addFields c fs0) cs0) n = some c)
          ↔ n = n0 ∨ ∃ c, find out n = some c := by
        intro n; rw [find_update]; by_cases hn : n = n0 <;> simp [hn]
      have old : ∀ (P : Concept → Prop), P ((find out n0).getD ⟨[], []⟩) ↔ (∃ c, find out n0 = some c ∧ P c) ∨ (find out n0 = none ∧ P ⟨[], []⟩) := by
        intro P; cases find out n0 <;> simp
      have s2 : ∀ n f, (∃ c, find (update out n0 ⟨[], []⟩ fun c => addConcepts (addFields c fs0) cs0) n = some c ∧ f ∈ c.fields)
          ↔ (∃ c, find out n = some c ∧ f ∈ c.fields) ∨ (n = n0 ∧ f ∈ fs0) := by
        intro n f
        rw [find_update]
        by_cases hn : n = n0
        · subst hn
          simp only [if_true, Option.some.injEq, exists_eq_left', true_and]
          rw [(addConcepts_spec cs0 _).1, (addFields_spec fs0 _).2.1, old (fun c => f ∈ c.fields)]
          simp
        · simp [hn]
      have s3 : ∀ n x, (∃ c, find (update out n0 ⟨[], []⟩ fun c => addConcepts (addFields c fs0) cs0) n = some c ∧ x ∈ c.concepts)
          ↔ (∃ c, find out n = some c ∧ x ∈ c.concepts)
            ∨ (n = n0 ∧ x ∈ cs0 ∧ ¬ ((∃ c, find out n = some c ∧ x ∈ c.fields) ∨ x ∈ fs0)) := by
        intro n x
        rw [find_update]
        by_cases hn : n = n0
        · subst hn
          simp only [if_true, Option.some.injEq, exists_eq_left', true_and]
          rw [(addConcepts_spec cs0 _).2, (addFields_spec fs0 _).2.1, (addFields_spec fs0 _).1, old (fun c => x ∈ c.concepts),
            old (fun c => x ∈ c.fields)]
          simp
        · simp [hn]
      refine ⟨?_, ?_, ?_, ?_, ?_, ?_⟩
      · intro e he
        rcases List.mem_cons.mp he with rfl | he
        · exact ⟨n0, fs0, cs0, hd⟩
        · exact i1 e he
      · intro n
        rw [i2, s1, hex]
        constructor
        · rintro ((h | h) | h)
          · exact .inr (.inl h)
          · exact .inl h
          · exact .inr (.inr h)
        · rintro (h | h | h)
          · exact .inl (.inr h)
          · exact .inl (.inl h)
          · exact .inr h
      · intro n f
        rw [i3, s2, hmem n (fun fs _ => f ∈ fs), or_assoc]
      · intro n x h
        rw [hmem n (fun _ cs => x ∈ cs)]
        rcases i4 n x h with h | h
        · rcases (s3 n x).mp h with h | ⟨h1, h2, _⟩
          · exact .inl h
          · exact .inr (.inl ⟨h1, h2⟩)
        · exact .inr (.inr h)
      · intro n x h
        apply i5
        rw [s3, s2]
        rw [hmem n (fun _ cs => x ∈ cs), hmem n (fun fs _ => x ∈ fs)] at h
        rcases h with h | ⟨h1, h2⟩
        · exact .inl (.inl h)
        · have n1 : ¬ ∃ c, find out n = some c ∧ x ∈ c.fields := fun h => h2 (.inl h)
          have n2 : ¬ (n = n0 ∧ x ∈ fs0) := fun h => h2 (.inr (.inl h))
          have n3 : ¬ ∃ e ∈ defs, ∃ fs cs, Spec.IsConcept e n fs cs ∧ x ∈ fs := fun h => h2 (.inr (.inr h))
          rcases h1 with ⟨h1, h3⟩ | h1
          · exact .inl (.inr ⟨h1, h3, fun h => h.elim n1 fun h => n2 ⟨h1, h⟩⟩)
          · exact .inr ⟨h1, fun h => h.elim (fun h => h.elim n1 n2) n3⟩
      · intro hn
        apply i6
        intro n c h
        rw [find_update] at h
        by_cases hnn : n = n0
        · subst hnn
          simp only [if_true, Option.some.injEq] at h
          subst h
          rw [(addConcepts_spec cs0 _).1]
          apply (addFields_spec fs0 _).2.2
          cases ho : find out n with
          | none => simp
          | some c => exact hn n c ho
        · rw [if_neg hnn] at h; exact hn n c h

theorem concepts_fold_ok : ∀ (defs : List Data) (out : Concepts), (∀ d ∈ defs, ∃ n fs cs, Spec.IsConcept d n fs cs) →
    ∃ out', foldDefs convertConcept defs out = some out'
  | [], out, _ => ⟨out, rfl⟩
  | d :: defs, out, h => by
    obtain ⟨n, fs, cs, hd⟩ := h d (by simp)
    rw [foldDefs, (convertConcept_iff d out _).mpr ⟨n, fs, cs, hd, rfl⟩]
    exact concepts_fold_ok defs _ fun e he => h e (List.mem_cons_of_mem _ he)

/-- Definitions of models with different names. -/
def Distinct (defs : List Data) : Prop :=
  defs.Pairwise fun d e => ∀ n xs ys, Spec.IsModel d n xs → ¬ Spec.IsModel e n ys

theorem models_fold : ∀ (defs : List Data) (out out' : Models), foldDefs convertModel defs out = some out' →
    (∀ d ∈ defs, ∃ n xs, Spec.IsModel d n xs ∧ find out n = none) ∧ Distinct defs
    ∧ ∀ n xs, find out' n = some xs ↔ find out n = some xs ∨ ∃ d ∈ defs, Spec.IsModel d n xs
  | [], out, out', h => by
    rw [foldDefs] at h
    cases h
    exact ⟨by simp, by simp [Distinct], by simp⟩
  | d :: defs, out, out', h => by
    rw [foldDefs] at h
    cases hc : convertModel d out with
    | none => rw [hc] at h; cases h
    | some out1 =>
      rw [hc] at h
      obtain ⟨n0, xs0, hd, hf, rfl⟩ := (convertModel_iff d out out1).mp hc
      obtain ⟨i1, i2, i3⟩ := models_fold defs _ out' h
      have hfn : ∀ n, find (out ++ [(n0, xs0)]) n = none → find out n = none ∧ n ≠ n0 := by
        intro n h
        rw [find_append, find_cons, find_nil] at h
        simp only [Option.or_eq_none_iff] at h
        exact ⟨h.1, fun e => by simp [e] at h⟩
      refine ⟨?_, List.pairwise_cons.mpr ⟨?_, i2⟩, ?_⟩
      · intro e he
        rcases List.mem_cons.mp he with rfl | he
        · exact ⟨n0, xs0, hd, hf⟩
        · obtain ⟨n, xs, h1, h2⟩ := i1 e he
          exact ⟨n, xs, h1, (hfn n h2).1⟩
      · intro e he n xs ys h1 h2
        obtain ⟨rfl, rfl⟩ := isModel_unique h1 hd
        obtain ⟨n', xs', h3, h4⟩ := i1 e he
        obtain ⟨rfl, rfl⟩ := isModel_unique h2 h3
        exact (hfn n h4).2 rfl
      · intro n xs
        rw [i3, find_append, find_cons, find_nil]
        constructor
        · rintro (h | ⟨e, he, h⟩)
          · cases ho : find out n with
            | some ys => rw [ho] at h; simp at h; exact .inl (by rw [h])
            | none =>
              rw [ho] at h
              by_cases hn : n0 = n
              · subst hn
                simp at h
                subst h
                exact .inr ⟨d, by simp, hd⟩
              · simp [hn] at h
          · exact .inr ⟨e, List.mem_cons_of_mem _ he, h⟩
        · rintro (h | ⟨e, he, h⟩)
          · left; rw [h]; rfl
          · rcases List.mem_cons.mp he with rfl | he
            · obtain ⟨rfl, rfl⟩ := isModel_unique h hd
              left; rw [hf]; simp
            · exact .inr ⟨e, he, h⟩

theorem models_fold_ok : ∀ (defs : List Data) (out : Models), (∀ d ∈ defs, ∃ n xs, Spec.IsModel d n xs ∧ find out n = none) →
    Distinct defs → ∃ out', foldDefs convertModel defs out = some out'
  | [], out, _, _ => ⟨out, rfl⟩
  | d :: defs, out, h, hdist => by
    obtain ⟨n, xs, hd, hf⟩ := h d (by simp)
    rw [foldDefs, (convertModel_iff d out _).mpr ⟨n, xs, hd, hf, rfl⟩]
    obtain ⟨hd1, hd2⟩ := List.pairwise_cons.mp hdist
    refine models_fold_ok defs _ (fun e he => ?_) hd2
    obtain ⟨m, ys, h1, h2⟩ := h e (List.mem_cons_of_mem _ he)
    refine ⟨m, ys, h1, ?_⟩
    rw [find_append, h2, find_cons, find_nil]
    have : n ≠ m := fun e' => hd1 e he n xs ys hd (e' ▸ h1)
    simp [this]

end Verif.Registry
