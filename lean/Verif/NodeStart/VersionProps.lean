import Verif.NodeStart.VersionModel
/-!
# C117: a node starts only on a directory of its version
-/
namespace Verif.NodeStart
open Verif.Data (Str str)

/-- The tables are as the static assertions (db_version.cpp:40-44) want them: there is at least one version, and one explanation for
each change of it.  The texts are different and have no newline. -/
structure Spec.Tables (t : Versions) : Prop where
  two : 2 ≤ t.descriptions.length
  size : t.descriptions.length - 2 = t.explanations.length
  distinct : t.descriptions.Nodup
  lines : ∀ d ∈ t.descriptions, d ≠ [] ∧ (10 : UInt8) ∉ d

theorem vast_tables : Spec.Tables vast := by
  constructor <;> decide

private theorem takeWhile_line (line rest : Str) (h : (10 : UInt8) ∉ line) :
    (line ++ 10 :: rest).takeWhile (· ≠ 10) = line := by
  induction line with
  | nil => simp
  | cons c line ih =>
    have hc : c ≠ 10 := fun e => h (by simp [e])
    simp only [List.cons_append, List.takeWhile_cons]
    rw [if_pos (by simp [hc]), ih fun h' => h (List.mem_cons_of_mem _ h')]

/-- Contents with a first line. -/
private theorem readVersion_line (t : Versions) (line rest : Str) (h : (10 : UInt8) ∉ line) (hne : line ≠ []) :
    readVersion t (line ++ 10 :: rest) = .version (if line ∈ t.descriptions then t.descriptions.idxOf line else 0) := by
  rw [readVersion, if_neg (by simp)]
  simp only [takeWhile_line line rest h]
  have hl : line.length ≠ 0 := by simp [hne]
  simp only [if_neg hl]
  rw [if_neg (by simp)]
  by_cases hm : line ∈ t.descriptions
  · have := List.idxOf_lt_length_of_mem hm
    rw [if_neg (by omega), if_pos hm]
  · rw [if_pos (List.idxOf_eq_length hm), if_neg hm]

/-- Contents that begin with a newline. -/
private theorem readVersion_newline (t : Versions) (ht : Spec.Tables t) (rest : Str) : readVersion t (10 :: rest) = .version 0 := by
  rw [readVersion, if_neg (by simp)]
  simp only [List.takeWhile_cons]
  simp only [ne_eq, not_true_eq_false, decide_false, Bool.false_eq_true, if_false, List.length_nil, if_true]
  rw [if_neg (by simp)]
  have : (10 :: rest) ∉ t.descriptions := fun h => (ht.lines _ h).2 (by simp)
  rw [if_pos (List.idxOf_eq_length this)]

private theorem split_line : ∀ (contents : Str), (10 : UInt8) ∈ contents → ∃ line rest, contents = line ++ 10 :: rest ∧ (10 : UInt8) ∉ line
  | [], h => by cases h
  | c :: cs, h => by
    by_cases hc : c = 10
    · exact ⟨[], cs, by simp [hc], by simp⟩
    · obtain ⟨l, r, e, hl⟩ := split_line cs ((List.mem_cons.mp h).resolve_left fun h' => hc h'.symm)
      exact ⟨c :: l, r, by simp [e], by simp [hl]; exact fun h' => hc h'.symm⟩

/-- **C117.** A node starts on a directory with a version file if and only if the first line of the file is the text of the latest
version.  What is missing: files without a newline, see `C117_newline_refuted`. -/
theorem C117_same_partial (t : Versions) (ht : Spec.Tables t) (contents : Str) (hn : (10 : UInt8) ∈ contents) (f : Fault) :
    (startNode t (some contents) f).2 = .started ↔ ∃ line rest, contents = line ++ 10 :: rest ∧ t.descriptions.getLast? = some line := by
  have two := ht.two
  have hlast : ∀ line, t.descriptions.getLast? = some line ↔ t.descriptions[t.latest]? = some line := by
    intro line; rw [List.getLast?_eq_getElem?]; rfl
  have hidx : ∀ line, line ∈ t.descriptions → (t.descriptions.idxOf line = t.latest ↔ t.descriptions[t.latest]? = some line) := by
    intro line hm
    have hlt := List.idxOf_lt_length_of_mem hm
    constructor
    · intro e; rw [← e, List.getElem?_eq_getElem hlt]; simp
    · intro e
      obtain ⟨h1, h2⟩ := List.getElem?_eq_some_iff.mp e
      rw [← h2]
      exact ht.distinct.idxOf_getElem _ h1
  obtain ⟨line, rest, rfl, hline⟩ := split_line contents hn
  have uniq : ∀ line' rest', line ++ 10 :: rest = line' ++ 10 :: rest' → (10 : UInt8) ∉ line' → line' = line := by
    intro line' rest' e h
    have := takeWhile_line line rest hline
    rw [e, takeWhile_line line' rest' h] at this
    exact this
  simp only [startNode, checkVersion]
  by_cases hempty : line = []
  · subst hempty
    rw [List.nil_append, readVersion_newline t ht rest]
    simp only
    rw [if_neg (by rw [Versions.latest]; omega)]
    constructor
    · intro h; cases h
    · rintro ⟨line', rest', e, h⟩
      have hm := List.mem_of_getLast? h
      have := uniq line' rest' e (ht.lines _ hm).2
      exact absurd this (ht.lines _ hm).1
  · rw [readVersion_line t line rest hline hempty]
    simp only
    constructor
    · intro h
      refine ⟨line, rest, rfl, ?_⟩
      by_cases hm : line ∈ t.descriptions
      · rw [if_pos hm] at h
        split at h
        · rename_i e
          rw [hlast]; exact (hidx line hm).mp e
        · cases h
      · rw [if_neg hm, if_neg (by rw [Versions.latest]; omega)] at h
        cases h
    · rintro ⟨line', rest', e, h⟩
      have hm := List.mem_of_getLast? h
      have := uniq line' rest' e (ht.lines _ hm).2
      subst this
      rw [if_pos hm, if_pos ((hidx _ hm).mpr ((hlast _).mp h))]

/-- **C117.** A start never changes a version file that is there. -/
theorem C117_kept (t : Versions) (contents : Str) (fs : List Fault) : (starts t (some contents) fs).1 = some contents := by
  induction fs with
  | nil => rfl
  | cons f fs ih => rw [starts]; exact ih

/-- **C117.** On a directory without a version file a node starts, and so do all later ones, if nothing goes wrong while the file is
written.  What is missing: see `C117_crash_refuted`. -/
theorem C117_new_partial (t : Versions) (ht : Spec.Tables t) (fs : List Fault) :
    ∀ r ∈ (starts t none (.none :: fs)).2, r = .started := by
  have two := ht.two
  have hlt : t.latest < t.descriptions.length := by rw [Versions.latest]; omega
  have hline : t.descriptions.getD t.latest [] = t.descriptions[t.latest] := by simp [List.getD, hlt]
  have hm := List.getElem_mem hlt
  have key : ∀ f, startNode t (some (t.descriptions.getD t.latest [] ++ [10])) f =
      (some (t.descriptions.getD t.latest [] ++ [10]), .started) := by
    intro f
    refine Prod.ext rfl ((C117_same_partial t ht _ (by simp) f).mpr ⟨t.descriptions.getD t.latest [], [], rfl, ?_⟩)
    rw [List.getLast?_eq_getElem?, hline]
    exact List.getElem?_eq_getElem hlt
  have hall : ∀ fs, ∀ r ∈ (starts t (some (t.descriptions.getD t.latest [] ++ [10])) fs).2, r = .started := by
    intro fs
    induction fs with
    | nil => intro r hr; cases hr
    | cons f fs ih =>
      intro r hr
      rw [starts, key f] at hr
      rcases List.mem_cons.mp hr with rfl | hr
      · rfl
      · exact ih r hr
  intro r hr
  rw [starts] at hr
  rcases List.mem_cons.mp hr with rfl | hr
  · exact congrArg Prod.snd (key .none)
  · exact hall fs r hr

/-- **C117.** If the directory has an older version, all that has changed since then is said, from the oldest change to the latest. -/
theorem C117_reasons (t : Versions) (ht : Spec.Tables t) (v : Nat) (hv : 1 ≤ v) (hlt : v < t.latest) (rest : Str) (f : Fault) :
    (startNode t (some (t.descriptions.getD v [] ++ 10 :: rest)) f).2 =
      .refused (some ((t.explanations.drop (v - 1)).flatMap (· ++ [10]))) := by
  have hlen : v < t.descriptions.length := by rw [Versions.latest] at hlt; omega
  have hline : t.descriptions.getD v [] = t.descriptions[v] := by simp [List.getD, hlen]
  have hm := List.getElem_mem hlen
  simp only [startNode, checkVersion]
  rw [hline, readVersion_line t _ rest (ht.lines _ hm).2 (ht.lines _ hm).1, if_pos hm, ht.distinct.idxOf_getElem _ hlen]
  simp only
  rw [if_neg (by omega), describe, if_neg (by omega), List.take_of_length_le]
  rw [List.length_drop, ← ht.size, Versions.latest]
  omega

/-! ## Examples -/

example : starts vast none [.none, .none] = (some (str "v1\n"), [.started, .started]) := by decide +kernel

example : (startNode vast (some (str "v0\nmore")) .none).2 = .refused (some (str "The dedicated `port` type was removed.\n")) := by
  decide +kernel

example : (startNode vast (some (str "v1\nmore")) .none).2 = .started := by decide +kernel

/-- **C117, what is missing.** A file with the right version but without a newline leads to a view beyond its contents
(db_version.cpp:69). -/
theorem C117_newline_refuted : (startNode vast (some (str "v1")) .none).2 = .ub := by decide +kernel

/-- **C117, what is missing.** If the node dies between creating and writing the version file, or writing fails, no later start
succeeds, although there is nothing in the directory: the file is there, and it is not the latest version. -/
theorem C117_crash_refuted (fs : List Fault) :
    (∀ r ∈ (starts vast none (.crash 0 :: fs)).2, r ≠ .started) ∧ ∀ r ∈ (starts vast none (.error 0 :: fs)).2, r ≠ .started := by
  have hall : ∀ fs, ∀ r ∈ (starts vast (some []) fs).2, r ≠ .started := by
    intro fs
    induction fs with
    | nil => intro r hr; cases hr
    | cons f fs ih =>
      intro r hr
      rw [starts] at hr
      rcases List.mem_cons.mp hr with rfl | hr
      · intro h
        have : (startNode vast (some []) f).2 = .refused (some (str "invalid version")) := by
          show checkVersion vast [] = _
          decide +kernel
        rw [this] at h; cases h
      · exact ih r hr
  refine ⟨fun r hr => ?_, fun r hr => ?_⟩ <;> rw [starts] at hr <;> rcases List.mem_cons.mp hr with rfl | hr
  · intro h; cases h
  · exact hall fs r hr
  · intro h; cases h
  · exact hall fs r hr

end Verif.NodeStart
