import Verif.Select.Spec
import Verif.Zeek.Reading
/-!
# The layouts of JSON objects that tell their type

For Suricata and Zeek, an object is read with the layout that its type names (C168), and an unknown type is reported once (C169).
-/
namespace Verif.Select
open Verif.Data Spec

variable {R : Type}

/-! ## The table -/

/-- The name of the key in a name, if there is one. -/
def keyOf (p : Params) (n : Str) : Option Str :=
  match Zeek.splitAll n (str ".") with
  | [a, b] => if a = p.pre then some b else none
  | _ => none

theorem dot_infix (x : Str) : ¬ str "." <:+: x ↔ (46 : UInt8) ∉ x := by
  have e : str "." = [46] := by decide
  rw [e]
  constructor
  · intro h hm
    obtain ⟨a, b, rfl⟩ := List.append_of_mem hm
    exact h ⟨a, b, by simp⟩
  · rintro h ⟨a, b, rfl⟩
    exact h (by simp)

theorem splitAll_pair {p : Params} (hp1 : p.pre ≠ []) (hp2 : (46 : UInt8) ∉ p.pre) (x : Str) (hx1 : x ≠ []) (hx2 : (46 : UInt8) ∉ x) :
    keyOf p (p.pre ++ [46] ++ x) = some x := by
  have h := Zeek.splitAll_joined (sep := str ".") (by decide) (xs := [p.pre, x]) (by simp) (by
    intro y hy
    simp only [List.mem_cons, List.not_mem_nil, or_false] at hy
    rcases hy with rfl | rfl
    · exact ⟨hp1, fun b hb => by
        have : b = 46 := by simpa [str] using hb.symm
        rw [this]; exact hp2⟩
    · exact ⟨hx1, fun b hb => by
        have : b = 46 := by simpa [str] using hb.symm
        rw [this]; exact hx2⟩) (by simp)
  have e : Zeek.Spec.joined (str ".") [p.pre, x] = p.pre ++ [46] ++ x := by
    simp only [Zeek.Spec.joined]
    rfl
  rw [e] at h
  unfold keyOf
  rw [h]
  simp

theorem keyOf_back {p : Params} {n x : Str} (hl : n.length < 2 ^ 64) (h : keyOf p n = some x) :
    (46 : UInt8) ∉ x ∧ (n = p.pre ++ [46] ++ x ∨ n = p.pre ++ [46] ++ x ++ [46]) := by
  unfold keyOf at h
  split at h
  · rename_i a b hs
    split at h
    · rename_i ha
      cases h
      subst ha
      have hj := Escape.C60_split_join n (str ".") [] (2 ^ 64 - 1)
      have hc := Escape.C60_split_parts n (str ".") (2 ^ 64 - 1) (by decide) (by omega)
      unfold Zeek.splitAll at hs
      rw [hs] at hj hc
      refine ⟨(dot_infix _).1 (hc _ (by simp)), ?_⟩
      have e : str "." = [46] := by decide
      simp only [Escape.join, e] at hj
      rcases hj with h | h
      · exact .inl h.symm
      · exact .inr h.symm
    · cases h
  · cases h

theorem addType_eq (p : Params) (ts : List (Str × R)) (t : Named R) : addType p ts t =
    match keyOf p t.1, t.2 with
    | some k, some r => put k r ts
    | _, _ => ts := by
  unfold addType keyOf
  split
  · rename_i a b h
    cases t.2 with
    | none => rw [h]; by_cases e : a = p.pre <;> simp [e]
    | some r => rw [h]; by_cases e : a = p.pre <;> simp [e]
  · rename_i h
    split
    · rename_i k r h1 h2
      split at h1
      · rename_i a b h'
        exact absurd h' (h a b)
      · cases h1
    · rfl

theorem find_put (k k' : Str) (r : R) (ts : List (Str × R)) : find k' (put k r ts) = if k' = k then some r else find k' ts := by
  unfold find put
  by_cases h : k' = k
  · subst h; simp
  · have h' : ¬ k = k' := fun e => h e.symm
    simp only [List.find?_cons, decide_eq_true_eq, h', if_false, h, decide_false]
    congr 1
    induction ts with
    | nil => rfl
    | cons e ts ih =>
      by_cases he : e.1 = k
      · simp only [List.filter_cons, he, ne_eq, not_true, decide_false, Bool.false_eq_true, if_false, List.find?_cons]
        rw [ih]
        simp [h']
      · simp only [List.filter_cons, ne_eq, he, not_false_eq_true, decide_true, if_true, List.find?_cons, ih]

theorem find_addType (p : Params) (k : Str) (ts : List (Str × R)) (t : Named R) :
    (∀ r, keyOf p t.1 = some k → t.2 = some r → find k (addType p ts t) = some r) ∧
    (¬ (keyOf p t.1 = some k ∧ t.2.isSome) → find k (addType p ts t) = find k ts) := by
  rw [addType_eq]
  constructor
  · intro r h1 h2
    rw [h1, h2]
    simp [find_put]
  · intro h
    split
    · rename_i k' r h1 h2
      rw [find_put, if_neg]
      rintro rfl
      exact h ⟨h1, by simp [h2]⟩
    · rfl

/-- The types of a schema whose names do not end in a dot. -/
def Clean (sch : List (Named R)) : Prop := ∀ t ∈ sch, t.1.length < 2 ^ 64 ∧ ∀ x, t.1 ≠ x ++ [46]

theorem key_iff {p : Params} (hp1 : p.pre ≠ []) (hp2 : (46 : UInt8) ∉ p.pre) {n : Str} (hl : n.length < 2 ^ 64) (hn : ∀ x, n ≠ x ++ [46]) (k : Str) :
    keyOf p n = some k ↔ n = p.pre ++ [46] ++ k ∧ (46 : UInt8) ∉ k := by
  constructor
  · intro h
    obtain ⟨h1, h2⟩ := keyOf_back hl h
    rcases h2 with h2 | h2
    · exact ⟨h2, h1⟩
    · exact absurd h2 (hn _)
  · rintro ⟨rfl, h⟩
    apply splitAll_pair hp1 hp2 k _ h
    rintro rfl
    exact hn p.pre (by simp)

/-- What a table finds after a schema was set. -/
theorem find_schema {p : Params} (hp1 : p.pre ≠ []) (hp2 : (46 : UInt8) ∉ p.pre) (k : Str) (hk : (46 : UInt8) ∉ k) :
    ∀ (sch : List (Named R)) (_ : Clean sch) (ts : List (Str × R)),
      (∀ r, Defines sch (p.pre ++ [46] ++ k) r → find k (sch.foldl (addType p) ts) = some r) ∧
      ((∀ t ∈ sch, ∀ r', t ≠ (p.pre ++ [46] ++ k, some r')) → find k (sch.foldl (addType p) ts) = find k ts) := by
  intro sch
  induction sch with
  | nil =>
    intro _ ts
    refine ⟨?_, fun _ => rfl⟩
    rintro r ⟨before, after, h, _⟩
    simp at h
  | cons t sch ih =>
    intro hc ts
    obtain ⟨i1, i2⟩ := ih (fun t ht => hc t (by simp [ht])) (addType p ts t)
    have ht := hc t (by simp)
    have hkey := key_iff hp1 hp2 ht.1 ht.2 k
    obtain ⟨f1, f2⟩ := find_addType p k ts t
    refine ⟨?_, ?_⟩
    · rintro r ⟨before, after, h, ha⟩
      cases before with
      | nil =>
        simp only [List.nil_append, List.cons.injEq] at h
        obtain ⟨rfl, rfl⟩ := h
        show find k (sch.foldl (addType p) (addType p ts _)) = _
        rw [i2 ha]
        exact f1 r (hkey.2 ⟨rfl, hk⟩) rfl
      | cons b before =>
        simp only [List.cons_append, List.cons.injEq] at h
        obtain ⟨rfl, rfl⟩ := h
        exact i1 r ⟨before, after, rfl, ha⟩
    · intro h
      show find k (sch.foldl (addType p) (addType p ts _)) = _
      rw [i2 fun t ht => h t (by simp [ht])]
      apply f2
      rintro ⟨h1, h2⟩
      obtain ⟨r, hr⟩ := Option.isSome_iff_exists.1 h2
      exact h t (by simp) r (Prod.ext (hkey.1 h1).1 hr)

/-- Keys with a dot are not in the table. -/
theorem find_dotted {p : Params} (k : Str) (hk : (46 : UInt8) ∈ k) :
    ∀ (sch : List (Named R)) (_ : Clean sch) (ts : List (Str × R)), find k (sch.foldl (addType p) ts) = find k ts := by
  intro sch
  induction sch with
  | nil => intro _ ts; rfl
  | cons t sch ih =>
    intro hc ts
    show find k (sch.foldl (addType p) (addType p ts _)) = _
    rw [ih (fun t ht => hc t (by simp [ht])) (addType p ts t)]
    apply (find_addType p k ts t).2
    rintro ⟨h1, _⟩
    exact (keyOf_back (hc t (by simp)).1 h1).1 hk

theorem run_append (p : Params) : ∀ (a b : List (Op R)) (s : State R),
    (run p (a ++ b) s).2 = (run p b (run p a s).2).2 ∧ (run p (a ++ b) s).1 = (run p a s).1 ++ (run p b (run p a s).2).1
  | [], b, s => by simp [run]
  | o :: a, b, s => by
    obtain ⟨h1, h2⟩ := run_append p a b (step p s o).2
    simp only [List.cons_append, run]
    exact ⟨h1, by rw [h2, List.append_assoc]⟩

theorem choose_types (p : Params) (obj : List (Str × Option Str)) (s : State R) : (choose p obj s).2.types = s.types := by
  unfold choose
  split
  · rfl
  · rfl
  · split
    · rfl
    · split <;> rfl

theorem schemas_append : ∀ (a b : List (Op R)), schemas (a ++ b) = schemas a ++ schemas b
  | [], b => rfl
  | .schema s :: a, b => by simp [schemas, schemas_append a b]
  | .object o :: a, b => by simp [schemas, schemas_append a b]

theorem run_types (p : Params) (s0 : State R) : ∀ os : List (Op R), (run p os s0).2.types =
    (schemas os).foldl (fun ts sch => sch.foldl (addType p) ts) s0.types := by
  intro os
  induction os generalizing s0 with
  | nil => rfl
  | cons o os ih =>
    simp only [run]
    rw [ih]
    cases o with
    | schema sch => rfl
    | object obj => simp only [step, choose_types, schemas]

/-- A definition of a name in a schema, or none. -/
theorem defines_or [DecidableEq Str] (name : Str) : ∀ sch : List (Named R), (∃ r, Defines sch name r) ∨ ∀ t ∈ sch, ∀ r', t ≠ (name, some r')
  | [] => .inr (by simp)
  | t :: sch => by
    rcases defines_or name sch with ⟨r, before, after, h, ha⟩ | h
    · exact .inl ⟨r, t :: before, after, by rw [h]; rfl, ha⟩
    · obtain ⟨n, v⟩ := t
      by_cases hn : n = name
      · cases v with
        | none =>
          refine .inr fun t ht r' e => ?_
          cases ht with
          | head => cases e
          | tail _ ht => exact h t ht r' e
        | some r => exact .inl ⟨r, [], sch, by rw [hn]; rfl, h⟩
      · refine .inr fun t ht r' e => ?_
        cases ht with
        | head => cases e; exact hn rfl
        | tail _ ht => exact h t ht r' e

theorem defines_not {sch : List (Named R)} {name : Str} {r : R} (h : Defines sch name r) : ¬ ∀ t ∈ sch, ∀ r', t ≠ (name, some r') := by
  obtain ⟨before, after, rfl, _⟩ := h
  intro h
  exact h (name, some r) (by simp) r rfl

theorem snoc_inj {α : Type} {a b : List α} {x y : α} (h : a ++ [x] = b ++ [y]) : a = b ∧ x = y := by
  have := List.append_inj' h rfl
  exact ⟨this.1, by simpa using this.2⟩

theorem find_known {p : Params} (hp1 : p.pre ≠ []) (hp2 : (46 : UInt8) ∉ p.pre) (k : Str) (hk : (46 : UInt8) ∉ k) (n : Nat) :
    ∀ (schs : List (List (Named R))), schs.length = n → (∀ sch ∈ schs, Clean sch) → ∀ r,
      find k (schs.foldl (fun ts sch => sch.foldl (addType p) ts) []) = some r ↔ Known (p.pre ++ [46] ++ k) schs r := by
  induction n with
  | zero =>
    intro schs hn _ r
    have : schs = [] := List.length_eq_zero_iff.1 hn
    subst this
    refine ⟨fun h => (by cases h), fun h => ?_⟩
    generalize hs : ([] : List (List (Named R))) = schs at h
    cases h <;> simp at hs
  | succ n ih =>
    intro schs hn hc r
    obtain ⟨init, sch, rfl⟩ : ∃ init sch, schs = init ++ [sch] := by
      have hne : schs ≠ [] := by intro e; simp [e] at hn
      exact ⟨schs.dropLast, schs.getLast hne, (List.dropLast_concat_getLast hne).symm⟩
    have hi := ih init (by simpa using hn) (fun s hs => hc s (by simp [hs])) r
    rw [List.foldl_append]
    simp only [List.foldl_cons, List.foldl_nil]
    obtain ⟨f1, f2⟩ := find_schema hp1 hp2 k hk sch (hc sch (by simp)) (init.foldl (fun ts sch => sch.foldl (addType p) ts) [])
    rcases defines_or (p.pre ++ [46] ++ k) sch with ⟨r', hr'⟩ | hno
    · rw [f1 r' hr']
      constructor
      · intro h; cases h; exact .last hr'
      · intro h
        generalize hs : init ++ [sch] = schs at h
        cases h with
        | last hd =>
          obtain ⟨rfl, rfl⟩ := snoc_inj hs
          have := f1 _ hd
          rw [f1 _ hr'] at this
          exact this
        | older hno _ =>
          obtain ⟨rfl, rfl⟩ := snoc_inj hs
          exact absurd hno (defines_not hr')
    · rw [f2 hno, hi]
      constructor
      · intro h; exact .older hno h
      · intro h
        generalize hs : init ++ [sch] = schs at h
        cases h with
        | last hd =>
          obtain ⟨rfl, rfl⟩ := snoc_inj hs
          exact absurd hno (defines_not hd)
        | older _ h =>
          obtain ⟨rfl, rfl⟩ := snoc_inj hs
          exact h

theorem tells_iff (p : Params) (obj : List (Str × Option Str)) (k : Str) : obj.find? (·.1 = p.field) = some (p.field, some k) ↔ Tells p.field obj k := by
  rw [List.find?_eq_some_iff_append]
  constructor
  · rintro ⟨_, b, a, h, hb⟩
    exact ⟨b, a, h, fun m hm => by simpa using hb m hm⟩
  · rintro ⟨b, a, h, hb⟩
    exact ⟨by simp, b, a, h, fun m hm => by simpa using hb m hm⟩

theorem choose_iff (p : Params) (obj : List (Str × Option Str)) (s : State R) (r : R) :
    (choose p obj s).1 = some r ↔ ∃ k, Tells p.field obj k ∧ find k s.types = some r := by
  have key : ∀ n v, obj.find? (·.1 = p.field) = some (n, v) → n = p.field := by
    intro n v h
    simpa using List.find?_some h
  unfold choose
  split
  · rename_i h
    refine ⟨fun h => (by cases h), ?_⟩
    rintro ⟨k, hk, _⟩
    rw [(tells_iff p obj k).2 hk] at h
    cases h
  · rename_i n h
    refine ⟨fun h => (by cases h), ?_⟩
    rintro ⟨k, hk, _⟩
    rw [(tells_iff p obj k).2 hk] at h
    cases h
  · rename_i n k h
    have hn := key n _ h
    subst hn
    have ht := (tells_iff p obj k).1 h
    constructor
    · intro hr
      refine ⟨k, ht, ?_⟩
      split at hr
      · rename_i r' hf; rw [hf]; exact hr
      · split at hr <;> cases hr
    · rintro ⟨k', hk', hf⟩
      rw [(tells_iff p obj k').2 hk'] at h
      cases h
      rw [hf]

/-! ## C168: the layout of an object -/

/-- After every history, an object gets a layout exactly if the first member of the field is a text without dots, and the last
schema so far with a record type of that name (behind the prefix) has this layout.  Assumes that no name of a type ends in a dot. -/
theorem C168_layout_partial (p : Params) (hp1 : p.pre ≠ []) (hp2 : (46 : UInt8) ∉ p.pre) (os : List (Op R)) (hc : ∀ sch ∈ schemas os, Clean sch)
    (obj : List (Str × Option Str)) (r : R) :
    (choose p obj (run p os init).2).1 = some r ↔
      ∃ k, Tells p.field obj k ∧ (46 : UInt8) ∉ k ∧ Known (p.pre ++ [46] ++ k) (schemas os) r := by
  rw [choose_iff, run_types]
  constructor
  · rintro ⟨k, hk, hf⟩
    by_cases hd : (46 : UInt8) ∈ k
    · have hnone : ∀ (schs : List (List (Named R))), (∀ sch ∈ schs, Clean sch) → ∀ ts : List (Str × R),
          find k (schs.foldl (fun ts sch => sch.foldl (addType p) ts) ts) = find k ts := by
        intro schs
        induction schs with
        | nil => intro _ ts; rfl
        | cons sch schs ih =>
          intro h ts
          rw [List.foldl_cons, ih (fun s hs => h s (by simp [hs])), find_dotted k hd sch (h sch (by simp))]
      rw [hnone _ hc] at hf
      cases hf
    · exact ⟨k, hk, hd, (find_known hp1 hp2 k hd _ _ rfl hc r).1 hf⟩
  · rintro ⟨k, hk, hd, h⟩
    exact ⟨k, hk, (find_known hp1 hp2 k hd _ _ rfl hc r).2 h⟩

/-- With one schema that has distinct names: the record of that name. -/
theorem C168_single_partial (p : Params) (hp1 : p.pre ≠ []) (hp2 : (46 : UInt8) ∉ p.pre) (sch : List (Named R)) (hc : Clean sch)
    (hd : (sch.map (·.1)).Nodup) (obj : List (Str × Option Str)) (r : R) :
    (choose p obj (setSchema p sch init)).1 = some r ↔
      ∃ k, Tells p.field obj k ∧ (46 : UInt8) ∉ k ∧ (p.pre ++ [46] ++ k, some r) ∈ sch := by
  have h := C168_layout_partial p hp1 hp2 [.schema sch] (by simpa [schemas] using hc) obj r
  simp only [run, step] at h
  rw [h]
  constructor
  · rintro ⟨k, h1, h2, h3⟩
    refine ⟨k, h1, h2, ?_⟩
    simp only [schemas] at h3
    generalize hs : [sch] = schs at h3
    cases h3 with
    | last hd =>
      obtain ⟨_, rfl⟩ := snoc_inj (a := []) hs
      obtain ⟨b, a, rfl, _⟩ := hd
      simp
    | older hno h =>
      obtain ⟨e, rfl⟩ := snoc_inj (a := []) hs
      subst e
      generalize hs : ([] : List (List (Named R))) = schs at h
      cases h <;> simp at hs
  · rintro ⟨k, h1, h2, h3⟩
    refine ⟨k, h1, h2, ?_⟩
    obtain ⟨b, a, rfl⟩ := List.append_of_mem h3
    refine .last (schs := []) ⟨b, a, rfl, ?_⟩
    intro t ht r' e
    subst e
    simp only [List.map_append, List.map_cons, List.nodup_append, List.nodup_cons] at hd
    exact hd.2.1.1 (List.mem_map_of_mem ht)

/-- A record of the examples. -/
def sampleSchema : List (Named Nat) := [(str "suricata.flow", some 1), (str "zeek.conn", some 2), (str "suricata.dns", some 3), (str "suricata.alias", none),
  (str "suricata.a.b", some 4)]

theorem sample_clean : Clean sampleSchema := by
  intro t ht
  have h : ∀ t ∈ sampleSchema, t.1.length < 2 ^ 64 ∧ t.1.getLast? ≠ some 46 := by decide +kernel
  refine ⟨(h t ht).1, fun x e => (h t ht).2 (by rw [e]; simp)⟩

example : (choose suricata [(str "id", none), (str "event_type", some (str "dns")), (str "event_type", some (str "flow"))] (setSchema suricata sampleSchema init)).1 = some 3 ∧
    (choose zeek [(str "_path", some (str "conn"))] (setSchema zeek sampleSchema init)).1 = some 2 ∧
    (choose suricata [(str "event_type", some (str "conn"))] (setSchema suricata sampleSchema init)).1 = none := by decide +kernel

/-- A type with a dot in its name is not found, although the schema has a record of that name; neither is an alias of a record. -/
theorem C168_dotted_refuted : (str "suricata" ++ [46] ++ str "a.b", some 4) ∈ sampleSchema ∧
    (choose suricata [(str "event_type", some (str "a.b"))] (setSchema suricata sampleSchema init)).1 = none := by decide +kernel

/-- A name that ends in a dot takes the place of the name without it. -/
theorem C168_trailing_refuted :
    (choose suricata [(str "event_type", some (str "a"))] (setSchema suricata [(str "suricata.a", some 1), (str "suricata.a.", some 2)] init)).1 = some 2 := by
  decide +kernel

/-- Layouts that are not in the new schema any more stay in use. -/
theorem C168_stale_refuted : ∀ sch : List (Named Nat), Clean sch → (∀ t ∈ sch, ∀ r, t ≠ (str "suricata.flow", some r)) →
    (choose suricata [(str "event_type", some (str "flow"))] (setSchema suricata sch (setSchema suricata sampleSchema init))).1 = some 1 := by
  intro sch hc hs
  have hcs := sample_clean
  have e : suricata.pre ++ [46] ++ str "flow" = str "suricata.flow" := by decide +kernel
  have h := (C168_layout_partial suricata (by decide) (by decide) [.schema sampleSchema, .schema sch] (by simp [schemas, hc, hcs])
    [(str "event_type", some (str "flow"))] 1).2 ⟨str "flow", ⟨[], [], rfl, by simp⟩, by decide, by
      rw [e]
      exact .older (schs := [sampleSchema]) hs (.last (schs := []) ⟨[], _, rfl, fun t ht r' e => by
        have h : ∀ t ∈ sampleSchema.tail, t.1 ≠ str "suricata.flow" := by decide +kernel
        exact h t ht (by rw [e])⟩)⟩
  exact h

/-! ## C169: what is reported -/

theorem choose_warn (p : Params) (obj : List (Str × Option Str)) (s : State R) (hu : ∀ k, k ∈ s.unknown ↔ some k ∈ s.warnings) (k : Str)
    (hn : s.warnings.count (some k) ≤ 1) :
    (∀ k, k ∈ (choose p obj s).2.unknown ↔ some k ∈ (choose p obj s).2.warnings) ∧ (choose p obj s).2.warnings.count (some k) ≤ 1 := by
  unfold choose
  split
  · exact ⟨hu, hn⟩
  · exact ⟨fun k => by simp [hu], by simpa using hn⟩
  · rename_i k' _
    split
    · exact ⟨hu, hn⟩
    · split
      · exact ⟨hu, hn⟩
      · rename_i hk
        refine ⟨fun x => by simp [hu, or_comm], ?_⟩
        by_cases e : k' = k
        · subst e
          have : some k' ∉ s.warnings := fun h => hk ((hu k').2 h)
          simp [List.count_append, List.count_eq_zero.2 this]
        · have : ¬ some k' = some k := fun h => e (by simpa using h)
          simp only [List.count_append, List.count_cons, List.count_nil, beq_iff_eq, this, if_false]
          omega

theorem run_warn (p : Params) (k : Str) : ∀ (os : List (Op R)) (s : State R), (∀ k, k ∈ s.unknown ↔ some k ∈ s.warnings) → s.warnings.count (some k) ≤ 1 →
    (∀ k, k ∈ (run p os s).2.unknown ↔ some k ∈ (run p os s).2.warnings) ∧ (run p os s).2.warnings.count (some k) ≤ 1
  | [], s, h1, h2 => ⟨h1, h2⟩
  | .schema sch :: os, s, h1, h2 => run_warn p k os (setSchema p sch s) h1 h2
  | .object obj :: os, s, h1, h2 => by
    obtain ⟨g1, g2⟩ := choose_warn p obj s h1 k h2
    exact run_warn p k os _ g1 g2

theorem warnings_mono (p : Params) (w : Option Str) : ∀ (os : List (Op R)) (s : State R), w ∈ s.warnings → w ∈ (run p os s).2.warnings
  | [], _, h => h
  | .schema sch :: os, s, h => warnings_mono p w os (setSchema p sch s) h
  | .object obj :: os, s, h => by
    refine warnings_mono p w os (choose p obj s).2 ?_
    unfold choose
    split
    · exact h
    · simp [h]
    · split
      · exact h
      · split
        · exact h
        · simp [h]

/-- Whatever happens, the same unknown type is not reported twice; -/
theorem C169_once (p : Params) (os : List (Op R)) (k : Str) : (run p os init).2.warnings.count (some k) ≤ 1 :=
  (run_warn p k os init (by simp [init]) (by simp [init])).2

/-- each object whose type is a text without a layout leads to a report of that type, then or earlier; -/
theorem C169_reported (p : Params) (before after : List (Op R)) (obj : List (Str × Option Str)) (k : Str) (ht : Tells p.field obj k)
    (hn : (choose p obj (run p before init).2).1 = none) : some k ∈ (run p (before ++ .object obj :: after) init).2.warnings := by
  have hinv := (run_warn p k before init (by simp [init]) (by simp [init])).1
  rw [(run_append p before _ init).1]
  refine warnings_mono p _ after (choose p obj (run p before init).2).2 ?_
  generalize (run p before init).2 = s at *
  have h := (tells_iff p obj k).2 ht
  have hf : find k s.types = none := by
    cases hf : find k s.types with
    | none => rfl
    | some r => rw [(choose_iff p obj s r).2 ⟨k, ht, hf⟩] at hn; cases hn
  unfold choose
  rw [h]
  dsimp only
  rw [hf]
  dsimp only
  split
  · rename_i hk; exact (hinv k).1 hk
  · simp

theorem choose_new (p : Params) (obj : List (Str × Option Str)) (s : State R) (k : Str) (h : some k ∈ (choose p obj s).2.warnings) :
    some k ∈ s.warnings ∨ Tells p.field obj k ∧ (choose p obj s).1 = none := by
  by_cases hm : some k ∈ s.warnings
  · exact .inl hm
  refine .inr ?_
  revert h
  unfold choose
  split
  · intro h; exact absurd h hm
  · intro h; simp at h; exact absurd h hm
  · rename_i n k' hfi
    have hn : n = p.field := by simpa using List.find?_some hfi
    subst hn
    split
    · intro h; exact absurd h hm
    · split
      · intro h; exact absurd h hm
      · intro h
        simp only [List.mem_append, List.mem_cons, List.not_mem_nil, or_false] at h
        rcases h with h | h
        · exact absurd h hm
        · cases h
          exact ⟨(tells_iff p obj _).1 hfi, rfl⟩

/-- and only such types are reported. -/
theorem C169_genuine (p : Params) (k : Str) : ∀ (os : List (Op R)) (_ : some k ∈ (run p os init).2.warnings),
    ∃ before obj after, os = before ++ .object obj :: after ∧ Tells p.field obj k ∧ (choose p obj (run p before init).2).1 = none := by
  have key : ∀ (n : Nat) (os : List (Op R)), os.length = n → some k ∈ (run p os init).2.warnings →
      ∃ before obj after, os = before ++ .object obj :: after ∧ Tells p.field obj k ∧ (choose p obj (run p before init).2).1 = none := by
    intro n
    induction n with
    | zero =>
      intro os hn h
      have : os = [] := List.length_eq_zero_iff.1 hn
      subst this
      simp [run, init] at h
    | succ n ih =>
      intro os hn h
      obtain ⟨pre, o, rfl⟩ : ∃ pre o, os = pre ++ [o] := by
        have hne : os ≠ [] := by intro e; simp [e] at hn
        exact ⟨os.dropLast, os.getLast hne, (List.dropLast_concat_getLast hne).symm⟩
      rw [(run_append p pre [o] init).1] at h
      have hold : some k ∈ (run p pre init).2.warnings → ∃ before obj after, pre ++ [o] = before ++ .object obj :: after ∧ Tells p.field obj k ∧
          (choose p obj (run p before init).2).1 = none := by
        intro h
        obtain ⟨b, obj, a, rfl, h1, h2⟩ := ih pre (by simpa using hn) h
        exact ⟨b, obj, a ++ [o], by simp, h1, h2⟩
      cases o with
      | schema sch => exact hold h
      | object obj =>
        rcases choose_new p obj _ k h with h | ⟨h1, h2⟩
        · exact hold h
        · exact ⟨pre, obj, [], rfl, h1, h2⟩
  intro os h
  exact key _ os rfl h

/-- The user never learns that a type became unknown again after a report, and a value that is no text is reported each time. -/
theorem C169_repeated_refuted : (run suricata [.object [(str "event_type", none)], .object [(str "event_type", none)], .object [(str "event_type", some (str "x"))],
    .schema [(str "suricata.y", some 1)], .object [(str "event_type", some (str "x"))]] init).2.warnings = [none, none, some (str "x")] := by decide +kernel

end Verif.Select
