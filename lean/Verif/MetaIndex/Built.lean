import Verif.MetaIndex.Spec
import Verif.Synopsis.Props
/-
The catalog with the synopses of Verif/Synopsis, and the invariant of partition
synopses built slice by slice.
-/
namespace Verif.MetaIndex
open Verif.Data Verif.Expr Verif.SetOps Verif.Synopsis

/-- The types the synopsis factory knows (src/synopsis_factory.cpp:19-24). -/
inductive Kind where
  | bool | time | string | address | other
deriving DecidableEq

/-- The values of a column of that type, apart from nil. -/
def Kind.fits : Kind → Data → Bool
  | .bool, .bool _ => true
  | .time, .time _ => true
  | .string, .string _ => true
  | .address, .address _ => true
  | .other, _ => true
  | _, _ => false

/-- The synopses the factory makes. -/
inductive Syn where
  | time (s : MinMax)
  | bool (s : BoolSyn)
  | bloom (t : Elem) (b : Bloom Data)

/-- `synopsis::add`. Values of another type (`caf::get` on the wrong
alternative) do not reach it. Additions to a Bloom filter are defined for the
filters the factory makes (C20_defined). -/
def Syn.add : Syn → Data → Syn
  | .time s, .time x => .time (s.add x)
  | .bool s, .bool x => .bool (s.add x)
  | .bloom t b, x => match b.add x with
    | some (_, b') => .bloom t b'
    | none => .bloom t b
  | s, _ => s

/-- `synopsis::lookup`. Undefined lookups in the Bloom filter do not occur for
the filters the factory makes. -/
def Syn.lookup : Syn → RelOp → Data → Option Bool
  | .time s, op, d => s.lookup op d
  | .bool s, op, d => s.lookup op d
  | .bloom t b, op, d => (bloomLookup t b op d).getD none

/-- What the factory needs to know about types: the kind, the type without
attributes, whether the attribute `skip` is set and the Bloom filter for the
type's parameters and the options (`none` if it cannot be made). -/
structure TypeInfo (τ : Type) where
  kind : τ → Kind
  clean : τ → τ
  skip : τ → Bool
  filter : τ → Option (Bloom Data)

/-- What holds of type information: attributes do not change the kind, and
`make_bloom_filter` uses no partitioning and at least one bit
(vast/bloom_filter.hpp:157-158). -/
structure TypeInfo.Valid {τ : Type} (I : TypeInfo τ) : Prop where
  kind_clean : ∀ t, I.kind (I.clean t) = I.kind t
  filter_ok : ∀ t b, I.filter t = some b → b.policy = .no ∧ b.bits ≠ []

/-- `factory<synopsis>::make` as set up in src/synopsis_factory.cpp:19-24, after
the check for `skip` (src/partition_synopsis.cpp:39-42). -/
def makeSynopsis {τ : Type} (I : TypeInfo τ) (t : τ) : Option Syn :=
  if I.skip t then none else match I.kind t with
    | .bool => some (.bool BoolSyn.initial)
    | .time => some (.time MinMax.initial)
    | .string => (I.filter t).map (.bloom .string)
    | .address => (I.filter t).map (.bloom .address)
    | .other => none

/-- The operations of the concrete synopses. -/
def synOps {τ : Type} (I : TypeInfo τ) : SynOps τ Syn where
  make := makeSynopsis I
  add := Syn.add
  lookup := Syn.lookup
  isString t := I.kind t == .string
  clean := I.clean

/-! ### Maps -/

section Maps
variable {κ β : Type} [DecidableEq κ]

theorem find_assign (k k' : κ) (v : β) (m : List (κ × β)) :
    find k (assign k' v m) = if k' = k then some v else find k m := by
  induction m with
  | nil => simp [assign, find]
  | cons x m ih =>
    obtain ⟨k1, v1⟩ := x
    rw [assign]
    split
    · next h =>
      subst h
      simp only [find]
      split <;> rfl
    · next h =>
      simp only [find, ih]
      split
      · next h1 =>
        subst h1
        rw [if_neg (fun h' => h h'.symm)]
      · rfl

theorem find_mem {k : κ} {v : β} : ∀ {m : List (κ × β)}, find k m = some v → (k, v) ∈ m := by
  intro m
  induction m with
  | nil => simp [find]
  | cons x m ih =>
    obtain ⟨k1, v1⟩ := x
    intro h
    rw [find] at h
    split at h
    · next h1 => simp at h; simp [h1, h]
    · simp [ih h]

end Maps

/-! ### The history of a synopsis -/

/-- `sy` is a synopsis for values of kind `k` to which exactly `hist` was
added. -/
def Hist (k : Kind) (hist : List Data) (sy : Syn) : Prop :=
  (∀ v ∈ hist, k.fits v = true) ∧
  match k, sy with
  | .time, .time s => ∃ xs, hist = xs.map Data.time ∧ s = MinMax.initial.addAll xs
  | .bool, .bool s => ∃ xs, hist = xs.map Data.bool ∧ s = BoolSyn.initial.addAll xs
  | .string, .bloom .string b => ∃ b0 : Bloom Data, b0.policy = .no ∧ b0.bits ≠ [] ∧
      b0.addAll hist = some b
  | .address, .bloom .address b => ∃ b0 : Bloom Data, b0.policy = .no ∧ b0.bits ≠ [] ∧
      b0.addAll hist = some b
  | _, _ => False

theorem hist_make {τ : Type} {I : TypeInfo τ} (hI : I.Valid) {t : τ} {sy : Syn}
    (h : makeSynopsis I t = some sy) : Hist (I.kind t) [] sy := by
  unfold makeSynopsis at h
  split at h
  · simp at h
  · split at h
    · next hk => simp at h; subst h; rw [hk]; exact ⟨by simp, [], rfl, rfl⟩
    · next hk => simp at h; subst h; rw [hk]; exact ⟨by simp, [], rfl, rfl⟩
    · next hk =>
      simp at h
      obtain ⟨b, hb, rfl⟩ := h
      rw [hk]
      exact ⟨by simp, b, (hI.filter_ok t b hb).1, (hI.filter_ok t b hb).2, rfl⟩
    · next hk =>
      simp at h
      obtain ⟨b, hb, rfl⟩ := h
      rw [hk]
      exact ⟨by simp, b, (hI.filter_ok t b hb).1, (hI.filter_ok t b hb).2, rfl⟩
    · simp at h

theorem bloom_addAll_snoc (x : Data) : ∀ (xs : List Data) (b b' : Bloom Data),
    b.addAll xs = some b' → b.addAll (xs ++ [x]) = (b'.add x).map (·.2) := by
  intro xs
  induction xs with
  | nil =>
    intro b b' h
    simp [Bloom.addAll] at h
    subst h
    simp only [List.nil_append, Bloom.addAll]
    cases b.add x <;> rfl
  | cons y ys ih =>
    intro b b' h
    rw [Bloom.addAll] at h
    rw [List.cons_append, Bloom.addAll]
    split at h
    · simp at h
    · next h1 => exact ih _ _ h

theorem hist_add {k : Kind} {hist : List Data} {sy : Syn} (h : Hist k hist sy) (v : Data)
    (hv : k.fits v = true) : Hist k (hist ++ [v]) (sy.add v) := by
  obtain ⟨hf, h⟩ := h
  have hf' : ∀ w ∈ hist ++ [v], k.fits w = true := by
    intro w hw
    rcases List.mem_append.1 hw with hw | hw
    · exact hf w hw
    · rw [List.mem_singleton.1 hw]; exact hv
  refine ⟨hf', ?_⟩
  have bloom : ∀ (t : Elem) (b b0 : Bloom Data), b0.policy = .no → b0.bits ≠ [] →
      b0.addAll hist = some b →
      ∃ b', (Syn.bloom t b).add v = .bloom t b' ∧ ∃ b0 : Bloom Data, b0.policy = .no ∧
        b0.bits ≠ [] ∧ b0.addAll (hist ++ [v]) = some b' := by
    intro t b b0 h1 h2 h3
    have h4 := bloom_addAll_snoc v hist b0 b h3
    have h5 := C20_defined (hist ++ [v]) b0 h1 h2
    rw [h4] at h5
    cases ha : b.add v with
    | none => rw [ha] at h5; simp at h5
    | some r =>
      obtain ⟨u, b'⟩ := r
      refine ⟨b', by simp only [Syn.add, ha], b0, h1, h2, ?_⟩
      rw [h4, ha]; rfl
  cases k <;> cases sy <;> try simp only at h
  · obtain ⟨xs, rfl, rfl⟩ := h
    cases v <;> simp [Kind.fits] at hv
    next b => exact ⟨xs ++ [b], by simp, by simp [BoolSyn.addAll]⟩
  · obtain ⟨xs, rfl, rfl⟩ := h
    cases v <;> simp [Kind.fits] at hv
    next b => exact ⟨xs ++ [b], by simp, by simp [MinMax.addAll]⟩
  · next t b =>
    cases t <;> try exact h.elim
    obtain ⟨b0, h1, h2, h3⟩ := h
    obtain ⟨b', he, hb⟩ := bloom .string b b0 h1 h2 h3
    rw [he]; exact hb
  · next t b =>
    cases t <;> try exact h.elim
    obtain ⟨b0, h1, h2, h3⟩ := h
    obtain ⟨b', he, hb⟩ := bloom .address b b0 h1 h2 h3
    rw [he]; exact hb

/-- The queries for which the synopses have no false negatives (C18, C20):
no `!=` and `!in` on times, no pattern literal. -/
def Supported (op : RelOp) (d : Data) : Prop :=
  op ≠ .notEqual ∧ op ≠ .notIn ∧ ∀ p, d ≠ .pattern p

theorem hist_sound (R : Regex) {k : Kind} {hist : List Data} {sy : Syn} (h : Hist k hist sy)
    (v : Data) (hv : v ∈ hist) (op : RelOp) (d : Data) (hs : Supported op d)
    (he : evaluate R v op d = true) : mayMatch (sy.lookup op d) = true := by
  obtain ⟨hf, h⟩ := h
  have key : ∀ o : Option Bool, o ≠ some false → mayMatch o = true := by
    intro o ho
    unfold mayMatch
    simpa using ho
  cases k <;> cases sy <;> try simp only at h
  · obtain ⟨xs, rfl, rfl⟩ := h
    obtain ⟨b, hb, rfl⟩ := List.mem_map.1 hv
    exact key _ (C19_no_false_negative R xs b hb op d he)
  · obtain ⟨xs, rfl, rfl⟩ := h
    obtain ⟨b, hb, rfl⟩ := List.mem_map.1 hv
    exact key _ (C18_no_false_negative_partial R _ xs b hb op d hs.1 hs.2.1 he)
  · next t b =>
    cases t <;> try exact h.elim
    obtain ⟨b0, h1, h2, h3⟩ := h
    have := C20_synopsis_partial R .string b0 b hist
      (fun x hx => by have := hf x hx; cases x <;> simp [Kind.fits] at this <;> rfl) h3 v hv op d
      hs.2.2 he
    simp only [Syn.lookup]
    apply key
    intro hc
    cases hl : bloomLookup .string b op d with
    | none => rw [hl] at hc; simp at hc
    | some o => rw [hl] at hc this; simp at hc; subst hc; exact this rfl
  · next t b =>
    cases t <;> try exact h.elim
    obtain ⟨b0, h1, h2, h3⟩ := h
    have := C20_synopsis_partial R .address b0 b hist
      (fun x hx => by have := hf x hx; cases x <;> simp [Kind.fits] at this <;> rfl) h3 v hv op d
      hs.2.2 he
    simp only [Syn.lookup]
    apply key
    intro hc
    cases hl : bloomLookup .address b op d with
    | none => rw [hl] at hc; simp at hc
    | some o => rw [hl] at hc this; simp at hc; subst hc; exact this rfl

/-! ### The invariant -/

variable {τ : Type} [DecidableEq τ]

/-- The values of a column apart from nil. -/
def columnValues (rows : List Row) (col : Nat) : List Data :=
  (rows.map fun row => row.getD col .none).filter fun v => match v with
    | .none => false
    | _ => true

theorem mem_columnValues {rows : List Row} {col : Nat} {v : Data} :
    v ∈ columnValues rows col ↔ (∃ row ∈ rows, row.getD col .none = v) ∧ v ≠ .none := by
  unfold columnValues
  simp only [List.mem_filter, List.mem_map]
  refine and_congr Iff.rfl ?_
  cases v <;> simp

omit [DecidableEq τ] in
theorem hist_addColumn (I : TypeInfo τ) {k : Kind} (col : Nat) : ∀ (rows : List Row)
    (hist : List Data) (sy : Syn), Hist k hist sy →
    (∀ v ∈ columnValues rows col, k.fits v = true) →
    Hist k (hist ++ columnValues rows col) (addColumn (synOps I) sy rows col) := by
  intro rows
  induction rows with
  | nil => intro hist sy h _; simpa [columnValues, addColumn] using h
  | cons row rows ih =>
    intro hist sy h hv
    have e : addColumn (synOps I) sy (row :: rows) col = addColumn (synOps I)
        (match row.getD col .none with
          | .none => sy
          | x => sy.add x) rows col := by
      unfold addColumn
      rw [List.foldl_cons]
      rfl
    rw [e]
    by_cases hn : row.getD col .none = .none
    · have e2 : columnValues (row :: rows) col = columnValues rows col := by
        unfold columnValues
        rw [List.map_cons, List.filter_cons, hn]
        rfl
      rw [e2] at hv ⊢
      rw [hn]
      exact ih hist sy h hv
    · have e2 : columnValues (row :: rows) col
          = row.getD col .none :: columnValues rows col := by
        unfold columnValues
        rw [List.map_cons, List.filter_cons, if_pos]
        revert hn
        cases row.getD col .none <;> simp
      rw [e2] at hv ⊢
      have hx := hist_add h (row.getD col .none) (hv _ (by simp))
      have e3 : (match row.getD col .none with
          | .none => sy
          | x => sy.add x) = sy.add (row.getD col .none) := by
        revert hn
        cases row.getD col .none <;> simp
      rw [e3]
      have := ih _ _ hx fun v h => hv v (by simp [h])
      simpa using this

/-- What holds of a partition synopsis to which the columns `listed` were added,
with the values `log`. -/
structure Inv (I : TypeInfo τ) (ps : PartSyn τ Syn) (listed : List (Field τ))
    (log : List (Field τ × Data)) : Prop where
  /-- Every column has an entry. -/
  entry : ∀ k ∈ listed, ∃ syn, find k ps.fields = some syn
  /-- Every column of strings has an entry by its type. -/
  typeEntry : ∀ k ∈ listed, I.kind k.type = .string → ∃ syn, find (I.clean k.type) ps.types = some syn
  /-- Values belong to columns. -/
  logged : ∀ x ∈ log, x.1 ∈ listed
  /-- A field's synopsis has seen all its values. -/
  field : ∀ k sy, find k ps.fields = some (some sy) → I.kind k.type ≠ .string ∧
    ∃ hist, Hist (I.kind k.type) hist sy ∧ ∀ v, (k, v) ∈ log → v ∈ hist
  /-- A type's synopsis has seen the values of all columns of that type. -/
  type : ∀ t sy, find t ps.types = some (some sy) → ∃ hist, Hist .string hist sy ∧
    ∀ k v, (k, v) ∈ log → I.kind k.type = .string → I.clean k.type = t → v ∈ hist
  /-- Only strings have synopses by type. -/
  typeKind : ∀ t syn, find t ps.types = some syn → I.kind t = .string

omit [DecidableEq τ] in
/-- The synopsis to add a column to: an existing one or a new one. -/
theorem step_hist (I : TypeInfo τ) (hI : I.Valid) {κ : Type} [DecidableEq κ] (key : κ) (t : τ)
    (m : List (κ × Option Syn)) (P : Data → Prop)
    (hex : ∀ sy, find key m = some (some sy) → ∃ hist, Hist (I.kind t) hist sy ∧
      ∀ v, P v → v ∈ hist)
    (hnew : find key m = none → ∀ v, ¬ P v)
    (sy : Syn) (h : find key m = some (some sy) ∨
      find key m = none ∧ makeSynopsis I t = some sy) :
    ∃ hist, Hist (I.kind t) hist sy ∧ ∀ v, P v → v ∈ hist := by
  rcases h with hs | ⟨hs, h⟩
  · exact hex sy hs
  · exact ⟨[], hist_make hI h, fun v hv => absurd hv (hnew hs v)⟩

theorem inv_addOne (I : TypeInfo τ) (hI : I.Valid) (name : Str) (rows : List Row)
    (ps : PartSyn τ Syn) (listed : List (Field τ)) (log : List (Field τ × Data))
    (h : Inv I ps listed log) (c : Column τ × Nat)
    (hfit : ∀ v ∈ columnValues rows c.2, (I.kind c.1.type).fits v = true) :
    Inv I (addOne (synOps I) name rows ps c) (⟨name, c.1.name, c.1.type⟩ :: listed)
      (log ++ (columnValues rows c.2).map fun v => (⟨name, c.1.name, c.1.type⟩, v)) := by
  have hlogged : ∀ x ∈ log ++ (columnValues rows c.2).map
      (fun v => ((⟨name, c.1.name, c.1.type⟩ : Field τ), v)),
      x.1 ∈ (⟨name, c.1.name, c.1.type⟩ : Field τ) :: listed := by
    intro x hx
    rcases List.mem_append.1 hx with hx | hx
    · exact List.mem_cons_of_mem _ (h.logged x hx)
    · obtain ⟨v, _, rfl⟩ := List.mem_map.1 hx
      simp
  generalize hkey : (⟨name, c.1.name, c.1.type⟩ : Field τ) = key at *
  have hkt : key.type = c.1.type := by rw [← hkey]
  have hmemlog : ∀ k v, (k, v) ∈ log ++ (columnValues rows c.2).map (fun v => (key, v)) ↔
      (k, v) ∈ log ∨ (k = key ∧ v ∈ columnValues rows c.2) := by
    intro k v
    simp only [List.mem_append, List.mem_map, Prod.mk.injEq]
    constructor
    · rintro (h | ⟨a, h, rfl, rfl⟩)
      · exact .inl h
      · exact .inr ⟨rfl, h⟩
    · rintro (h | ⟨rfl, h⟩)
      · exact .inl h
      · exact .inr ⟨v, h, rfl, rfl⟩
  unfold addOne
  simp only [hkey]
  by_cases hs : I.kind c.1.type = .string
  · have hiss : (synOps I).isString c.1.type = true := by simp [synOps, hs]
    simp only [hiss, Bool.not_true, Bool.false_eq_true, if_false]
    refine ⟨?_, ?_, hlogged, ?_, ?_, ?_⟩
    · intro k hk
      simp only [find_assign]
      split
      · exact ⟨_, rfl⟩
      · next hne =>
        rcases List.mem_cons.1 hk with rfl | hk
        · exact absurd rfl hne
        · exact h.entry k hk
    · intro k hk hks
      simp only [find_assign]
      split
      · exact ⟨_, rfl⟩
      · next hne =>
        rcases List.mem_cons.1 hk with rfl | hk
        · exact absurd (by rw [hkt]; rfl) hne
        · exact h.typeEntry k hk hks
    · intro k sy hf
      simp only [find_assign] at hf
      split at hf
      · simp at hf
      · next hne =>
        obtain ⟨h1, hist, h2, h3⟩ := h.field k sy hf
        refine ⟨h1, hist, h2, fun v hv => ?_⟩
        rcases (hmemlog k v).1 hv with hv | ⟨rfl, _⟩
        · exact h3 v hv
        · exact absurd rfl hne
    · intro t sy hf
      simp only [find_assign] at hf
      split at hf
      · next he =>
        simp only [Option.some.injEq, Option.map_eq_some_iff] at hf
        obtain ⟨sy0, hsy0, rfl⟩ := hf
        obtain ⟨hist, h1, h2⟩ := step_hist I hI (I.clean c.1.type) c.1.type ps.types
          (fun v => ∃ k, (k, v) ∈ log ∧ I.kind k.type = .string ∧
            I.clean k.type = I.clean c.1.type)
          (fun sy hsy => by
            obtain ⟨hist, h1, h2⟩ := h.type _ sy hsy
            rw [hs]
            exact ⟨hist, h1, fun v ⟨k, hk1, hk2, hk3⟩ => h2 k v hk1 hk2 hk3⟩)
          (fun hn v ⟨k, hk1, hk2, hk3⟩ => by
            obtain ⟨syn, hsyn⟩ := h.typeEntry k (h.logged _ hk1) hk2
            rw [hk3, hn] at hsyn
            simp at hsyn)
          sy0 (by
            split at hsy0
            · next s hs' => subst hsy0; exact .inl hs'
            · next hs' => exact .inr ⟨hs', hsy0⟩)
        refine ⟨hist ++ columnValues rows c.2, ?_, ?_⟩
        · rw [hs] at h1 hfit
          exact hist_addColumn I c.2 rows hist sy0 h1 hfit
        · intro k v hv hk1 hk2
          rw [List.mem_append]
          rcases (hmemlog k v).1 hv with hv | ⟨_, hv⟩
          · exact .inl (h2 v ⟨k, hv, hk1, hk2.trans he.symm⟩)
          · exact .inr hv
      · next hne =>
        obtain ⟨hist, h1, h2⟩ := h.type t sy hf
        refine ⟨hist, h1, fun k v hv hk1 hk2 => ?_⟩
        rcases (hmemlog k v).1 hv with hv | ⟨rfl, _⟩
        · exact h2 k v hv hk1 hk2
        · exact absurd (by rw [← hk2, hkt]; rfl) hne
    · intro t syn hf
      simp only [find_assign] at hf
      split at hf
      · next he => rw [← he]; exact (hI.kind_clean _).trans hs
      · exact h.typeKind t syn hf
  · have hiss : (synOps I).isString c.1.type = false := by simp [synOps, hs]
    simp only [hiss, Bool.not_false, if_true]
    refine ⟨?_, ?_, hlogged, ?_, ?_, ?_⟩
    · intro k hk
      simp only [find_assign]
      split
      · exact ⟨_, rfl⟩
      · next hne =>
        rcases List.mem_cons.1 hk with rfl | hk
        · exact absurd rfl hne
        · exact h.entry k hk
    · intro k hk hks
      rcases List.mem_cons.1 hk with rfl | hk
      · rw [hkt] at hks; exact absurd hks hs
      · exact h.typeEntry k hk hks
    · intro k sy hf
      simp only [find_assign] at hf
      split at hf
      · next he =>
        subst he
        rw [hkt]
        refine ⟨hs, ?_⟩
        simp only [Option.some.injEq, Option.map_eq_some_iff] at hf
        obtain ⟨sy0, hsy0, rfl⟩ := hf
        obtain ⟨hist, h1, h2⟩ := step_hist I hI key c.1.type ps.fields (fun v => (key, v) ∈ log)
          (fun sy hsy => by
            obtain ⟨_, hist, h1, h2⟩ := h.field _ sy hsy
            rw [hkt] at h1
            exact ⟨hist, h1, h2⟩)
          (fun hn v hv => by
            obtain ⟨syn, hsyn⟩ := h.entry key (h.logged _ hv)
            rw [hn] at hsyn
            simp at hsyn)
          sy0 (by
            split at hsy0
            · next s hs' => subst hsy0; exact .inl hs'
            · next hs' => exact .inr ⟨hs', hsy0⟩)
        refine ⟨hist ++ columnValues rows c.2, hist_addColumn I c.2 rows hist sy0 h1 hfit, ?_⟩
        intro v hv
        rw [List.mem_append]
        rcases (hmemlog key v).1 hv with hv | ⟨_, hv⟩
        · exact .inl (h2 v hv)
        · exact .inr hv
      · next hne =>
        obtain ⟨h1, hist, h2, h3⟩ := h.field k sy hf
        refine ⟨h1, hist, h2, fun v hv => ?_⟩
        rcases (hmemlog k v).1 hv with hv | ⟨rfl, _⟩
        · exact h3 v hv
        · exact absurd rfl hne
    · intro t sy hf
      obtain ⟨hist, h1, h2⟩ := h.type t sy hf
      refine ⟨hist, h1, fun k v hv hk1 hk2 => ?_⟩
      rcases (hmemlog k v).1 hv with hv | ⟨rfl, _⟩
      · exact h2 k v hv hk1 hk2
      · rw [hkt] at hk1; exact absurd hk1 hs
    · exact h.typeKind

/-- Every value of the slice fits the type of its column. -/
def WellTyped (I : TypeInfo τ) (s : Slice τ) : Prop :=
  ∀ row ∈ s.rows, ∀ c ∈ s.layout.indexed, row.getD c.2 .none ≠ .none →
    (I.kind c.1.type).fits (row.getD c.2 .none) = true

theorem inv_columns (I : TypeInfo τ) (hI : I.Valid) (name : Str) (rows : List Row) :
    ∀ (cs : List (Column τ × Nat)) (ps : PartSyn τ Syn) (listed : List (Field τ))
      (log : List (Field τ × Data)), Inv I ps listed log →
      (∀ c ∈ cs, ∀ v ∈ columnValues rows c.2, (I.kind c.1.type).fits v = true) →
      ∃ listed' log', Inv I (cs.foldl (addOne (synOps I) name rows) ps) listed' log' ∧
        (∀ k ∈ listed, k ∈ listed') ∧ (∀ x ∈ log, x ∈ log') ∧
        ∀ c ∈ cs, (⟨name, c.1.name, c.1.type⟩ : Field τ) ∈ listed' ∧
          ∀ v ∈ columnValues rows c.2, (⟨name, c.1.name, c.1.type⟩, v) ∈ log' := by
  intro cs
  induction cs with
  | nil => intro ps listed log h _; exact ⟨listed, log, h, fun _ h => h, fun _ h => h, by simp⟩
  | cons c cs ih =>
    intro ps listed log h hfit
    have h1 := inv_addOne I hI name rows ps listed log h c (hfit c (by simp))
    obtain ⟨l', g', h2, h3, h4, h5⟩ := ih _ _ _ h1 fun c hc => hfit c (by simp [hc])
    refine ⟨l', g', h2, fun k hk => h3 k (by simp [hk]), fun x hx => h4 x (by simp [hx]), ?_⟩
    intro c' hc'
    rcases List.mem_cons.1 hc' with rfl | hc'
    · refine ⟨h3 _ (by simp), fun v hv => h4 _ ?_⟩
      rw [List.mem_append]
      exact .inr (List.mem_map.2 ⟨v, hv, rfl⟩)
    · exact h5 c' hc'

/-- The partition synopsis of a list of slices. -/
def build (I : TypeInfo τ) (slices : List (Slice τ)) : PartSyn τ Syn :=
  slices.foldl (PartSyn.add (synOps I)) ⟨[], []⟩

theorem inv_slices (I : TypeInfo τ) (hI : I.Valid) : ∀ (slices : List (Slice τ))
    (ps : PartSyn τ Syn) (listed : List (Field τ)) (log : List (Field τ × Data)),
    Inv I ps listed log → (∀ s ∈ slices, WellTyped I s) →
    ∃ listed' log', Inv I (slices.foldl (PartSyn.add (synOps I)) ps) listed' log' ∧
      (∀ k ∈ listed, k ∈ listed') ∧ (∀ x ∈ log, x ∈ log') ∧
      ∀ s ∈ slices, ∀ c ∈ s.layout.indexed,
        (⟨s.layout.name, c.1.name, c.1.type⟩ : Field τ) ∈ listed' ∧
        ∀ v ∈ columnValues s.rows c.2, (⟨s.layout.name, c.1.name, c.1.type⟩, v) ∈ log' := by
  intro slices
  induction slices with
  | nil => intro ps listed log h _; exact ⟨listed, log, h, fun _ h => h, fun _ h => h, by simp⟩
  | cons s slices ih =>
    intro ps listed log h hty
    have hfit : ∀ c ∈ s.layout.indexed, ∀ v ∈ columnValues s.rows c.2,
        (I.kind c.1.type).fits v = true := by
      intro c hc v hv
      obtain ⟨⟨row, hrow, rfl⟩, hn⟩ := mem_columnValues.1 hv
      exact hty s (by simp) row hrow c hc hn
    obtain ⟨l1, g1, h1, h2, h3, h4⟩ := inv_columns I hI s.layout.name s.rows s.layout.indexed ps
      listed log h hfit
    obtain ⟨l', g', h5, h6, h7, h8⟩ := ih (PartSyn.add (synOps I) ps s) l1 g1 h1
      fun s hs => hty s (by simp [hs])
    refine ⟨l', g', h5, fun k hk => h6 k (h2 k hk), fun x hx => h7 x (h3 x hx), ?_⟩
    intro s' hs'
    rcases List.mem_cons.1 hs' with rfl | hs'
    · exact fun c hc => ⟨h6 _ (h4 c hc).1, fun v hv => h7 _ ((h4 c hc).2 v hv)⟩
    · exact h8 s' hs'

/-- A partition synopsis built from the partition's slices has no false
negatives for supported comparisons that no nil satisfies. -/
theorem build_noFalseNegative (R : Regex) (I : TypeInfo τ) (hI : I.Valid)
    (slices : List (Slice τ)) (hty : ∀ s ∈ slices, WellTyped I s) (op : RelOp) (d : Data)
    (hs : Supported op d) (hnil : evaluate R .none op d = false) :
    NoFalseNegative R (synOps I) (build I slices) slices op d := by
  obtain ⟨l, g, hinv, _, _, hall⟩ := inv_slices I hI slices ⟨[], []⟩ [] []
    ⟨by simp, by simp, by simp, by simp [find], by simp [find], by simp [find]⟩ hty
  intro s hsm c hc
  obtain ⟨h1, h2⟩ := hall s hsm c hc
  obtain ⟨syn, hsyn⟩ := hinv.entry _ h1
  refine ⟨syn, find_mem hsyn, fun row hrow he => ?_⟩
  have hne : row.getD c.2 .none ≠ .none := by
    intro h0; rw [h0, hnil] at he; simp at he
  have hlog := h2 _ (mem_columnValues.2 ⟨⟨row, hrow, rfl⟩, hne⟩)
  unfold fieldMayMatch
  cases syn with
  | some sy =>
    obtain ⟨_, hist, h3, h4⟩ := hinv.field _ sy hsyn
    exact hist_sound R h3 _ (h4 _ hlog) op d hs he
  | none =>
    simp only
    split
    · next sy hsy =>
      obtain ⟨hist, h3, h4⟩ := hinv.type _ sy hsy
      by_cases hk : I.kind c.1.type = .string
      · exact hist_sound R h3 _ (h4 _ _ hlog hk rfl) op d hs he
      · exact absurd ((hI.kind_clean _).symm.trans (hinv.typeKind _ _ hsy)) hk
    · rfl

end Verif.MetaIndex
