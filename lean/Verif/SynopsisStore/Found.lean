import Verif.SynopsisStore.Lemmas
import Verif.MetaIndex.Built
/-! # Values that were added are found -/
namespace Verif.SynopsisStore
open Verif.Data Verif.DataText Verif.Calendar Verif.Synopsis Spec

variable {env : Env}

/-- The synopsis has taken a value into account. -/
def Contains (env : Env) : Syn → Data → Prop
  | .time _ s, d => ∃ x, d = .time x ∧ s.min ≤ x ∧ x ≤ s.max
  | .bool _ s, d => ∃ x, d = .bool x ∧ (x = true → s.anyTrue = true) ∧ (x = false → s.anyFalse = true)
  | .bloom t f, d => t.elem.holds d = true ∧ (f.bloom env).lookup d = some true
  | .buffered t _ data, d => t.elem.holds d = true ∧ d ∈ data

theorem contains_sound {s : Syn} {d : Data} (h : Contains env s d) (hb : ∀ t p data, s ≠ .buffered t p data) (R : Regex) (op : RelOp) (rhs : Data)
    (h1 : op ≠ .notEqual) (h2 : op ≠ .notIn) (hpat : ∀ p, rhs ≠ .pattern p) (hm : evaluate R d op rhs = true) :
    s.lookup env op rhs ≠ some (some false) := by
  cases s with
  | time t s =>
    obtain ⟨x, rfl, hlo, hhi⟩ := h
    have := C18_no_false_negative_partial R s [x] x (by simp) op rhs h1 h2 hm
    have he : s.addAll [x] = s := by
      show s.add x = s
      unfold MinMax.add
      rw [if_neg (by omega), if_neg (by omega)]
    rw [he] at this
    intro h
    exact this (Option.some.inj h)
  | bool t s =>
    obtain ⟨x, rfl, ht, hf⟩ := h
    intro h
    have h := Option.some.inj h
    revert h
    cases rhs <;> simp only [BoolSyn.lookup, ne_eq, reduceCtorEq, imp_self]
    next b =>
      cases op <;> simp only [ne_eq, reduceCtorEq, imp_self, Option.some.injEq] <;>
        simp [evaluate, evalStringAndPattern, Data.eq] at hm <;>
        cases b <;> cases x <;> simp at hm <;> simp_all
  | bloom t f =>
    obtain ⟨hT, hl⟩ := h
    show bloomLookup t.elem (f.bloom env) op rhs ≠ _
    generalize t.elem = t at hT
    cases op <;> simp only [bloomLookup, ne_eq, Option.some.injEq, reduceCtorEq, not_false_eq_true]
    · cases rhs <;> simp only [ne_eq, Option.some.injEq, reduceCtorEq, not_false_eq_true]
      next ys =>
        apply bloomIn_sound t _ d hT hl
        revert hm
        cases t <;> cases d <;> simp [Elem.holds] at hT <;>
          simp only [evaluate, evalIn, List.any_eq_true] <;>
          exact fun ⟨y, hy, he⟩ => ⟨y, hy, Data.eq_comm _ _ ▸ he⟩
    · have he : d.eq rhs = true := by
        revert hm
        cases t <;> cases d <;> simp [Elem.holds] at hT <;> cases rhs <;>
          simp [evaluate, evalStringAndPattern] <;> simp at hpat
      have := holds_eq t hT he
      subst this
      split
      · simp
      · simp [hT, hl]
  | buffered t p data => exact absurd rfl (hb t p data)

theorem add_contains {s s' : Syn} {x : Data} (h : s.add env x = .ok s') :
    Contains env s' x ∧ ∀ d, Contains env s d → Contains env s' d := by
  cases s with
  | bloom t f =>
    rw [add_bloom] at h
    split at h
    · rename_i hx
      split at h
      · cases h
      · rename_i u b ha
        cases h
        obtain ⟨hd, hp, hc, hl⟩ := add_spec ha
        have hb : (({ f with bits := b.bits } : Filter).bloom env) = b := by
          cases b
          simp only at hd hp
          subst hd hp
          rfl
        refine ⟨⟨hx, by rw [hb]; exact hl⟩, ?_⟩
        rintro d ⟨h1, h2⟩
        refine ⟨h1, ?_⟩
        unfold Bloom.lookup at h2 ⊢
        exact lookupLoop_covers _ _ _ _ hc _ _ h2
    · cases h
  | time t s =>
    cases x <;> try cases h
    refine ⟨⟨_, rfl, ?_⟩, ?_⟩
    · unfold MinMax.add
      constructor <;> simp only <;> split <;> omega
    · rintro d ⟨y, rfl, h1, h2⟩
      refine ⟨y, rfl, ?_⟩
      unfold MinMax.add
      constructor <;> simp only <;> split <;> omega
  | bool t s =>
    cases x <;> try cases h
    refine ⟨⟨_, rfl, ?_⟩, ?_⟩
    · unfold BoolSyn.add
      constructor <;> rintro rfl <;> rfl
    · rintro d ⟨y, rfl, h1, h2⟩
      refine ⟨y, rfl, ?_⟩
      unfold BoolSyn.add
      constructor <;> intro hy <;> split <;> simp_all
  | buffered t p data =>
    have h : (if t.elem.holds x then Res.ok (.buffered t p (bufferedAdd data x)) else .abort) = .ok s' := by
      rw [← h]; cases x <;> rfl
    split at h
    · rename_i hx
      cases h
      have hself : Data.eq x x = true ∧ ∀ y, Data.eq x y = true → y = x := by
        refine ⟨?_, fun y => holds_eq _ hx⟩
        generalize t.elem = t at hx
        cases t <;> cases x <;> simp [Elem.holds] at hx <;> simp [Data.eq]
      refine ⟨⟨hx, ?_⟩, ?_⟩
      · unfold bufferedAdd
        split
        · rename_i ha
          obtain ⟨y, hy, he⟩ := List.any_eq_true.mp ha
          rw [← hself.2 y he]
          exact hy
        · exact List.mem_cons_self ..
      · rintro d ⟨h1, h2⟩
        refine ⟨h1, ?_⟩
        unfold bufferedAdd
        split
        · exact h2
        · exact List.mem_cons_of_mem _ h2
    · cases h

theorem addAll_contains {xs : List Data} : ∀ {s s' : Syn}, s.addAll env xs = .ok s' →
    (∀ x ∈ xs, Contains env s' x) ∧ ∀ d, Contains env s d → Contains env s' d := by
  induction xs with
  | nil => intro s s' h; cases h; exact ⟨by simp, fun _ h => h⟩
  | cons x xs ih =>
    intro s s' h
    obtain ⟨a, ha, h⟩ := Res.bind_ok h
    obtain ⟨h1, h2⟩ := add_contains ha
    obtain ⟨h3, h4⟩ := ih h
    refine ⟨?_, fun d hd => h4 d (h2 d hd)⟩
    intro y hy
    rcases List.mem_cons.mp hy with rfl | hy
    · exact h4 _ h1
    · exact h3 y hy

theorem shrink_contains {s s' : Syn} (h : s.shrink env = .ok s') : ∀ d, Contains env s d → Contains env s' d := by
  unfold Syn.shrink at h
  split at h
  · rename_i t p data
    obtain ⟨m, hm, h⟩ := Res.bind_ok h
    split at h
    · cases h; exact fun _ h => h
    · rintro d ⟨_, hd⟩
      exact (addAll_contains h).1 d hd
  · cases h; exact fun _ h => h

/-- The entry of a column. -/
def entry (x : PartSyn) (layout : Str) (c : Column) : Option (Option Syn) :=
  if c.type.kind = .string ∧ c.type.alias = false then MetaIndex.find { c.type with attrs := [] } x.types
    else MetaIndex.find ⟨layout, c.name, c.type⟩ x.fields

/-- The values of a column are taken into account. -/
def Taken (env : Env) (x : PartSyn) (layout : Str) (c : Column) : Prop :=
  ∃ r, entry x layout c = some r ∧ ∀ s, r = some s → ∀ d ∈ c.values, d ≠ .none → Contains env s d

theorem addColumn_contains {values : List Data} {r r' : Option Syn} (h : addColumn env values r = .ok r') :
    (∀ s, r' = some s → ∀ d ∈ values, d ≠ .none → Contains env s d) ∧
    (∀ s', r' = some s' → ∃ s, r = some s ∧ ∀ d, Contains env s d → Contains env s' d) := by
  cases r with
  | none => cases h; exact ⟨fun _ h => (by cases h), fun _ h => (by cases h)⟩
  | some s =>
    obtain ⟨a, ha, h⟩ := Res.bind_ok h
    cases h
    obtain ⟨h1, h2⟩ := addAll_contains ha
    refine ⟨?_, ?_⟩
    · rintro s' hs d hd hn
      cases hs
      refine h1 d (List.mem_filter.mpr ⟨hd, ?_⟩)
      cases d <;> first | rfl | exact absurd rfl hn
    · rintro s' hs
      cases hs
      exact ⟨s, rfl, h2⟩

theorem orMake_found {o : Opts} {t : Ty} {r r' : Option Syn} (h : orMake env o t (some r) = .ok r') : r' = r := by cases h; rfl

theorem partAddColumn_taken {o : Opts} {layout : Str} {x y : PartSyn} {c : Column} (h : x.addColumn env o layout c = .ok y) :
    Taken env y layout c ∧ ∀ layout' c', Taken env x layout' c' → Taken env y layout' c' := by
  unfold PartSyn.addColumn at h
  simp only at h
  by_cases hc : c.type.kind = .string ∧ c.type.alias = false
  · rw [if_pos (by simp [Ty.isString, hc])] at h
    obtain ⟨a, ha, h⟩ := Res.bind_ok h
    obtain ⟨b, hb, h⟩ := Res.bind_ok h
    cases h
    obtain ⟨h1, h2⟩ := addColumn_contains hb
    refine ⟨⟨b, ?_, h1⟩, ?_⟩
    · unfold entry
      rw [if_pos hc]
      simp only
      rw [MetaIndex.find_assign, if_pos (by rfl)]
    · rintro layout' c' ⟨r, hr, hs⟩
      unfold entry at hr
      unfold Taken entry
      split at hr
      · rename_i hc'
        rw [if_pos hc']
        simp only
        rw [MetaIndex.find_assign]
        split
        · rename_i hk
          refine ⟨b, rfl, ?_⟩
          intro s' hs' d hd hn
          obtain ⟨s, rfl, hm⟩ := h2 s' hs'
          rw [hk, hr] at ha
          exact hm d (hs s (orMake_found ha).symm d hd hn)
        · exact ⟨r, hr, hs⟩
      · rename_i hc'
        rw [if_neg hc']
        simp only
        rw [MetaIndex.find_assign]
        split
        · exact ⟨none, rfl, fun _ h => (by cases h)⟩
        · exact ⟨r, hr, hs⟩
  · rw [if_neg (by simpa [Ty.isString] using hc)] at h
    obtain ⟨a, ha, h⟩ := Res.bind_ok h
    obtain ⟨b, hb, h⟩ := Res.bind_ok h
    cases h
    obtain ⟨h1, h2⟩ := addColumn_contains hb
    refine ⟨⟨b, ?_, h1⟩, ?_⟩
    · unfold entry
      rw [if_neg hc]
      simp only
      rw [MetaIndex.find_assign, if_pos rfl]
    · rintro layout' c' ⟨r, hr, hs⟩
      unfold entry at hr
      unfold Taken entry
      split at hr
      · rename_i hc'
        rw [if_pos hc']
        exact ⟨r, hr, hs⟩
      · rename_i hc'
        rw [if_neg hc']
        simp only
        rw [MetaIndex.find_assign]
        split
        · rename_i hk
          refine ⟨b, rfl, ?_⟩
          intro s' hs' d hd hn
          obtain ⟨s, rfl, hm⟩ := h2 s' hs'
          rw [hk, hr] at ha
          exact hm d (hs s (orMake_found ha).symm d hd hn)
        · exact ⟨r, hr, hs⟩

theorem add_taken {o : Opts} {layout : Str} {cs : List Column} : ∀ {x y : PartSyn}, foldRes (PartSyn.addColumn env o layout) x cs = .ok y →
    (∀ c ∈ cs, Taken env y layout c) ∧ ∀ layout' c', Taken env x layout' c' → Taken env y layout' c' := by
  induction cs with
  | nil => intro x y h; cases h; exact ⟨by simp, fun _ _ h => h⟩
  | cons c cs ih =>
    intro x y h
    obtain ⟨a, ha, h⟩ := Res.bind_ok h
    obtain ⟨h1, h2⟩ := partAddColumn_taken ha
    obtain ⟨h3, h4⟩ := ih h
    refine ⟨?_, fun l c' hc => h4 l c' (h2 l c' hc)⟩
    intro c' hc'
    rcases List.mem_cons.mp hc' with rfl | hc'
    · exact h4 _ _ h1
    · exact h3 c' hc'

theorem filled_taken {o : Opts} {slices : List Slice} {x : PartSyn} (h : filled env o slices = .ok x) :
    ∀ s ∈ slices, ∀ c ∈ s.columns, Taken env x s.layout c := by
  have : ∀ (slices : List Slice) (x y : PartSyn), foldRes (PartSyn.add env { o with buffered := true }) x slices = .ok y →
      (∀ s ∈ slices, ∀ c ∈ s.columns, Taken env y s.layout c) ∧ ∀ layout' c', Taken env x layout' c' → Taken env y layout' c' := by
    intro slices
    induction slices with
    | nil => intro x y h; cases h; exact ⟨by simp, fun _ _ h => h⟩
    | cons s slices ih =>
      intro x y h
      obtain ⟨a, ha, h⟩ := Res.bind_ok h
      obtain ⟨h1, h2⟩ := add_taken ha
      obtain ⟨h3, h4⟩ := ih _ _ h
      refine ⟨?_, fun l c' hc => h4 l c' (h2 l c' hc)⟩
      intro s' hs'
      rcases List.mem_cons.mp hs' with rfl | hs'
      · exact fun c hc => h4 _ _ (h1 c hc)
      · exact h3 s' hs'
  exact (this slices _ _ h).1

theorem mapRes_find {κ α β : Type} [DecidableEq κ] {f : α → Res β} {l : List (κ × α)} : ∀ {l' : List (κ × β)}, mapRes f l = .ok l' → ∀ {k a},
    MetaIndex.find k l = some a → ∃ b, MetaIndex.find k l' = some b ∧ f a = .ok b := by
  induction l with
  | nil => intro l' _ k a h; cases h
  | cons e l ih =>
    intro l' h k a hk
    obtain ⟨k0, a0⟩ := e
    obtain ⟨b, hb, h⟩ := Res.bind_ok h
    obtain ⟨r, hr, h⟩ := Res.bind_ok h
    cases h
    unfold MetaIndex.find at hk ⊢
    split at hk
    · rename_i he
      cases hk
      exact ⟨b, by rw [if_pos he], hb⟩
    · rename_i he
      rw [if_neg he]
      exact ih hr hk

theorem shrinkOne_contains {r r' : Option Syn} (h : shrinkOne env r = .ok r') {s' : Syn} (hs : r' = some s') :
    ∃ s, r = some s ∧ ∀ d, Contains env s d → Contains env s' d := by
  cases r with
  | none => cases h; cases hs
  | some s =>
    obtain ⟨a, ha, h⟩ := Res.bind_ok h
    cases h
    cases hs
    exact ⟨s, rfl, shrink_contains ha⟩

theorem shrink_taken {x y : PartSyn} (h : x.shrink env = .ok y) {layout : Str} {c : Column} (ht : Taken env x layout c) : Taken env y layout c := by
  obtain ⟨fs, hf, h⟩ := Res.bind_ok h
  obtain ⟨ts, hts, h⟩ := Res.bind_ok h
  cases h
  obtain ⟨r, hr, hs⟩ := ht
  unfold Taken entry
  unfold entry at hr
  split at hr
  · rename_i hc
    rw [if_pos hc]
    obtain ⟨b, hb, hsh⟩ := mapRes_find hts hr
    refine ⟨b, hb, ?_⟩
    intro s' hs' d hd hn
    obtain ⟨s, h1, h2⟩ := shrinkOne_contains hsh hs'
    exact h2 d (hs s h1 d hd hn)
  · rename_i hc
    rw [if_neg hc]
    obtain ⟨b, hb, hsh⟩ := mapRes_find hf hr
    refine ⟨b, hb, ?_⟩
    intro s' hs' d hd hn
    obtain ⟨s, h1, h2⟩ := shrinkOne_contains hsh hs'
    exact h2 d (hs s h1 d hd hn)

theorem pack_unbuffered {x : PartSyn} {file : List (Field × Packed)} (h : x.pack = .ok file) {layout : Str} {c : Column} {s : Syn}
    (hs : entry x layout c = some (some s)) (t : Ty) (p : Rat) (data : List Data) : s ≠ .buffered t p data := by
  rintro rfl
  obtain ⟨fs, hf, h⟩ := Res.bind_ok h
  obtain ⟨ts, hts, h⟩ := Res.bind_ok h
  unfold entry at hs
  split at hs
  · have hm := List.mem_map_of_mem (f := fun e : Ty × Option Syn => (typeField e.1, e.2)) (find_mem hs)
    have : ∀ (l : List (Field × Option Syn)) l', mapRes packOne l = .ok l' → ∀ k, (k, some (Syn.buffered t p data)) ∉ l := by
      intro l
      induction l with
      | nil => intro _ _ _ h; cases h
      | cons a l ih =>
        intro l' h k hk
        obtain ⟨k0, v⟩ := a
        obtain ⟨b, hb, h⟩ := Res.bind_ok h
        obtain ⟨r, hr, h⟩ := Res.bind_ok h
        rcases List.mem_cons.mp hk with he | hk
        · cases he; cases hb
        · exact ih r hr k hk
    exact this _ _ hts _ hm
  · have : ∀ (l : List (Field × Option Syn)) l', mapRes packOne l = .ok l' → ∀ k, (k, some (Syn.buffered t p data)) ∉ l := by
      intro l
      induction l with
      | nil => intro _ _ _ h; cases h
      | cons a l ih =>
        intro l' h k hk
        obtain ⟨k0, v⟩ := a
        obtain ⟨b, hb, h⟩ := Res.bind_ok h
        obtain ⟨r, hr, h⟩ := Res.bind_ok h
        rcases List.mem_cons.mp hk with he | hk
        · cases he; cases hb
        · exact ih r hr k hk
    exact this _ _ hf _ (find_mem hs)

end Verif.SynopsisStore
