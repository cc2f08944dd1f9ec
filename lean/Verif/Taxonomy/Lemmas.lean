import Verif.Taxonomy.Spec
import Verif.Expr.Lemmas

namespace Verif.Taxonomy
open Verif.Expr
open Verif.Data (Data RelOp)
open Spec

/-! ### The depth-first search -/

/-- The names that are not in the cache. -/
def uncached (cs : Concepts) (cache : List Name) : Nat := (cs.filter fun p => p.1 ∉ cache).length

theorem find_mem {α : Type} {m : List (Name × α)} {n : Name} {a : α} (h : find m n = some a) : (n, a) ∈ m := by
  rw [find, Option.map_eq_some_iff] at h
  obtain ⟨p, hp, rfl⟩ := h
  have h1 := List.mem_of_find?_eq_some hp
  have h2 := List.find?_some hp
  simp at h2
  subst h2
  exact h1

theorem uncached_lt {cs : Concepts} {cache : List Name} {x : Name} {c : Concept} (h : find cs x = some c) (hx : x ∉ cache) :
    uncached cs (x :: cache) < uncached cs cache := by
  have hm := find_mem h
  rw [uncached, uncached]
  clear h
  have mono : ∀ l : Concepts, (l.filter fun p => p.1 ∉ x :: cache).length ≤ (l.filter fun p => p.1 ∉ cache).length := by
    intro l
    induction l with
    | nil => simp
    | cons p l ih =>
      simp only [List.filter_cons, List.mem_cons, not_or] at ih ⊢
      by_cases h1 : p.1 ∈ cache
      · simpa [h1] using ih
      · by_cases h2 : p.1 = x
        · simp [h1, h2, hx] at ih ⊢; omega
        · simpa [h1, h2] using ih
  induction cs with
  | nil => cases hm
  | cons p l ih =>
    rcases List.mem_cons.1 hm with rfl | hm
    · have := mono l
      simp only [List.filter_cons, List.mem_cons, true_or, not_true_eq_false, decide_false, hx, not_false_eq_true,
        decide_true, if_true, List.length_cons] at this ⊢
      simp at this ⊢
      omega
    · have := ih hm
      simp only [List.filter_cons, List.mem_cons, not_or] at this ⊢
      by_cases h1 : p.1 ∈ cache
      · simpa [h1] using this
      · by_cases h2 : p.1 = x
        · simp [h1, h2, hx] at this ⊢; omega
        · simp [h1, h2] at this ⊢; omega

theorem uncached_mono {cs : Concepts} {a b : List Name} (h : a ⊆ b) : uncached cs b ≤ uncached cs a := by
  rw [uncached, uncached]
  induction cs with
  | nil => simp
  | cons p l ih =>
    simp only [List.filter_cons]
    by_cases h1 : p.1 ∈ a
    · simpa [h1, h h1] using ih
    · by_cases h2 : p.1 ∈ b
      · simp [h1, h2] at ih ⊢; omega
      · simpa [h1, h2] using ih

/-- The name has been dealt with. -/
def Done (cs : Concepts) (s : State) (x : Name) : Prop :=
  (find cs x = none ∧ x ∈ s.out) ∨ (∃ c, find cs x = some c ∧ x ∈ s.cache)

/-- All references of a concept have been dealt with, and its fields have been added. -/
def Closed (cs : Concepts) (s : State) (x : Name) : Prop :=
  ∀ c, find cs x = some c → (∀ y ∈ c.fields, y ∈ s.out) ∧ ∀ m ∈ c.concepts, Done cs s m

def Le (a b : State) : Prop := a.cache ⊆ b.cache ∧ a.out ⊆ b.out

theorem Le.refl (a : State) : Le a a := ⟨fun _ h => h, fun _ h => h⟩
theorem Le.trans {a b c : State} (h : Le a b) (h' : Le b c) : Le a c := ⟨fun _ x => h'.1 (h.1 x), fun _ x => h'.2 (h.2 x)⟩

theorem Done.mono {cs : Concepts} {a b : State} {x : Name} (h : Done cs a x) (hl : Le a b) : Done cs b x := by
  rcases h with ⟨h1, h2⟩ | ⟨c, h1, h2⟩
  · exact .inl ⟨h1, hl.2 h2⟩
  · exact .inr ⟨c, h1, hl.1 h2⟩

theorem Closed.mono {cs : Concepts} {a b : State} {x : Name} (h : Closed cs a x) (hl : Le a b) : Closed cs b x :=
  fun c hc => ⟨fun y hy => hl.2 ((h c hc).1 y hy), fun m hm => ((h c hc).2 m hm).mono hl⟩

/-- The effect of a search: more is known, and all that is new in the cache is closed. -/
def Step (cs : Concepts) (s t : State) : Prop := Le s t ∧ ∀ x ∈ t.cache, x ∈ s.cache ∨ Closed cs t x

theorem Step.trans {cs : Concepts} {a b c : State} (h : Step cs a b) (h' : Step cs b c) : Step cs a c :=
  ⟨h.1.trans h'.1, fun x hx => by
    rcases h'.2 x hx with h1 | h1
    · rcases h.2 x h1 with h2 | h2
      · exact .inl h2
      · exact .inr (h2.mono h'.1)
    · exact .inr h1⟩

theorem fold_step {cs : Concepts} {limit : Nat}
    (ih : ∀ (x : Name) (s : State), uncached cs s.cache < limit → Step cs s (tryResolve cs limit x s) ∧ Done cs (tryResolve cs limit x s) x) :
    ∀ (l : List Name) (s : State), uncached cs s.cache < limit →
      Step cs s (l.foldl (fun s y => tryResolve cs limit y s) s) ∧ ∀ y ∈ l, Done cs (l.foldl (fun s y => tryResolve cs limit y s) s) y
  | [], s, _ => ⟨⟨Le.refl s, fun _ h => .inl h⟩, fun _ h => by cases h⟩
  | y :: l, s, hs => by
    obtain ⟨h1, h2⟩ := ih y s hs
    have hs' : uncached cs (tryResolve cs limit y s).cache < limit := Nat.lt_of_le_of_lt (uncached_mono h1.1.1) hs
    obtain ⟨h3, h4⟩ := fold_step ih l _ hs'
    rw [List.foldl_cons]
    refine ⟨h1.trans h3, fun z hz => ?_⟩
    rcases List.mem_cons.1 hz with rfl | hz
    · exact h2.mono h3.1
    · exact h4 z hz

theorem tryResolve_step (cs : Concepts) : ∀ (limit : Nat) (x : Name) (s : State), uncached cs s.cache < limit →
    Step cs s (tryResolve cs limit x s) ∧ Done cs (tryResolve cs limit x s) x
  | 0, _, _, h => by omega
  | limit + 1, x, s, h => by
    rw [tryResolve]
    cases hx : find cs x with
    | none =>
      refine ⟨⟨⟨fun _ h => h, fun _ h => List.mem_append_left _ h⟩, fun _ h => .inl h⟩, .inl ⟨hx, by simp⟩⟩
    | some c =>
      simp only
      by_cases hc : x ∈ s.cache
      · rw [if_pos hc]
        exact ⟨⟨Le.refl s, fun _ h => .inl h⟩, .inr ⟨c, hx, hc⟩⟩
      · rw [if_neg hc]
        have hlt := uncached_lt hx hc
        obtain ⟨h1, h2⟩ := fold_step (tryResolve_step cs limit) c.concepts ⟨x :: s.cache, s.out ++ c.fields⟩
          (show uncached cs (x :: s.cache) < limit by omega)
        generalize c.concepts.foldl (fun s y => tryResolve cs limit y s) ⟨x :: s.cache, s.out ++ c.fields⟩ = t at h1 h2
        refine ⟨⟨⟨fun _ h => h1.1.1 (List.mem_cons_of_mem _ h), fun _ h => h1.1.2 (List.mem_append_left _ h)⟩, ?_⟩,
          .inr ⟨c, hx, h1.1.1 List.mem_cons_self⟩⟩
        intro y hy
        rcases h1.2 y hy with h3 | h3
        · rcases List.mem_cons.1 h3 with rfl | h3
          · right
            intro c' hc'
            rw [hx] at hc'; cases hc'
            exact ⟨fun z hz => h1.1.2 (List.mem_append_right _ hz), h2⟩
          · exact .inl h3
        · exact .inr h3

theorem done_resolves {cs : Concepts} {s : State} (h : ∀ x ∈ s.cache, Closed cs s x) {n x : Name} (hr : Resolves cs n x) :
    Done cs s n → x ∈ s.out := by
  induction hr with
  | itself hn =>
    rintro (⟨_, h1⟩ | ⟨c, h1, _⟩)
    · exact h1
    · rw [hn] at h1; cases h1
  | field hn hx =>
    rintro (⟨h1, _⟩ | ⟨c, h1, h2⟩)
    · rw [hn] at h1; cases h1
    · exact (h _ h2 _ hn).1 _ hx
  | nested hn hm _ ih =>
    rintro (⟨h1, _⟩ | ⟨c, h1, h2⟩)
    · rw [hn] at h1; cases h1
    · exact ih ((h _ h2 _ hn).2 _ hm)

theorem tryResolve_sound (cs : Concepts) : ∀ (limit : Nat) (x : Name) (s : State), ∀ y ∈ (tryResolve cs limit x s).out,
    y ∈ s.out ∨ Resolves cs x y
  | 0, _, _, y, h => .inl h
  | limit + 1, x, s, y, h => by
    rw [tryResolve] at h
    cases hx : find cs x with
    | none =>
      rw [hx] at h
      rcases List.mem_append.1 h with h | h
      · exact .inl h
      · simp at h; subst h; exact .inr (.itself hx)
    | some c =>
      rw [hx] at h
      simp only at h
      by_cases hc : x ∈ s.cache
      · rw [if_pos hc] at h; exact .inl h
      · rw [if_neg hc] at h
        have fold : ∀ (l : List Name) (s : State), ∀ y ∈ (l.foldl (fun s y => tryResolve cs limit y s) s).out,
            y ∈ s.out ∨ ∃ m ∈ l, Resolves cs m y := by
          intro l
          induction l with
          | nil => intro s y h; exact .inl h
          | cons z l ih =>
            intro s y h
            rw [List.foldl_cons] at h
            rcases ih _ y h with h | ⟨m, hm, h⟩
            · rcases tryResolve_sound cs limit z s y h with h | h
              · exact .inl h
              · exact .inr ⟨z, List.mem_cons_self, h⟩
            · exact .inr ⟨m, List.mem_cons_of_mem _ hm, h⟩
        rcases fold _ _ y h with h | ⟨m, hm, h⟩
        · rcases List.mem_append.1 h with h | h
          · exact .inl h
          · exact .inr (.field hx h)
        · exact .inr (.nested hx hm h)

/-! ### The log -/

theorem insertNew_cons (s : List Name) (x : Name) (xs : List Name) :
    insertNew s (x :: xs) = insertNew (if x ∈ s then s else s ++ [x]) xs := rfl

theorem mem_insertNew : ∀ (xs s : List Name) (y : Name), y ∈ insertNew s xs ↔ y ∈ s ∨ y ∈ xs
  | [], s, y => by simp [insertNew]
  | x :: xs, s, y => by
    rw [insertNew_cons, mem_insertNew]
    by_cases h : x ∈ s
    · rw [if_pos h, List.mem_cons]
      constructor
      · rintro (h | h)
        · exact .inl h
        · exact .inr (.inr h)
      · rintro (h' | rfl | h')
        · exact .inl h'
        · exact .inl h
        · exact .inr h'
    · rw [if_neg h, List.mem_append, List.mem_singleton, List.mem_cons]
      constructor
      · rintro ((h | h) | h)
        · exact .inl h
        · exact .inr (.inl h)
        · exact .inr (.inr h)
      · rintro (h | h | h)
        · exact .inl (.inl h)
        · exact .inl (.inr h)
        · exact .inr h

theorem insertNew_length (xs s : List Name) : s.length ≤ (insertNew s xs).length := by
  induction xs generalizing s with
  | nil => simp [insertNew]
  | cons x xs ih =>
    rw [insertNew_cons]
    by_cases h : x ∈ s
    · rw [if_pos h]; exact ih s
    · rw [if_neg h]; have := ih (s ++ [x]); simp at this; omega

theorem insertNew_eq (xs s : List Name) : (insertNew s xs = s) ↔ xs ⊆ s := by
  constructor
  · intro h x hx
    have := (mem_insertNew xs s x).2 (.inr hx)
    rwa [h] at this
  · intro h
    induction xs with
    | nil => rfl
    | cons x xs ih =>
      rw [insertNew_cons, if_pos (h List.mem_cons_self)]
      exact ih (fun y hy => h (List.mem_cons_of_mem _ hy))

theorem foldl_loadNamed_mono (cs : Concepts) : ∀ (l : List Name) (s : List Name × List Name), s.1 ⊆ (l.foldl (loadNamed cs) s).1
  | [], s => fun _ h => h
  | x :: l, s => by
    rw [List.foldl_cons]
    intro y hy
    apply foldl_loadNamed_mono cs l
    rw [loadNamed]
    cases find cs x with
    | none => exact hy
    | some d => exact (mem_insertNew _ _ _).2 (.inl hy)

theorem foldl_loadNamed_log (cs : Concepts) : ∀ (l : List Name) (s : List Name × List Name),
    ((l.foldl (loadNamed cs) s).1 = s.1) ↔ ∀ m ∈ l, ∀ d, find cs m = some d → d.concepts ⊆ s.1
  | [], s => by simp
  | x :: l, s => by
    rw [List.foldl_cons]
    constructor
    · intro h
      have hx : ∀ d, find cs x = some d → d.concepts ⊆ s.1 := by
        intro d hd y hy
        have := foldl_loadNamed_mono cs l (loadNamed cs s x)
        rw [h] at this
        apply this
        rw [loadNamed, hd]
        exact (mem_insertNew _ _ _).2 (.inr hy)
      have hs : (loadNamed cs s x).1 = s.1 := by
        rw [loadNamed]
        cases hd : find cs x with
        | none => rfl
        | some d => exact (insertNew_eq _ _).2 (hx d hd)
      have := (foldl_loadNamed_log cs l (loadNamed cs s x)).1 (by rw [h, hs])
      rw [hs] at this
      intro m hm d hd
      rcases List.mem_cons.1 hm with rfl | hm
      · exact hx d hd
      · exact this m hm d hd
    · intro h
      have hs : (loadNamed cs s x).1 = s.1 := by
        rw [loadNamed]
        cases hd : find cs x with
        | none => rfl
        | some d => exact (insertNew_eq _ _).2 (h x List.mem_cons_self d hd)
      rw [(foldl_loadNamed_log cs l (loadNamed cs s x)).2, hs]
      rw [hs]
      exact fun m hm => h m (List.mem_cons_of_mem _ hm)

theorem foldl_loadNamed_fields (cs : Concepts) : ∀ (l : List Name) (s : List Name × List Name) (y : Name),
    y ∈ (l.foldl (loadNamed cs) s).2 ↔ y ∈ s.2 ∨ ∃ m ∈ l, ∃ d, find cs m = some d ∧ y ∈ d.fields
  | [], s, y => by simp
  | x :: l, s, y => by
    rw [List.foldl_cons, foldl_loadNamed_fields]
    have : y ∈ (loadNamed cs s x).2 ↔ y ∈ s.2 ∨ ∃ d, find cs x = some d ∧ y ∈ d.fields := by
      rw [loadNamed]
      cases hd : find cs x with
      | none => simp
      | some d => simp [loadDefinition, mem_insertNew]
    rw [this]
    simp [or_assoc]

theorem targetFields_some {cs : Concepts} {c : Concept} :
    (targetFields cs c).isSome = true ↔ ∀ m ∈ c.concepts, ∀ e, find cs m = some e → ∀ k ∈ e.concepts, k ∈ c.concepts := by
  rw [targetFields, loadLog]
  by_cases h : ((loadDefinition c ([], [])).1.foldl (loadNamed cs) (loadDefinition c ([], []))).1 = (loadDefinition c ([], [])).1
  · rw [if_pos h]
    rw [foldl_loadNamed_log] at h
    simp only [Option.isSome_some, true_iff]
    intro m hm e he k hk
    have := h m (by rw [loadDefinition]; exact (mem_insertNew _ _ _).2 (.inr hm)) e he hk
    rw [loadDefinition] at this
    simpa [mem_insertNew] using this
  · rw [if_neg h]
    simp only [Option.isSome_none, Bool.false_eq_true, false_iff]
    intro h'
    apply h
    rw [foldl_loadNamed_log]
    intro m hm e he k hk
    rw [loadDefinition] at hm ⊢
    simp only [mem_insertNew, List.not_mem_nil, false_or] at hm ⊢
    exact h' m hm e he k hk

theorem mem_targetFields {cs : Concepts} {c : Concept} {fs : List Name} (h : targetFields cs c = some fs) (x : Name) :
    x ∈ fs ↔ FieldOf cs c x := by
  have hs : ∀ m ∈ c.concepts, ∀ e, find cs m = some e → ∀ k ∈ e.concepts, k ∈ c.concepts := by
    rw [← targetFields_some, h]; rfl
  rw [targetFields, loadLog] at h
  by_cases h' : ((loadDefinition c ([], [])).1.foldl (loadNamed cs) (loadDefinition c ([], []))).1 = (loadDefinition c ([], [])).1
  · rw [if_pos h'] at h
    cases h
    rw [foldl_loadNamed_fields]
    simp only [loadDefinition, mem_insertNew, List.not_mem_nil, false_or]
    constructor
    · rintro (h | ⟨m, hm, d, hd, h⟩)
      · exact .field h
      · exact .nested hm hd (.field h)
    · intro hf
      have aux : ∀ {d : Concept}, FieldOf cs d x → (∀ k ∈ d.concepts, k ∈ c.concepts) →
          x ∈ d.fields ∨ ∃ m ∈ c.concepts, ∃ d, find cs m = some d ∧ x ∈ d.fields := by
        clear hf
        intro d hd
        induction hd with
        | field h => exact fun _ => .inl h
        | nested hm hd _ ih =>
          intro hk
          rcases ih (fun k hk' => hs _ (hk _ hm) _ hd k hk') with h | h
          · exact .inr ⟨_, hk _ hm, _, hd, h⟩
          · exact .inr h
      exact aux hf (fun _ h => h)
  · rw [if_neg h'] at h; cases h

/-! ### The leaves of models -/

/-- `descend`, then the leaves -/
def run (models : Models) (f g : Nat) (levels : List (List Name)) : Outcome (List Name) :=
  (descend models f levels).bind (leafSeq models g)

/-- The leaves after the current one -/
def after (models : Models) (f g : Nat) (levels : List (List Name)) : Outcome (List Name) :=
  match advance levels with
  | [] => .ok []
  | l :: ls => run models f g (l :: ls)

theorem bind_assoc {α β γ : Type} (x : Outcome α) (f : α → Outcome β) (g : β → Outcome γ) :
    (x.bind f).bind g = x.bind fun a => (f a).bind g := by cases x <;> rfl

theorem leafSeq_succ (models : Models) (f : Nat) (x : Name) (rest : List Name) (more : List (List Name)) :
    leafSeq models (f + 1) ((x :: rest) :: more) = (after models f f ((x :: rest) :: more)).bind fun xs => .ok (x :: xs) := by
  rw [leafSeq, after]
  cases advance ((x :: rest) :: more) with
  | nil => rfl
  | cons l ls => simp only; rw [run, bind_assoc]

theorem run_leaf (models : Models) (f g : Nat) {x : Name} (hx : find models x = none) (rest : List Name) (more : List (List Name)) :
    run models (f + 1) (g + 1) ((x :: rest) :: more) = (after models g g ((x :: rest) :: more)).bind fun xs => .ok (x :: xs) := by
  rw [run, descend, hx, ← leafSeq_succ]
  rfl

theorem run_node (models : Models) (f g : Nat) {x : Name} {d : List Name} (hx : find models x = some d) (rest : List Name)
    (more : List (List Name)) : run models (f + 1) g ((x :: rest) :: more) = run models f g (d :: (x :: rest) :: more) := by
  rw [run, descend, hx]
  rfl

/-- For all large fuels -/
def Eventually (P : Nat → Nat → Prop) : Prop := ∃ n, ∀ f g, n ≤ f → n ≤ g → P f g

theorem after_flat (models : Models) (hne : ∀ n d, find models n = some d → d ≠ []) {xs ls : List Name} (h : Flat models xs ls) :
    ∀ (y : Name) (more : List (List Name)) (ls' : List Name), Eventually (fun f g => after models f g more = .ok ls') →
      Eventually fun f g => after models f g ((y :: xs) :: more) = .ok (ls ++ ls') := by
  induction h with
  | nil =>
    rintro y more ls' ⟨n, hn⟩
    exact ⟨n, fun f g hf hg => by
      have := hn f g hf hg
      simp only at this ⊢
      rw [List.nil_append, ← this, after, advance]; rfl⟩
  | @leaf x xs ls hx _ ih =>
    intro y more ls' hm
    obtain ⟨n, hn⟩ := ih x more ls' hm
    refine ⟨n + 1, fun f g hf hg => ?_⟩
    obtain ⟨f, rfl⟩ := Nat.exists_eq_add_of_le' hf
    obtain ⟨g, rfl⟩ := Nat.exists_eq_add_of_le' hg
    rw [after, advance]
    simp only
    have := run_leaf models (f + n) (g + n) hx xs more
    rw [Nat.add_assoc, Nat.add_assoc] at this
    rw [this, hn _ _ (Nat.le_add_left n g) (Nat.le_add_left n g)]
    rfl
  | @node x d xs ls ls'' hx _ _ ih1 ih2 =>
    intro y more ls' hm
    obtain ⟨n, hn⟩ := ih1 x ((x :: xs) :: more) _ (ih2 x more ls' hm)
    refine ⟨n + 1, fun f g hf hg => ?_⟩
    obtain ⟨f, rfl⟩ := Nat.exists_eq_add_of_le' hf
    rw [after, advance]
    simp only
    have := run_node models (f + n) g hx xs more
    rw [Nat.add_assoc] at this
    rw [this]
    have h' := hn (f + n) g (Nat.le_add_left n f) (by omega)
    cases hd : d with
    | nil => exact absurd hd (hne x d hx)
    | cons d0 ds =>
      rw [hd, after, advance] at h'
      simp only at h'
      rw [h', List.append_assoc]

end Verif.Taxonomy
