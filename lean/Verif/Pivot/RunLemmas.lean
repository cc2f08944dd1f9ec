import Verif.Pivot.Lemmas
/-! Helper lemmas about the messages to a pivoter. -/
namespace Verif.Pivot
open Verif.Types Verif.Types.Spec Verif.Data
open Spec (Batch)

variable {τ : Type} [DecidableEq τ]

/-- What `common_field` finds without its cache. -/
def computed (target name : Name) (fs : Fields τ) : Option Name :=
  if fs.toList.any fun f => f.1 == edge target name then some (edge target name) else none

/-- All entries of the cache are right. -/
def CacheOk (target : Name) (c : List ((Name × Fields τ) × Option Name)) : Prop := ∀ e ∈ c, e.2 = computed target e.1.1 e.1.2

theorem commonField_ok {target : Name} {c : List ((Name × Fields τ) × Option Name)} (h : CacheOk target c) (name : Name) (fs : Fields τ) :
    (commonField target c name fs).1 = computed target name fs ∧ CacheOk target (commonField target c name fs).2 := by
  rw [commonField]
  split
  · rename_i e he
    have h1 := List.find?_some he
    simp at h1
    have h2 := h e (List.mem_of_find?_eq_some he)
    rw [h1] at h2
    exact ⟨h2, h⟩
  · refine ⟨rfl, fun e he => ?_⟩
    rcases List.mem_cons.mp he with rfl | he
    · rfl
    · exact h e he

theorem edge_link (target name : Name) : Spec.Link target name (edge target name) := by
  rw [edge]
  split
  · rename_i h; simp [List.isPrefixOf_iff_prefix] at h; exact .inl ⟨h.1, h.2, rfl⟩
  · rename_i h
    simp [List.isPrefixOf_iff_prefix] at h
    exact .inr ⟨fun h' => h h'.1 h'.2, rfl⟩

theorem link_edge {target name f : Name} (h : Spec.Link target name f) : f = edge target name := by
  rcases h with ⟨h1, h2, rfl⟩ | ⟨h, rfl⟩
  · rw [edge, if_pos (by simp [List.isPrefixOf_iff_prefix, h1, h2])]
  · rw [edge, if_neg (by simpa [List.isPrefixOf_iff_prefix] using h)]

theorem computed_some {target name : Name} {fs : Fields τ} {f : Name} (h : computed target name fs = some f) :
    f = edge target name ∧ ∃ t, (f, t) ∈ fs.toList := by
  rw [computed] at h
  split at h
  · rename_i ha
    cases h
    refine ⟨rfl, ?_⟩
    rw [List.any_eq_true] at ha
    obtain ⟨⟨n, t⟩, h1, h2⟩ := ha
    simp at h2
    exact ⟨t, h2 ▸ h1⟩
  · cases h

theorem computed_none {target name : Name} {fs : Fields τ} (h : computed target name fs = none) (t : Ty τ) :
    (edge target name, t) ∉ fs.toList := by
  intro hm
  rw [computed, if_pos] at h
  · cases h
  · rw [List.any_eq_true]; exact ⟨_, hm, by simp⟩

/-- What happens on a slice. -/
theorem onSlice_cases {target : Name} {s : State τ} {b : Batch τ} {s' : State τ} {q : List Query} (hc : CacheOk target s.cache)
    (h : onSlice target s b = some (s', q)) :
    CacheOk target s'.cache ∧ s'.completed = s.completed ∧ s'.quit = s.quit
    ∧ ((q = [] ∧ s'.running = s.running ∧ s'.requested = s.requested ∧ computed target b.name b.fields = none)
      ∨ ∃ f k, computed target b.name b.fields = some f ∧ column b.name b.fields f = some k
          ∧ s'.requested = (collect s.requested (cells b k)).2
          ∧ (((collect s.requested (cells b k)).1 = [] ∧ q = [] ∧ s'.running = s.running)
            ∨ (collect s.requested (cells b k)).1 ≠ [] ∧ q = [⟨f, (collect s.requested (cells b k)).1⟩] ∧ s'.running = s.running + 1)) := by
  obtain ⟨h1, h2⟩ := commonField_ok hc b.name b.fields
  simp only [onSlice] at h
  rw [h1] at h
  cases hf : computed target b.name b.fields with
  | none =>
    rw [hf] at h
    simp at h
    obtain ⟨rfl, rfl⟩ := h
    exact ⟨h2, rfl, rfl, .inl ⟨rfl, rfl, rfl, rfl⟩⟩
  | some f =>
    rw [hf] at h
    simp only at h
    cases hk : column b.name b.fields f with
    | none => rw [hk] at h; simp at h
    | some k =>
      rw [hk] at h
      simp only at h
      split at h
      · rename_i he
        simp at h he
        obtain ⟨rfl, rfl⟩ := h
        exact ⟨h2, rfl, rfl, .inr ⟨f, k, rfl, hk, rfl, .inl ⟨he, rfl, rfl⟩⟩⟩
      · rename_i he
        simp at h he
        obtain ⟨rfl, rfl⟩ := h
        exact ⟨h2, rfl, rfl, .inr ⟨f, k, rfl, hk, rfl, .inr ⟨he, rfl, rfl⟩⟩⟩

theorem quitIfDone_same (s : State τ) :
    (quitIfDone s).cache = s.cache ∧ (quitIfDone s).requested = s.requested ∧ (quitIfDone s).completed = s.completed
    ∧ (quitIfDone s).running = s.running ∧ ((quitIfDone s).quit = true ↔ s.quit = true ∨ (s.completed = true ∧ s.running = 0)) := by
  rw [quitIfDone]
  split
  · rename_i h; exact ⟨rfl, rfl, rfl, rfl, by simp [h]⟩
  · rename_i h; exact ⟨rfl, rfl, rfl, rfl, ⟨.inl, fun h' => h'.elim id fun h' => absurd h' h⟩⟩

/-- Messages that are not slices ask for nothing. -/
theorem step_other {target : Name} {s : State τ} {m : Msg τ} {s' : State τ} {q : List Query}
    (hm : s.quit = true ∨ ∀ b, m ≠ .slice b) (h : step target s m = some (s', q)) :
    q = [] ∧ s'.cache = s.cache ∧ s'.requested = s.requested := by
  rw [step.eq_def] at h
  cases hq : s.quit with
  | true => rw [hq] at h; simp at h; obtain ⟨rfl, rfl⟩ := h; exact ⟨rfl, rfl, rfl⟩
  | false =>
    rw [if_neg (by rw [hq]; simp)] at h
    cases m with
    | slice b => exact absurd rfl (hm.elim (fun h => by rw [hq] at h; cases h) (fun h => h b))
    | spawned => simp at h; obtain ⟨rfl, rfl⟩ := h; exact ⟨rfl, rfl, rfl⟩
    | failed => simp at h; obtain ⟨rfl, rfl⟩ := h; exact ⟨rfl, rfl, rfl⟩
    | down => simp at h; obtain ⟨rfl, rfl⟩ := h; exact ⟨rfl, (quitIfDone_same _).1, (quitIfDone_same _).2.1⟩
    | status => simp at h; obtain ⟨rfl, rfl⟩ := h; exact ⟨rfl, (quitIfDone_same _).1, (quitIfDone_same _).2.1⟩

theorem step_slice {target : Name} {s : State τ} {b : Batch τ} (hq : s.quit = false) : step target s (.slice b) = onSlice target s b := by
  simp [step, hq]

/-- What one message adds. -/
theorem step_adds {target : Name} {s : State τ} {m : Msg τ} {s' : State τ} {q : List Query} (hc : CacheOk target s.cache)
    (h : step target s m = some (s', q)) :
    CacheOk target s'.cache
    ∧ (∀ x, x ∈ s'.requested ↔ x ∈ s.requested ∨ x ∈ q.flatMap (·.ids))
    ∧ (q.flatMap (·.ids)).Nodup ∧ (∀ x ∈ q.flatMap (·.ids), x ∉ s.requested)
    ∧ ∀ e ∈ q, e.ids ≠ [] ∧ ∃ b k, m = .slice b ∧ computed target b.name b.fields = some e.field
        ∧ column b.name b.fields e.field = some k ∧ ∀ x ∈ e.ids, .string x ∈ cells b k := by
  by_cases hm : s.quit = true ∨ ∀ b, m ≠ .slice b
  · obtain ⟨rfl, h1, h2⟩ := step_other hm h
    exact ⟨h1 ▸ hc, by simp [h2], by simp, by simp, by simp⟩
  · simp at hm
    obtain ⟨hq, b, rfl⟩ := hm
    rw [step_slice hq] at h
    obtain ⟨h1, _, _, h2⟩ := onSlice_cases hc h
    refine ⟨h1, ?_⟩
    rcases h2 with ⟨rfl, _, h2, _⟩ | ⟨f, k, h2, h3, h4, h5⟩
    · exact ⟨by simp [h2], by simp, by simp, by simp⟩
    · obtain ⟨c1, c2, c3, c4⟩ := collect_spec (cells b k) s.requested
      rcases h5 with ⟨h5, rfl, _⟩ | ⟨h5, rfl, _⟩
      · exact ⟨by simp [h4, c1, h5], by simp, by simp, by simp⟩
      · refine ⟨by simp [h4, c1, or_comm], by simpa using c2, by simpa using fun x hx => (c3 x hx).1, fun e he => ?_⟩
        simp at he
        subst he
        exact ⟨h5, b, k, rfl, h2, h3, fun x hx => (c3 x hx).2⟩

theorem run_cons {target : Name} {s : State τ} {m : Msg τ} {ms : List (Msg τ)} {s' : State τ} {out : List Query}
    (h : run target s (m :: ms) = some (s', out)) :
    ∃ s1 q qs, step target s m = some (s1, q) ∧ run target s1 ms = some (s', qs) ∧ out = q ++ qs := by
  rw [run] at h
  cases h1 : step target s m with
  | none => rw [h1] at h; cases h
  | some x =>
    obtain ⟨s1, q⟩ := x
    rw [h1] at h
    simp only at h
    cases h2 : run target s1 ms with
    | none => rw [h2] at h; cases h
    | some y =>
      obtain ⟨s2, qs⟩ := y
      rw [h2] at h
      simp at h
      exact ⟨s1, q, qs, rfl, by rw [h2, h.1], h.2.symm⟩

/-- What all messages add. -/
theorem run_adds {target : Name} (ms : List (Msg τ)) : ∀ {s s' : State τ} {out : List Query}, CacheOk target s.cache →
    run target s ms = some (s', out) →
    (∀ x, x ∈ s'.requested ↔ x ∈ s.requested ∨ x ∈ out.flatMap (·.ids))
    ∧ (out.flatMap (·.ids)).Nodup ∧ (∀ x ∈ out.flatMap (·.ids), x ∉ s.requested)
    ∧ ∀ e ∈ out, e.ids ≠ [] ∧ ∃ b k, .slice b ∈ ms ∧ computed target b.name b.fields = some e.field
        ∧ column b.name b.fields e.field = some k ∧ ∀ x ∈ e.ids, .string x ∈ cells b k := by
  induction ms with
  | nil => intro s s' out _ h; simp [run] at h; obtain ⟨rfl, rfl⟩ := h; simp
  | cons m ms ih =>
    intro s s' out hc h
    obtain ⟨s1, q, qs, h1, h2, rfl⟩ := run_cons h
    obtain ⟨a0, a1, a2, a3, a4⟩ := step_adds hc h1
    obtain ⟨b1, b2, b3, b4⟩ := ih a0 h2
    refine ⟨fun x => ?_, ?_, fun x hx => ?_, fun e he => ?_⟩
    · rw [b1, a1, List.flatMap_append, List.mem_append, or_assoc]
    · rw [List.flatMap_append, List.nodup_append]
      exact ⟨a2, b2, fun x hx y hy e => b3 y hy ((a1 y).mpr (.inr (e ▸ hx)))⟩
    · rw [List.flatMap_append, List.mem_append] at hx
      rcases hx with hx | hx
      · exact a3 x hx
      · exact fun hr => b3 x hx ((a1 x).mpr (.inl hr))
    · rcases List.mem_append.mp he with he | he
      · obtain ⟨e1, b, k, rfl, e2⟩ := a4 e he
        exact ⟨e1, b, k, by simp, e2⟩
      · obtain ⟨e1, b, k, e2, e3⟩ := b4 e he
        exact ⟨e1, b, k, List.mem_cons_of_mem _ e2, e3⟩

theorem mem_cells {b : Batch τ} {k : Nat} {v : Str} (h : .string v ∈ cells b k) : ∃ row ∈ b.rows, row[k]? = some (.string v) := by
  rw [cells, List.mem_map] at h
  obtain ⟨row, h1, h2⟩ := h
  refine ⟨row, h1, ?_⟩
  rw [List.getD_eq_getElem?_getD] at h2
  cases hk : row[k]? with
  | none => rw [hk] at h2; cases h2
  | some d => rw [hk] at h2; simp at h2; rw [h2]

theorem cells_mem {b : Batch τ} {k : Nat} {v : Str} {row : List Data} (h : row ∈ b.rows) (h' : row[k]? = some (.string v)) :
    .string v ∈ cells b k := by
  rw [cells, List.mem_map]
  exact ⟨row, h, by rw [List.getD_eq_getElem?_getD, h']; rfl⟩

/-- Whatever is collected from the column of the link field is a value of it. -/
theorem has_of_cells {b : Batch τ} {f : Name} (hf : 46 ∉ f) (hc : Spec.Clear b f) (ht : Spec.HasTop b f) {k : Nat}
    (hk : column b.name b.fields f = some k) (v : Str) : .string v ∈ cells b k ↔ Spec.Has b f v := by
  obtain ⟨k', h1, h2⟩ := column_clear b f hf hc ht
  rw [hk] at h1
  cases h1
  obtain ⟨l, hl, _⟩ := column_some b f hf k hk
  constructor
  · intro h
    obtain ⟨row, h3, h4⟩ := mem_cells h
    exact ⟨k, l, hl, (h2 k l hl).mpr rfl, row, h3, h4⟩
  · rintro ⟨i, l', h3, h4, row, h5, h6⟩
    have := (h2 i l' h3).mp h4
    subst this
    exact cells_mem h5 h6

theorem has_top {b : Batch τ} {f : Name} {v : Str} (h : Spec.Has b f v) : Spec.HasTop b f := by
  obtain ⟨i, l, h1, h2, _⟩ := h
  have h3 := leaves_hasField b.fields l (List.mem_of_getElem? h1)
  rw [h2] at h3
  obtain ⟨x, _, hx⟩ := hasField_one h3
  exact ⟨_, List.mem_of_getElem? hx⟩

/-- No results after the final status. -/
def NoLate (ms : List (Msg τ)) : Prop := ∀ pre b post, ms = pre ++ .slice b :: post → .status ∉ pre

theorem noLate_cons {m : Msg τ} {ms : List (Msg τ)} (h : NoLate (m :: ms)) : NoLate ms := fun pre b post e hs =>
  h (m :: pre) b post (by rw [e]; rfl) (List.mem_cons_of_mem _ hs)

theorem noLate_status {ms : List (Msg τ)} (h : NoLate (.status :: ms)) (b : Batch τ) : .slice b ∉ ms := fun hm => by
  obtain ⟨pre, post, e⟩ := List.append_of_mem hm
  exact h (.status :: pre) b post (by rw [e]; rfl) (by simp)

theorem step_completed {target : Name} {s : State τ} {m : Msg τ} {s' : State τ} {q : List Query} (hc : CacheOk target s.cache)
    (hq : s.quit = true → s.completed = true) (h : step target s m = some (s', q)) :
    (s'.quit = true → s'.completed = true) ∧ (s'.completed = true → s.completed = true ∨ m = .status) := by
  rw [step.eq_def] at h
  cases hq' : s.quit with
  | true => rw [hq'] at h; simp at h; obtain ⟨rfl, rfl⟩ := h; exact ⟨hq, .inl⟩
  | false =>
    rw [if_neg (by rw [hq']; simp)] at h
    cases m with
    | slice b =>
      obtain ⟨_, h1, h2, _⟩ := onSlice_cases hc h
      exact ⟨fun h => by (rw [h2, hq'] at h; cases h), fun h => by rw [h1] at h; exact .inl h⟩
    | spawned => simp at h; obtain ⟨rfl, rfl⟩ := h; exact ⟨hq, .inl⟩
    | failed => simp at h; obtain ⟨rfl, rfl⟩ := h; exact ⟨hq, .inl⟩
    | down =>
      simp at h
      obtain ⟨rfl, rfl⟩ := h
      obtain ⟨_, _, h1, _, h2⟩ := quitIfDone_same { s with running := s.running - 1 }
      refine ⟨fun h => ?_, fun h => .inl (by rw [h1] at h; exact h)⟩
      rw [h1]
      rcases h2.mp h with h | h
      · exact hq h
      · exact h.1
    | status =>
      simp at h
      obtain ⟨rfl, rfl⟩ := h
      obtain ⟨_, _, h1, _, h2⟩ := quitIfDone_same { s with completed := true }
      exact ⟨fun _ => by rw [h1], fun _ => .inr rfl⟩

/-- Nothing is missed. -/
theorem run_covers {target : Name} (ms : List (Msg τ)) : ∀ {s s' : State τ} {out : List Query}, CacheOk target s.cache →
    (s.quit = true → s.completed = true) → (s.completed = true → ∀ b, .slice b ∉ ms) → NoLate ms →
    run target s ms = some (s', out) →
    ∀ b, .slice b ∈ ms → ∀ f k, computed target b.name b.fields = some f → column b.name b.fields f = some k →
      ∀ x, .string x ∈ cells b k → x ∈ s'.requested := by
  induction ms with
  | nil => intro s s' out _ _ _ _ _ b hb; simp at hb
  | cons m ms ih =>
    intro s s' out hc hq hl hn h b hb f k hf hk x hx
    obtain ⟨s1, q, qs, h1, h2, rfl⟩ := run_cons h
    obtain ⟨a0, a1, _⟩ := step_adds hc h1
    obtain ⟨c1, c2⟩ := step_completed hc hq h1
    rcases List.mem_cons.mp hb with rfl | hb
    · refine ((run_adds ms a0 h2).1 x).mpr (.inl ?_)
      have hq' : s.quit = false := by
        cases hqq : s.quit with
        | false => rfl
        | true => exact absurd (by simp) (hl (hq hqq) b)
      rw [step_slice hq'] at h1
      obtain ⟨_, _, _, h3⟩ := onSlice_cases hc h1
      rcases h3 with ⟨_, _, _, h3⟩ | ⟨f', k', h3, h4, h5, _⟩
      · rw [hf] at h3; cases h3
      · rw [hf] at h3
        cases h3
        rw [hk] at h4
        cases h4
        obtain ⟨d1, _, _, d4⟩ := collect_spec (cells b k) s.requested
        rw [h5, d1]
        rcases d4 x hx with h | h
        · simp [h]
        · simp [h]
    · refine ih a0 c1 (fun hcomp b' hb' => ?_) (noLate_cons hn) h2 b hb f k hf hk x hx
      rcases c2 hcomp with h | rfl
      · exact hl h b' (List.mem_cons_of_mem _ hb')
      · exact noLate_status hn b' hb'

/-- With clear names there is always a column. -/
theorem run_ok {target : Name} (ms : List (Msg τ)) (hclear : ∀ b, .slice b ∈ ms → ∀ f, Spec.Link target b.name f → Spec.Clear b f) :
    ∀ {s : State τ}, CacheOk target s.cache → ∃ s' out, run target s ms = some (s', out) := by
  induction ms with
  | nil => intro s _; exact ⟨s, [], rfl⟩
  | cons m ms ih =>
    intro s hc
    have : ∃ s1 q, step target s m = some (s1, q) := by
      rw [step.eq_def]
      cases hq : s.quit with
      | true => exact ⟨_, _, rfl⟩
      | false =>
        rw [if_neg (by simp)]
        cases m with
        | slice b =>
          simp only [onSlice]
          rw [(commonField_ok hc b.name b.fields).1]
          cases hf : computed target b.name b.fields with
          | none => exact ⟨_, _, rfl⟩
          | some f =>
            obtain ⟨rfl, ht⟩ := computed_some hf
            obtain ⟨k, hk, _⟩ := column_clear b _ (edge_nodot target b.name) (hclear b (by simp) _ (edge_link _ _)) ht
            simp only [hk]
            split
            · exact ⟨_, _, rfl⟩
            · exact ⟨_, _, rfl⟩
        | _ => exact ⟨_, _, rfl⟩
    obtain ⟨s1, q, h1⟩ := this
    obtain ⟨s', qs, h2⟩ := ih (fun b hb => hclear b (List.mem_cons_of_mem _ hb)) (step_adds hc h1).1
    exact ⟨s', q ++ qs, by rw [run, h1]; simp only [h2]⟩

theorem run_append {target : Name} (a : List (Msg τ)) : ∀ {s : State τ} (b : List (Msg τ)),
    run target s (a ++ b) = match run target s a with
      | none => none
      | some (s', q) => match run target s' b with
        | none => none
        | some (s'', qs) => some (s'', q ++ qs) := by
  induction a with
  | nil => intro s b; simp only [List.nil_append, run]; cases run target s b <;> rfl
  | cons m a ih =>
    intro s b
    simp only [List.cons_append, run]
    cases step target s m with
    | none => rfl
    | some x =>
      obtain ⟨s1, q⟩ := x
      simp only [ih]
      cases run target s1 a with
      | none => rfl
      | some y =>
        obtain ⟨s2, qs⟩ := y
        simp only
        cases run target s2 b with
        | none => rfl
        | some z => simp [List.append_assoc]

end Verif.Pivot
