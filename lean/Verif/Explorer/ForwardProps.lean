import Verif.Explorer.Lemmas
/-!
C91: what exploration delivers.
-/
namespace Verif.Explorer
open Verif.Slice Verif.Bitmap Verif.Bitmap.Spec Verif.Explorer.Spec

variable {R : Type}

theorem firsts_append (seen seen' : List Nat) : ∀ (a b : List (R × Nat)), (∀ id, id ∈ seen' ↔ id ∈ seen ∨ ∃ e ∈ a, e.2 = id) →
    firsts seen (a ++ b) = firsts seen a ++ firsts seen' b := by
  have congr : ∀ (b : List (R × Nat)) (x y : List Nat), (∀ id, id ∈ x ↔ id ∈ y) → firsts x b = firsts y b := by
    intro b
    induction b with
    | nil => intro _ _ _; rfl
    | cons e es ih =>
      intro x y h
      simp only [firsts, h]
      split
      · exact ih x y h
      · congr 1; exact ih _ _ fun id => by simp [h]
  intro a
  induction a generalizing seen with
  | nil => intro b h; simp only [List.nil_append, firsts]; exact congr b seen seen' fun id => by simp [h]
  | cons e es ih =>
    intro b h
    simp only [List.cons_append, firsts]
    by_cases hm : e.2 ∈ seen
    · rw [if_pos hm, if_pos hm]
      refine ih seen b fun id => ?_
      rw [h]
      constructor
      · rintro (h' | ⟨x, hx, rfl⟩)
        · exact .inl h'
        · rcases List.mem_cons.mp hx with rfl | hx
          · exact .inl hm
          · exact .inr ⟨x, hx, rfl⟩
      · rintro (h' | ⟨x, hx, rfl⟩)
        · exact .inl h'
        · exact .inr ⟨x, by simp [hx], rfl⟩
    · rw [if_neg hm, if_neg hm, List.cons_append]
      congr 1
      refine ih (e.2 :: seen) b fun id => ?_
      rw [h]
      constructor
      · rintro (h' | ⟨x, hx, rfl⟩)
        · exact .inl (by simp [h'])
        · rcases List.mem_cons.mp hx with rfl | hx
          · exact .inl (by simp)
          · exact .inr ⟨x, hx, rfl⟩
      · rintro (h' | ⟨x, hx, rfl⟩)
        · rcases List.mem_cons.mp h' with rfl | h'
          · exact .inr ⟨e, by simp, rfl⟩
          · exact .inl h'
        · exact .inr ⟨x, by simp [hx], rfl⟩

theorem mem_ids {s : Slice R} (id : Nat) : (∃ e ∈ s.events, e.2 = id) ↔ s.offset ≤ id ∧ id < s.offset + s.rows.length := by
  constructor
  · rintro ⟨e, he, rfl⟩; exact mem_events_range he
  · intro h; obtain ⟨r, hr⟩ := id_mem_events h; exact ⟨_, hr, rfl⟩

theorem forwardAll_firsts (total : Nat) : ∀ (ss : List (Slice R)) (st : Forward), (∀ s ∈ ss, s.rows ≠ [] ∧ s.offset + s.rows.length < 2 ^ 64) →
    (∀ (i : Nat) s, ss[i]? = some s → s.rows.length ≤ s.offset ∨ ∀ e ∈ s.events, e.2 ∉ st.returned ∧ ∀ t ∈ ss.take i, ∀ e' ∈ t.events, e'.2 ≠ e.2) →
    ∃ st' out, forwardAll total st ss = some (st', out)
      ∧ out.flatMap Slice.events = (firsts st.returned (ss.flatMap Slice.events)).take (total - st.numSent)
  | [], st, _, _ => ⟨st, [], rfl, by simp [firsts]⟩
  | s :: ss, st, h, hd => by
    obtain ⟨h1, h2⟩ := h s (by simp)
    obtain ⟨st', out, cand, e1, e2, e3, e4, _, e6⟩ := forward_spec total st s h1 h2
    have hc : cand = firsts st.returned s.events := by
      rw [filter_new _ _ (events_sorted s)]
      apply e6
      rcases hd 0 s rfl with h' | h'
      · exact .inl h'
      · exact .inr fun e he => (h' e he).1
    have hmem : ∀ id, id ∈ st'.returned ↔ id ∈ st.returned ∨ ∃ e ∈ s.events, e.2 = id := by intro id; rw [e4, mem_ids]
    obtain ⟨st'', out', f1, f2⟩ := forwardAll_firsts total ss st' (fun t ht => h t (by simp [ht])) (by
      intro i t ht
      rcases hd (i + 1) t (by simpa using ht) with h' | h'
      · exact .inl h'
      · refine .inr fun e he => ?_
        obtain ⟨a, b⟩ := h' e he
        refine ⟨fun hm => ?_, fun t' ht' => b t' (by simp [ht'])⟩
        rcases (hmem _).mp hm with h'' | ⟨e', he', h''⟩
        · exact a h''
        · exact b s (by simp) e' he' h'')
    refine ⟨st'', out ++ out', by rw [forwardAll, e1]; simp only; rw [f1]; rfl, ?_⟩
    rw [List.flatMap_append, f2, e2, hc, List.flatMap_cons, firsts_append st.returned st'.returned _ _ hmem, List.take_append]
    congr 2
    rw [e3, e2, hc, List.length_take]
    omega

/-- The first events are sent, up to the limit, each once, in their order: if the slices do not start at the first events of
the archive (their first ID is at least their number of rows), or have no event that came before. -/
theorem C91_once_partial (total : Nat) (ss : List (Slice R)) (h : ∀ s ∈ ss, s.rows ≠ [] ∧ s.offset + s.rows.length < 2 ^ 64)
    (hd : ∀ (i : Nat) s, ss[i]? = some s → s.rows.length ≤ s.offset ∨ ∀ e ∈ Slice.Spec.events s, ∀ t ∈ ss.take i, ∀ e' ∈ Slice.Spec.events t, e'.2 ≠ e.2) :
    ∃ st out, forwardAll total ⟨[], 0⟩ ss = some (st, out)
      ∧ out.flatMap Slice.Spec.events = (firsts [] (ss.flatMap Slice.Spec.events)).take total := by
  obtain ⟨st, out, h1, h2⟩ := forwardAll_firsts total ss ⟨[], 0⟩ h (by
    intro i s hs
    rcases hd i s hs with h' | h'
    · exact .inl h'
    · exact .inr fun e he => ⟨by simp, h' e he⟩)
  exact ⟨st, out, h1, h2⟩

/-- Overlapping slices and a limit: events 10 to 12, 11 to 14, of which three are to be sent. -/
example : let ss : List (Slice Char) := [⟨10, ['a', 'b', 'c']⟩, ⟨11, ['b', 'c', 'd', 'e']⟩]
    (∀ s ∈ ss, s.rows ≠ [] ∧ s.offset + s.rows.length < 2 ^ 64) ∧ (∀ s ∈ ss, s.rows.length ≤ s.offset)
    ∧ (firsts [] (ss.flatMap Slice.Spec.events)).take 4 = [('a', 10), ('b', 11), ('c', 12), ('d', 13)] := by decide

theorem forwardAll_sent (total : Nat) : ∀ (ss : List (Slice R)) (st : Forward), (∀ s ∈ ss, s.rows ≠ [] ∧ s.offset + s.rows.length < 2 ^ 64) →
    ∃ st' out, forwardAll total st ss = some (st', out) ∧ st'.numSent = st.numSent + (out.flatMap Slice.events).length
      ∧ (out.flatMap Slice.events).length ≤ total - st.numSent
      ∧ (∀ e ∈ out.flatMap Slice.events, e ∈ ss.flatMap Slice.events)
      ∧ (st.numSent + (ss.map fun s => s.rows.length).sum ≤ total →
          ∀ e ∈ ss.flatMap Slice.events, e.2 ∈ st.returned ∨ ∃ e' ∈ out.flatMap Slice.events, e'.2 = e.2)
  | [], st, _ => ⟨st, [], rfl, by simp, by simp, by simp, by simp⟩
  | s :: ss, st, h => by
    obtain ⟨h1, h2⟩ := h s (by simp)
    obtain ⟨st', out, cand, e1, e2, e3, e4, e5, _⟩ := forward_spec total st s h1 h2
    obtain ⟨st'', out', f1, f2, f3, f4, f5⟩ := forwardAll_sent total ss st' fun t ht => h t (by simp [ht])
    have hsub : ∀ e ∈ cand, e ∈ s.events := by
      rcases e5 with rfl | rfl
      · intro e he; exact (List.mem_filter.mp he).1
      · exact fun _ he => he
    have hlen : cand.length ≤ s.rows.length := by
      rw [← events_length]
      rcases e5 with rfl | rfl
      · exact List.length_filter_le _ _
      · omega
    have hol : (out.flatMap Slice.events).length ≤ total - st.numSent := by rw [e2, List.length_take]; omega
    refine ⟨st'', out ++ out', by rw [forwardAll, e1]; simp only; rw [f1]; rfl, ?_, ?_, ?_, ?_⟩
    · rw [f2, e3, List.flatMap_append, List.length_append]; omega
    · rw [List.flatMap_append, List.length_append]; omega
    · intro e he
      rw [List.flatMap_append, List.mem_append] at he
      rw [List.flatMap_cons, List.mem_append]
      rcases he with he | he
      · rw [e2] at he
        exact .inl (hsub e (List.mem_of_mem_take he))
      · exact .inr (f4 e he)
    · intro ht e he
      rw [List.map_cons, List.sum_cons] at ht
      have htake : out.flatMap Slice.events = cand := by rw [e2]; exact List.take_of_length_le (by omega)
      have hfst : ∀ x ∈ s.events, x.2 ∈ st.returned ∨ ∃ e' ∈ out.flatMap Slice.events, e'.2 = x.2 := by
        intro x hx
        by_cases hm : x.2 ∈ st.returned
        · exact .inl hm
        · right
          rw [htake]
          rcases e5 with rfl | rfl
          · exact ⟨x, List.mem_filter.mpr ⟨hx, by simpa using hm⟩, rfl⟩
          · exact ⟨x, hx, rfl⟩
      rw [List.flatMap_append]
      rw [List.flatMap_cons, List.mem_append] at he
      have lift : ∀ id, (∃ e' ∈ out.flatMap Slice.events, e'.2 = id) → ∃ e' ∈ out.flatMap Slice.events ++ out'.flatMap Slice.events, e'.2 = id := by
        rintro id ⟨e', h, rfl⟩; exact ⟨e', by simp [h], rfl⟩
      rcases he with he | he
      · rcases hfst e he with h' | h'
        · exact .inl h'
        · exact .inr (lift _ h')
      · have hn : st'.numSent ≤ st.numSent + s.rows.length := by rw [e3, htake]; omega
        rcases f5 (by omega) e he with h' | ⟨e', h', h''⟩
        · rw [e4, ← mem_ids] at h'
          rcases h' with h' | ⟨x, hx, hx'⟩
          · exact .inl h'
          · rcases hfst x hx with h'' | h''
            · rw [hx'] at h''; exact .inl h''
            · rw [hx'] at h''; exact .inr (lift _ h'')
        · exact .inr ⟨e', by simp [h'], h''⟩

/-- Never more events than the limit are sent, and only events that some query delivered. -/
theorem C91_limit (total : Nat) (ss : List (Slice R)) (h : ∀ s ∈ ss, s.rows ≠ [] ∧ s.offset + s.rows.length < 2 ^ 64) :
    ∃ st out, forwardAll total ⟨[], 0⟩ ss = some (st, out) ∧ (out.flatMap Slice.Spec.events).length ≤ total
      ∧ ∀ e ∈ out.flatMap Slice.Spec.events, e ∈ ss.flatMap Slice.Spec.events := by
  obtain ⟨st, out, h1, _, h3, h4, _⟩ := forwardAll_sent total ss ⟨[], 0⟩ h
  exact ⟨st, out, h1, h3, h4⟩

/-- Nothing is lost as long as the limit is not reached. -/
theorem C91_complete (total : Nat) (ss : List (Slice R)) (h : ∀ s ∈ ss, s.rows ≠ [] ∧ s.offset + s.rows.length < 2 ^ 64)
    (ht : (ss.map fun s => s.rows.length).sum ≤ total) :
    ∃ st out, forwardAll total ⟨[], 0⟩ ss = some (st, out)
      ∧ ∀ e ∈ ss.flatMap Slice.Spec.events, ∃ e' ∈ out.flatMap Slice.Spec.events, e'.2 = e.2 := by
  obtain ⟨st, out, h1, _, _, _, h5⟩ := forwardAll_sent total ss ⟨[], 0⟩ h
  refine ⟨st, out, h1, fun e he => ?_⟩
  rcases h5 (by simpa using ht) e he with h' | h'
  · simp at h'
  · exact h'

/-- The code compares the size of the set of new IDs, that is the last new ID plus one, with the number of rows: at the
beginning of the archive, events are sent twice. -/
theorem C91_duplicate_refuted :
    ∃ ss : List (Slice Char), ss = [⟨0, ['a']⟩, ⟨0, ['a', 'b']⟩]
      ∧ (forwardAll 100 ⟨[], 0⟩ ss).map (·.2) = some [⟨0, ['a']⟩, ⟨0, ['a', 'b']⟩]
      ∧ firsts [] (ss.flatMap Slice.Spec.events) = [('a', 0), ('b', 1)] :=
  ⟨_, rfl, by decide +kernel, by decide⟩

/-- The same happens for slices that start later: event 3 is sent twice. -/
theorem C91_again_refuted :
    (forwardAll 100 ⟨[], 0⟩ [⟨3, ['c']⟩, ⟨1, ['a', 'b', 'c']⟩]).map (·.2) = some [⟨3, ['c']⟩, ⟨1, ['a', 'b', 'c']⟩] := by
  decide +kernel

/-- A limit of zero is documented to mean no limit (vast/defaults.hpp:77), but nothing is sent. -/
theorem C91_zero_refuted : (forwardAll 0 ⟨[], 0⟩ [⟨3, ['c']⟩, ⟨7, ['a', 'b']⟩]).map (·.2) = some [] := by decide +kernel

end Verif.Explorer
