import Verif.Cache.Spec

/-!
# Helper lemmas for `flat_lru_cache`
-/

namespace Verif.Cache.Flat

variable {K T : Type} [DecidableEq K]

/-- The invariant. -/
structure Inv (key : T → K) (c : Flat T) : Prop where
  keys : c.elements.Pairwise fun a b => key a ≠ key b
  bound : c.elements.length ≤ c.size
  pos : 0 < c.size

theorem add_spec {c : Flat T} (hb : c.elements.length ≤ c.size) (hp : 0 < c.size) (t : T) :
    ∃ c', c.add t = some (t, c') ∧ c'.size = c.size ∧ c'.elements.reverse = (t :: c.elements.reverse).take c.size := by
  obtain ⟨xs, n⟩ := c
  simp only at hb hp
  rw [add]
  simp only
  split
  · next h =>
    refine ⟨_, rfl, rfl, ?_⟩
    rw [List.take_of_length_le (by simp only [List.length_cons, List.length_reverse]; omega)]
    simp
  · next h =>
    cases xs with
    | nil => simp only [List.length_nil] at h; omega
    | cons x xs =>
      have hn : n = xs.length + 1 := by simp only [List.length_cons] at h hb; omega
      refine ⟨⟨xs ++ [t], n⟩, ?_, rfl, ?_⟩
      · simp [rotateFrom]
      · subst hn
        simp

theorem filter_ne_of_absent {key : T → K} {l : List T} {k : K} (h : ∀ x ∈ l, key x ≠ k) : (l.filter fun t => key t != k) = l := by
  rw [List.filter_eq_self]
  intro x hx
  simpa using h x hx

/-- A list with one element of the key. -/
theorem split_at {key : T → K} {l : List T} (hk : l.Pairwise fun a b => key a ≠ key b) {k : K} {i : Nat}
    (hi : l.findIdx? (fun t => key t == k) = some i) :
    ∃ x, l = l.take i ++ x :: l.drop (i + 1) ∧ key x = k ∧ (l.filter fun t => key t != k) = l.take i ++ l.drop (i + 1) ∧
      l.reverse.find? (fun t => key t == k) = some x := by
  obtain ⟨hlt, h1, _⟩ := List.findIdx?_eq_some_iff_getElem.1 hi
  have h2 : key l[i] = k := by simpa using h1
  have h3 : l = l.take i ++ l[i] :: l.drop (i + 1) := by
    rw [← List.drop_eq_getElem_cons hlt, List.take_append_drop]
  rw [h3] at hk
  obtain ⟨h4, h5, h6⟩ := List.pairwise_append.1 hk
  obtain ⟨h7, h8⟩ := List.pairwise_cons.1 h5
  have ha : ∀ x ∈ l.take i, key x ≠ k := by
    intro x hx e
    exact h6 x hx l[i] (List.mem_cons_self ..) (e.trans h2.symm)
  have hb : ∀ x ∈ l.drop (i + 1), key x ≠ k := by
    intro x hx e
    exact h7 x hx (h2.trans e.symm)
  refine ⟨l[i], h3, h2, ?_, ?_⟩
  · conv => lhs; rw [h3]
    rw [List.filter_append, List.filter_cons_of_neg (by simp [h2]), filter_ne_of_absent ha, filter_ne_of_absent hb]
  · conv => lhs; rw [h3]
    rw [List.reverse_append, List.reverse_cons, List.append_assoc, List.find?_append]
    have : (l.drop (i + 1)).reverse.find? (fun t => key t == k) = none := by
      rw [List.find?_eq_none]
      intro x hx
      simpa using hb x (List.mem_reverse.1 hx)
    rw [this]
    simp [h2]

theorem refresh_spec {c : Flat T} {i : Nat} {x : T} (h : c.elements = c.elements.take i ++ x :: c.elements.drop (i + 1)) :
    c.refresh i = some (x, { c with elements := c.elements.take i ++ c.elements.drop (i + 1) ++ [x] }) := by
  obtain ⟨xs, n⟩ := c
  simp only at h
  have hlt : i < xs.length := by
    rcases Nat.lt_or_ge i xs.length with h' | h'
    · exact h'
    · rw [List.take_of_length_le h', List.drop_eq_nil_of_le (by omega)] at h
      have := congrArg List.length h
      simp at this
  have hx : xs.drop i = x :: xs.drop (i + 1) := by
    have h' : xs.take i ++ xs.drop i = xs.take i ++ x :: xs.drop (i + 1) := by
      rw [List.take_append_drop]; exact h
    exact List.append_cancel_left h'
  rw [refresh]
  simp only
  by_cases hi : i = xs.length - 1
  · have hd : xs.drop (i + 1) = [] := List.drop_eq_nil_of_le (by omega)
    rw [if_neg (by simpa using hi)]
    rw [hd] at h ⊢
    have : xs.getLast? = some x := by rw [h]; simp
    simp only [Option.bind_eq_bind, Option.bind_some, this]
    rw [List.append_nil, ← h]
  · rw [if_pos hi, rotateFrom, hx]
    simp

theorem step_spec {key : T → K} {c : Flat T} (h : Inv key c) (op : Op K T) (ops : List (Op K T))
    (ha : Spec.flatAllowed key c.size c.elements.reverse (op :: ops)) :
    ∃ c', step key c op = some ((Spec.flatStep key c.size c.elements.reverse op).1, c') ∧ Inv key c' ∧
      c'.size = (Spec.flatStep key c.size c.elements.reverse op).2.1 ∧
      c'.elements.reverse = (Spec.flatStep key c.size c.elements.reverse op).2.2 := by
  have hb := h.bound
  have hp := h.pos
  have hsymm : ∀ {l : List T}, (l.Pairwise fun a b => key a ≠ key b) → l.reverse.Pairwise fun a b => key a ≠ key b := by
    intro l hl
    exact (List.reverse_perm l).symm.pairwise hl (fun {_ _} h => h.symm)
  have hadd : ∀ t, (∀ x ∈ c.elements, key x ≠ key t) → ∀ c', c'.size = c.size →
      c'.elements.reverse = (t :: c.elements.reverse).take c.size → Inv key c' := by
    intro t ht c' h2 h3
    refine ⟨?_, ?_, by omega⟩
    · have h4 : ((t :: c.elements.reverse).take c.size).Pairwise fun a b => key a ≠ key b := by
        apply List.Pairwise.take
        refine List.pairwise_cons.2 ⟨?_, hsymm h.keys⟩
        intro x hx e
        exact ht x (List.mem_reverse.1 hx) e.symm
      rw [← h3] at h4
      have := hsymm h4
      rwa [List.reverse_reverse] at this
    · have := congrArg List.length h3
      rw [List.length_reverse, List.length_take] at this
      omega
  cases op with
  | add t =>
    obtain ⟨c', h1, h2, h3⟩ := add_spec hb hp t
    refine ⟨c', by simp [step, h1, Spec.flatStep], ?_, h2, h3⟩
    exact hadd t (fun x hx => ha.1 x (List.mem_reverse.2 hx)) c' h2 h3
  | setSize n =>
    have hn : 0 < n := ha.1
    rw [step, setSize]
    split
    · refine ⟨_, rfl, ⟨h.keys.drop, by simp only [List.length_drop]; omega, hn⟩, rfl, ?_⟩
      simp only [Spec.flatStep]
      rw [List.reverse_drop]
      congr 1
      omega
    · refine ⟨_, rfl, ⟨h.keys, by simp only; omega, hn⟩, rfl, ?_⟩
      simp only [Spec.flatStep]
      rw [List.take_of_length_le]
      rw [List.length_reverse]; omega
  | getOrAdd k made =>
    have hm : key made = k := ha.1
    rw [step, getOrAdd]
    cases hf : c.elements.findIdx? fun t => key t == k with
    | none =>
      have hne : ∀ x ∈ c.elements, key x ≠ k := by
        intro x hx
        have := List.findIdx?_eq_none_iff.1 hf x hx
        simpa using this
      have hnr : ∀ x ∈ c.elements.reverse, key x ≠ k := fun x hx => hne x (List.mem_reverse.1 hx)
      have hfn : c.elements.reverse.find? (fun t => key t == k) = none := by
        rw [List.find?_eq_none]
        intro x hx
        simpa using hnr x hx
      obtain ⟨c', h1, h2, h3⟩ := add_spec hb hp made
      refine ⟨c', by simp [h1, Spec.flatStep, hfn], ?_, h2, ?_⟩
      · exact hadd made (by rw [hm]; exact hne) c' h2 h3
      · simp only [Spec.flatStep, hfn, Option.getD_none, filter_ne_of_absent hnr]
        exact h3
    | some i =>
      obtain ⟨x, h1, h2, h3, h4⟩ := split_at h.keys hf
      simp only [refresh_spec h1, Option.map_some, Spec.flatStep, h4, Option.getD_some]
      have h5 : c.elements.length = (c.elements.take i ++ c.elements.drop (i + 1)).length + 1 := by
        conv => lhs; rw [h1]
        simp only [List.length_append, List.length_cons]; omega
      refine ⟨_, rfl, ⟨?_, ?_, hp⟩, rfl, ?_⟩
      · simp only
        have := h.keys
        rw [h1] at this
        refine List.Perm.pairwise ?_ this (fun {_ _} h => h.symm)
        rw [List.append_assoc]
        exact (List.perm_append_singleton x _).symm.append_left _
      · simp only [List.length_append, List.length_cons, List.length_nil] at h5 ⊢; omega
      · simp only
        rw [List.filter_reverse, h3]
        generalize c.elements.take i ++ c.elements.drop (i + 1) = l at h5 ⊢
        rw [List.take_of_length_le (by simp only [List.length_cons, List.length_reverse]; omega)]
        simp

theorem run_spec {key : T → K} (ops : List (Op K T)) {c : Flat T} (h : Inv key c)
    (ha : Spec.flatAllowed key c.size c.elements.reverse ops) :
    ∃ c', run key c ops = some ((Spec.flatRun key c.size c.elements.reverse ops).1, c') ∧ Inv key c' ∧
      c'.size = (Spec.flatRun key c.size c.elements.reverse ops).2.1 ∧
      c'.elements.reverse = (Spec.flatRun key c.size c.elements.reverse ops).2.2 := by
  induction ops generalizing c with
  | nil => exact ⟨c, rfl, h, rfl, rfl⟩
  | cons op ops ih =>
    obtain ⟨c1, h1, h2, h3, h4⟩ := step_spec h op ops ha
    have ha2 := ha.2
    rw [← h3, ← h4] at ha2
    obtain ⟨c2, h6, h7, h8, h9⟩ := ih h2 ha2
    rw [h3, h4] at h6 h8 h9
    refine ⟨c2, ?_, h7, h8, h9⟩
    simp only [run, h1, h6, Option.bind_eq_bind, Option.bind_some, Spec.flatRun]

end Verif.Cache.Flat
