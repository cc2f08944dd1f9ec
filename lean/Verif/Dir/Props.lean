import Verif.Dir.Spec
/-!
# Listing a directory

C170: what is found is exactly what is there, in an order that does not depend on the operating system.
-/
namespace Verif.Dir
open Verif.Data Spec

variable {keep : Path → Bool} {max : Nat}

theorem good_cons {n : Node} {rest : Nodes} (h : Good (.cons n rest)) : Good rest ∧ nameOf n ∉ (list rest).map nameOf ∧
    (∀ name readable sub, n = .dir name readable sub → readable = true ∧ Good sub) := by
  cases h with
  | intro h1 h2 h3 =>
    simp only [list, List.map_cons, List.nodup_cons] at h1
    exact ⟨.intro h1.2 (fun a b c h => h2 a b c (by simp [list, h])) (fun a b c h => h3 a b c (by simp [list, h])), h1.1,
      fun a b c h => ⟨h2 a b c (by simp [list, h]), h3 a b c (by simp [list, h])⟩⟩

theorem below_cons {n : Node} {rest : Nodes} {p : Path} : Below (.cons n rest) p ↔
    (p = [nameOf n] ∨ ∃ name readable sub q, n = .dir name readable sub ∧ Below sub q ∧ p = name :: q) ∨ Below rest p := by
  constructor
  · intro h
    generalize hes : Nodes.cons n rest = es at h
    cases h with
    | here hm =>
      subst hes
      simp only [list, List.mem_cons] at hm
      rcases hm with rfl | hm
      · exact .inl (.inl rfl)
      · exact .inr (.here hm)
    | @inside _ name readable sub q hm hb =>
      subst hes
      simp only [list, List.mem_cons] at hm
      rcases hm with hm | hm
      · exact .inl (.inr ⟨name, readable, sub, q, hm.symm, hb, rfl⟩)
      · exact .inr (.inside hm hb)
  · rintro ((rfl | ⟨name, readable, sub, q, rfl, hb, rfl⟩) | h)
    · exact .here (by simp [list])
    · exact .inside (readable := readable) (sub := sub) (by simp [list]) hb
    · cases h with
      | here hm => exact .here (by simp [list, hm])
      | @inside _ name readable sub q hm hb => exact .inside (readable := readable) (sub := sub) (by simp [list, hm]) hb

theorem below_head {es : Nodes} {p : Path} (h : Below es p) : ∃ x q, p = x :: q ∧ x ∈ (list es).map nameOf := by
  cases h with
  | here hm => exact ⟨_, [], rfl, List.mem_map_of_mem hm⟩
  | @inside _ name readable sub q hm hb => exact ⟨name, q, rfl, List.mem_map.2 ⟨_, hm, rfl⟩⟩

/-- What is found below some entries, before sorting. -/
def Found (keep : Path → Bool) (max depth : Nat) (pre : Path) (P : Path → Prop) (r : Res (List Path)) : Prop :=
  ((∀ p, P p → depth + p.length ≤ max) → ∃ ps, r = .ok ps ∧ ps.Nodup ∧ ∀ x, x ∈ ps ↔ ∃ p, P p ∧ x = pre ++ p ∧ keep x = true) ∧
  ((∃ p, P p ∧ max < depth + p.length) → r = .error)

theorem found_all (keep : Path → Bool) (max : Nat) : ∀ (es : Nodes), Good es → ∀ (depth : Nat) (pre : Path), Found keep max depth pre (Below es) (walkAll keep max depth pre es) := by
  intro es
  apply Nodes.rec
    (motive_1 := fun n => (∀ name readable sub, n = .dir name readable sub → readable = true ∧ Good sub) → ∀ depth pre,
      Found keep max depth pre (fun p => p = [nameOf n] ∨ ∃ name readable sub q, n = .dir name readable sub ∧ Below sub q ∧ p = name :: q) (walk keep max depth pre n))
    (motive_2 := fun es => Good es → ∀ (depth : Nat) (pre : Path), Found keep max depth pre (Below es) (walkAll keep max depth pre es))
  · -- a file
    intro name _ depth pre
    constructor
    · intro h
      have h1 := h [name] (.inl rfl)
      simp only [List.length_cons, List.length_nil] at h1
      refine ⟨_, by rw [walk.eq_def]; simp only []; rw [if_neg (by omega)], ?_, ?_⟩
      · split <;> simp
      · intro x
        constructor
        · intro hx
          split at hx
          · rename_i hk
            simp only [List.mem_cons, List.not_mem_nil, or_false] at hx
            subst hx
            exact ⟨[name], .inl rfl, rfl, hk⟩
          · cases hx
        · rintro ⟨p, (rfl | ⟨_, _, _, _, h, _⟩), rfl, hk⟩
          · simp only [nameOf] at hk ⊢
            simp [hk]
          · cases h
    · rintro ⟨p, (rfl | ⟨_, _, _, _, h, _⟩), hlt⟩
      · simp only [List.length_cons, List.length_nil] at hlt
        rw [walk.eq_def]
        simp only []
        rw [if_pos (by omega)]
      · cases h
  · -- a directory
    intro name readable sub ih hg depth pre
    obtain ⟨hr, hs⟩ := hg name readable sub rfl
    subst hr
    obtain ⟨i1, i2⟩ := ih hs (depth + 1) (pre ++ [name])
    constructor
    · intro h
      have h1 := h [name] (.inl rfl)
      simp only [List.length_cons, List.length_nil] at h1
      obtain ⟨ps, e, hn, hps⟩ := i1 (fun p hp => by
        have := h (name :: p) (.inr ⟨_, _, _, _, rfl, hp, rfl⟩)
        simp only [List.length_cons] at this
        omega)
      refine ⟨_, by rw [walk.eq_def]; simp only []; rw [if_neg (by omega), if_neg (by simp), e]; rfl, ?_, ?_⟩
      · rw [List.nodup_append]
        refine ⟨by split <;> simp, hn, ?_⟩
        intro a ha b hb e
        subst e
        split at ha
        · simp only [List.mem_cons, List.not_mem_nil, or_false] at ha
          subst ha
          obtain ⟨p, hp, hx, _⟩ := (hps _).1 hb
          obtain ⟨x, q, rfl, _⟩ := below_head hp
          have := congrArg List.length hx
          simp at this
        · cases ha
      · intro x
        rw [List.mem_append, hps]
        constructor
        · rintro (hx | ⟨p, hp, rfl, hk⟩)
          · split at hx
            · rename_i hk
              simp only [List.mem_cons, List.not_mem_nil, or_false] at hx
              subst hx
              exact ⟨[name], .inl rfl, rfl, hk⟩
            · cases hx
          · exact ⟨name :: p, .inr ⟨_, _, _, _, rfl, hp, rfl⟩, by simp, hk⟩
        · rintro ⟨p, (rfl | ⟨name', readable', sub', q, e, hq, rfl⟩), rfl, hk⟩
          · left
            simp only [nameOf] at hk ⊢
            simp [hk]
          · cases e
            right
            exact ⟨q, hq, by simp, hk⟩
    · rintro ⟨p, (rfl | ⟨name', readable', sub', q, e, hq, rfl⟩), hlt⟩
      · simp only [List.length_cons, List.length_nil] at hlt
        rw [walk.eq_def]
        simp only []
        rw [if_pos (by omega)]
      · cases e
        rw [walk.eq_def]
        simp only []
        split
        · rfl
        · rw [if_neg (by simp), i2 ⟨q, hq, by simp only [List.length_cons] at hlt; omega⟩]
          rfl
  · -- no entries
    intro _ depth pre
    constructor
    · intro _
      refine ⟨[], by rw [walkAll.eq_def], by simp, ?_⟩
      intro x
      refine ⟨fun h => (by cases h), ?_⟩
      rintro ⟨p, hp, _⟩
      obtain ⟨_, _, _, h⟩ := below_head hp
      simp [list] at h
    · rintro ⟨p, hp, _⟩
      obtain ⟨_, _, _, h⟩ := below_head hp
      simp [list] at h
  · -- an entry and more
    intro n rest ihn ihr hg depth pre
    obtain ⟨g1, g2, g3⟩ := good_cons hg
    obtain ⟨n1, n2⟩ := ihn g3 depth pre
    obtain ⟨r1, r2⟩ := ihr g1 depth pre
    constructor
    · intro h
      obtain ⟨ps, e, hn, hps⟩ := n1 fun p hp => h p (below_cons.2 (.inl hp))
      obtain ⟨qs, e', hn', hqs⟩ := r1 fun p hp => h p (below_cons.2 (.inr hp))
      refine ⟨ps ++ qs, by rw [walkAll.eq_def]; simp only []; rw [e, e']; rfl, ?_, ?_⟩
      · rw [List.nodup_append]
        refine ⟨hn, hn', ?_⟩
        intro a ha b hb e
        subst e
        obtain ⟨p, hp, rfl, _⟩ := (hps _).1 ha
        obtain ⟨q, hq, hx, _⟩ := (hqs _).1 hb
        have := List.append_cancel_left hx
        subst this
        obtain ⟨x, p', rfl, hy⟩ := below_head hq
        rcases hp with hp | ⟨name, readable, sub, q', rfl, _, hp⟩
        · simp only [List.cons.injEq] at hp
          rw [hp.1] at hy
          exact g2 hy
        · simp only [List.cons.injEq] at hp
          rw [hp.1] at hy
          exact g2 hy
      · intro x
        rw [List.mem_append, hps, hqs]
        constructor
        · rintro (⟨p, hp, h⟩ | ⟨p, hp, h⟩)
          · exact ⟨p, below_cons.2 (.inl hp), h⟩
          · exact ⟨p, below_cons.2 (.inr hp), h⟩
        · rintro ⟨p, hp, h⟩
          rcases below_cons.1 hp with hp | hp
          · exact .inl ⟨p, hp, h⟩
          · exact .inr ⟨p, hp, h⟩
    · rintro ⟨p, hp, hlt⟩
      rw [walkAll.eq_def]
      simp only []
      by_cases hbad : ∃ p, (p = [nameOf n] ∨ ∃ name readable sub q, n = .dir name readable sub ∧ Below sub q ∧ p = name :: q) ∧ max < depth + p.length
      · rw [n2 hbad]; rfl
      · obtain ⟨ps, e, _, _⟩ := n1 fun p hp => Nat.le_of_not_lt fun h => hbad ⟨p, hp, h⟩
        rw [e]
        simp only [Res.bind]
        rw [r2 ⟨p, (below_cons.1 hp).resolve_left fun h => hbad ⟨p, h, hlt⟩, hlt⟩]

theorem path_total (a b : Path) : (decide (a ≤ b) || decide (b ≤ a)) = true := by
  simpa using List.le_total a b

theorem path_trans (a b c : Path) (h1 : decide (a ≤ b) = true) (h2 : decide (b ≤ c) = true) : decide (a ≤ c) = true := by
  simp only [decide_eq_true_eq] at *
  exact List.le_trans h1 h2

/-- If all directories can be read and nothing is nested deeper than the limit, then the result has exactly the paths that the
filter accepts, each once, in ascending order. -/
theorem C170_listing (keep : Path → Bool) (max : Nat) (es : Nodes) (hg : Good es) (hd : ∀ p, Below es p → p.length ≤ max) :
    ∃ ps, filterDir keep max true es = .ok ps ∧ ps.Pairwise (· < ·) ∧ ∀ p, p ∈ ps ↔ Below es p ∧ keep p = true := by
  obtain ⟨ps, e, hn, hps⟩ := (found_all keep max es hg 0 []).1 (by simpa using hd)
  refine ⟨_, by unfold filterDir; rw [if_neg (by simp), e]; rfl, ?_, ?_⟩
  · have h1 := List.pairwise_mergeSort (le := fun a b : Path => decide (a ≤ b)) path_trans path_total ps
    have h2 : (ps.mergeSort fun a b => decide (a ≤ b)).Nodup := (List.mergeSort_perm ps _).nodup_iff.2 hn
    have h3 := h1.and h2
    refine h3.imp ?_
    rintro a b ⟨hab, hne⟩
    simp only [decide_eq_true_eq] at hab
    exact Classical.byContradiction fun h => hne (List.le_antisymm hab (List.not_lt.1 h))
  · intro p
    rw [List.mem_mergeSort, hps]
    constructor
    · rintro ⟨q, hq, rfl, hk⟩
      exact ⟨hq, hk⟩
    · rintro ⟨hp, hk⟩
      exact ⟨p, hp, rfl, hk⟩

/-- If something is nested deeper than the limit, the result is an error, never an incomplete list. -/
theorem C170_limit (keep : Path → Bool) (max : Nat) (es : Nodes) (hg : Good es) (p : Path) (hp : Below es p) (hd : max < p.length) :
    filterDir keep max true es = .error := by
  have := (found_all keep max es hg 0 []).2 ⟨p, hp, by simpa using hd⟩
  unfold filterDir
  rw [if_neg (by simp), this]
  rfl

theorem sorted_unique {ps qs : List Path} (h1 : ps.Pairwise (· < ·)) (h2 : qs.Pairwise (· < ·)) (h : ∀ x, x ∈ ps ↔ x ∈ qs) : ps = qs := by
  induction ps generalizing qs with
  | nil =>
    cases qs with
    | nil => rfl
    | cons q qs => exact absurd ((h q).2 (by simp)) (by simp)
  | cons p ps ih =>
    cases qs with
    | nil => exact absurd ((h p).1 (by simp)) (by simp)
    | cons q qs =>
      rw [List.pairwise_cons] at h1 h2
      have e : p = q := by
        rcases List.mem_cons.1 ((h p).1 (by simp)) with e | hp
        · exact e
        rcases List.mem_cons.1 ((h q).2 (by simp)) with e | hq
        · exact e.symm
        exact absurd (List.lt_trans (h1.1 q hq) (h2.1 p hp)) (List.lt_irrefl p)
      subst e
      congr 1
      refine ih h1.2 h2.2 fun x => ?_
      have hx := h x
      simp only [List.mem_cons] at hx
      constructor
      · intro hm
        rcases hx.1 (.inr hm) with rfl | h
        · exact absurd (h1.1 _ hm) (List.lt_irrefl _)
        · exact h
      · intro hm
        rcases hx.2 (.inr hm) with rfl | h
        · exact absurd (h2.1 _ hm) (List.lt_irrefl _)
        · exact h

/-- The result does not depend on the order in which the operating system enumerates the entries. -/
theorem C170_order (keep : Path → Bool) (max : Nat) (es es' : Nodes) (hg : Good es) (hg' : Good es') (h : ∀ p, Below es p ↔ Below es' p) :
    filterDir keep max true es = filterDir keep max true es' := by
  by_cases hd : ∀ p, Below es p → p.length ≤ max
  · obtain ⟨ps, e1, h1, k1⟩ := C170_listing keep max es hg hd
    obtain ⟨qs, e2, h2, k2⟩ := C170_listing keep max es' hg' fun p hp => hd p ((h p).2 hp)
    rw [e1, e2, sorted_unique h1 h2 fun x => by rw [k1, k2, h]]
  · obtain ⟨p, hp⟩ := Classical.not_forall.1 hd
    obtain ⟨hp, hlt⟩ := Classical.not_imp.1 hp
    rw [C170_limit keep max es hg p hp (by omega), C170_limit keep max es' hg' p ((h p).1 hp) (by omega)]

/-- The tree of the examples: `b.schema`, `a/x.schema`, `a/y`, and a directory `d.schema`. -/
def sample : Nodes := .cons (.file (str "b.schema")) (.cons (.dir (str "a") true (.cons (.file (str "x.schema")) (.cons (.file (str "y")) .nil)))
  (.cons (.dir (str "d.schema") true .nil) .nil))

example : Good sample := by
  have leafy : ∀ es : Nodes, ((list es).map nameOf).Nodup → (∀ n ∈ list es, ∃ x, n = .file x) → Good es := by
    intro es h1 h2
    refine .intro h1 ?_ ?_ <;> intro name readable sub h <;> obtain ⟨x, e⟩ := h2 _ h <;> cases e
  refine .intro (by decide +kernel) ?_ ?_ <;> intro name readable sub h <;>
    simp only [sample, list, List.mem_cons, List.not_mem_nil, or_false, reduceCtorEq, Node.dir.injEq, false_or] at h
  · rcases h with ⟨_, rfl, _⟩ | ⟨_, rfl, _⟩ <;> rfl
  · rcases h with ⟨_, _, rfl⟩ | ⟨_, _, rfl⟩
    · exact leafy _ (by decide +kernel) (by simp [list])
    · exact leafy _ (by decide +kernel) (by simp [list])

/-- An unreadable directory below throws, although the same at the top is reported as an error. -/
theorem C170_unreadable_refuted : filterDir (fun _ => true) 100 true (.cons (.dir (str "a") false .nil) .nil) = .throw ∧
    filterDir (fun _ => true) 100 false .nil = .error := ⟨rfl, rfl⟩

/-- A directory whose name the filter accepts is among the files. -/
theorem C170_directory_refuted : ∃ ps, filterDir (fun p => (p.getLastD []).drop 1 = str ".schema") 100 true sample = .ok ps ∧ [str "d.schema"] ∈ ps := by
  unfold filterDir
  rw [if_neg (by decide)]
  have : walkAll (fun p => (p.getLastD []).drop 1 = str ".schema") 100 0 [] sample = .ok [[str "b.schema"], [str "a", str "x.schema"], [str "d.schema"]] := by
    decide +kernel
  rw [this]
  exact ⟨_, rfl, by rw [List.mem_mergeSort]; simp⟩

end Verif.Dir
