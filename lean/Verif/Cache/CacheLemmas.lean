import Verif.Cache.Lemmas

/-!
# Helper lemmas for `cache`
-/

set_option linter.unusedSectionVars false

namespace Verif.Cache.Cache

variable {K V : Type} [DecidableEq K]

/-- The list, with the most recently used entry first. -/
def orient {α : Type} (p : Policy) (l : List α) : List α :=
  match p with
  | .lru => l.reverse
  | .mru => l

/-- The entries of a cache, the most recently used first. -/
def recent (p : Policy) (c : Cache K V) : List (K × V) := orient p c.entries

theorem recent_eq (p : Policy) (c : Cache K V) : recent p c = pairs (orient p c.xs) := by
  cases p <;> simp [recent, orient, entries, pairs]

theorem orient_perm {α : Type} (p : Policy) (l : List α) : (orient p l).Perm l := by
  cases p
  · exact List.reverse_perm l
  · exact List.Perm.refl l

theorem orient_filter {α : Type} (p : Policy) (l : List α) (q : α → Bool) : orient p (l.filter q) = (orient p l).filter q := by
  cases p
  · simp [orient, List.filter_reverse]
  · rfl

theorem orient_access (p : Policy) (xs : List (Node K V)) (n : Node K V) :
    orient p (access p xs n) = n :: orient p (eraseNode xs n.addr) := by
  cases p <;> simp [orient, access]

theorem orient_insert (p : Policy) (xs : List (Node K V)) (n : Node K V) : orient p (policyInsert p xs n) = n :: orient p xs := by
  cases p <;> simp [orient, policyInsert]

theorem orient_victim (p : Policy) (n : Node K V) (xs : List (Node K V)) :
    Spec.victim p (pairs (orient p (n :: xs))) = some (n.key, n.value) := by
  cases p <;> simp [orient, Spec.victim, pairs]

theorem orient_rest (p : Policy) (n : Node K V) (xs : List (Node K V)) :
    Spec.rest p (pairs (orient p (n :: xs))) = pairs (orient p xs) := by
  cases p <;> simp [orient, Spec.rest, pairs]

theorem orient_length {α : Type} (p : Policy) (l : List α) : (orient p l).length = l.length := (orient_perm p l).length_eq

/-- The invariant of `cache`. -/
structure Inv (c : Cache K V) : Prop where
  tracked : Tracked c.xs c.tracker c.next
  bound : c.xs.length ≤ c.capacity
  pos : 0 < c.capacity

theorem orient_lookup_mem (p : Policy) {xs : List (Node K V)} (hk : xs.Pairwise fun a b => a.key ≠ b.key) {n : Node K V} (hn : n ∈ xs) :
    Spec.lookup (pairs (orient p xs)) n.key = some n.value :=
  lookup_mem ((orient_perm p xs).symm.pairwise hk (fun {_ _} h => h.symm)) ((orient_perm p xs).mem_iff.2 hn)

theorem orient_lookup_none (p : Policy) {xs : List (Node K V)} {k : K} (h : ∀ n ∈ xs, n.key ≠ k) :
    Spec.lookup (pairs (orient p xs)) k = none :=
  lookup_none fun n hn => h n ((orient_perm p xs).mem_iff.1 hn)

theorem tracked_tail {n : Node K V} {xs : List (Node K V)} {m : Tracker K} {next : Nat} (h : Tracked (n :: xs) m next) :
    Tracked xs (m.erase n.key) next := by
  have h1 := tracked_erase h n.key
  rw [List.filter_cons_of_neg (by simp), filter_absent] at h1
  · exact h1
  · intro y hy e
    exact (List.pairwise_cons.1 h.keys).1 y hy e.symm

/-- The eviction loop. -/
theorem evictN_spec (p : Policy) (n : Nat) (c : Cache K V) (h : Tracked c.xs c.tracker c.next) (fuel : Nat)
    (hf : c.xs.length - n ≤ fuel) :
    ∃ c', evictN (c.xs.length - n) c = some c' ∧ Tracked c'.xs c'.tracker c'.next ∧ c'.capacity = c.capacity ∧ c'.xs.length ≤ n ∧
      pairs (orient p c'.xs) = (Spec.evictTo p n fuel (pairs (orient p c.xs))).1 ∧
      c'.evicted = c.evicted ++ (Spec.evictTo p n fuel (pairs (orient p c.xs))).2 ∧ ∀ y ∈ c'.xs, y ∈ c.xs := by
  obtain ⟨xs, tracker, capacity, next, evicted⟩ := c
  induction xs generalizing tracker evicted fuel with
  | nil =>
    refine ⟨_, by simp only [List.length_nil, Nat.zero_sub]; rfl, h, rfl, by simp, ?_⟩
    cases p <;> cases fuel <;> simp [Spec.evictTo, orient, pairs]
  | cons x xs ih =>
    by_cases hl : (x :: xs).length ≤ n
    · refine ⟨⟨x :: xs, tracker, capacity, next, evicted⟩, by rw [show (x :: xs).length - n = 0 by omega]; rfl, h, rfl, hl, ?_⟩
      have hlen : (pairs (orient p (x :: xs))).length ≤ n := by
        rw [pairs, List.length_map, orient_length]; exact hl
      cases fuel with
      | zero => simp [Spec.evictTo]
      | succ fuel => simp only [Spec.evictTo, if_pos hlen]; simp
    · simp only [List.length_cons] at hl hf
      obtain ⟨fuel, rfl⟩ : ∃ f, fuel = f + 1 := ⟨fuel - 1, by omega⟩
      have hlen : ¬ (pairs (orient p (x :: xs))).length ≤ n := by
        rw [pairs, List.length_map, orient_length, List.length_cons]; exact hl
      obtain ⟨c', h1, h2, h3, h4, h5, h6, h7⟩ := ih (tracker := tracker.erase x.key) (evicted := evicted ++ [(x.key, x.value)])
        (fuel := fuel) (tracked_tail h) (by simp only; omega)
      have hs : (x :: xs).length - n = (xs.length - n) + 1 := by simp only [List.length_cons]; omega
      refine ⟨c', ?_, h2, h3, h4, ?_, ?_, fun y hy => List.mem_cons_of_mem _ (h7 y hy)⟩
      · simp only [hs, evictN, evict, Option.bind_eq_bind, Option.bind_some]
        exact h1
      · simp only [Spec.evictTo, if_neg hlen, orient_rest]
        exact h5
      · simp only [Spec.evictTo, if_neg hlen, orient_rest, orient_victim]
        rw [h6]; simp

theorem makeRoom_spec (p : Policy) (c : Cache K V) (h : Inv c) :
    ∃ c', c.makeRoom = some c' ∧ Tracked c'.xs c'.tracker c'.next ∧ c'.capacity = c.capacity ∧ c'.xs.length + 1 ≤ c.capacity ∧
      pairs (orient p c'.xs) = (Spec.evictTo p (c.capacity - 1) (recent p c).length (recent p c)).1 ∧
      c'.evicted = c.evicted ++ (Spec.evictTo p (c.capacity - 1) (recent p c).length (recent p c)).2 ∧ ∀ y ∈ c'.xs, y ∈ c.xs := by
  have hl : (recent p c).length = c.xs.length := by
    rw [recent_eq, pairs, List.length_map, orient_length]
  have hpos := h.pos
  have hb := h.bound
  obtain ⟨c', h1, h2, h3, h4, h5, h6, h7⟩ := evictN_spec p (c.capacity - 1) c h.tracked c.xs.length (by omega)
  rw [hl, recent_eq]
  refine ⟨c', ?_, h2, h3, by omega, h5, h6, h7⟩
  rw [makeRoom]
  split
  · next he =>
    rw [show c.xs.length - (c.capacity - 1) = 0 + 1 by omega, evictN] at h1
    cases hv : c.evict with
    | none => rw [hv] at h1; simp at h1
    | some r => rw [hv] at h1; exact h1
  · next he =>
    rw [show c.xs.length - (c.capacity - 1) = 0 by omega] at h1
    exact h1

theorem reload_foldl (ys : List (Node K V)) : ∀ (m : Tracker K), (∀ y ∈ ys, ∀ e ∈ m, e.1 ≠ y.key) →
    (ys.Pairwise fun a b => a.key ≠ b.key) →
    ys.foldl (fun m n => Tracker.emplace m n.key n.addr) m = (ys.map fun n => (n.key, n.addr)).reverse ++ m := by
  induction ys with
  | nil => intro m _ _; rfl
  | cons y ys ih =>
    intro m h1 h2
    obtain ⟨h3, h4⟩ := List.pairwise_cons.1 h2
    have hf : (Tracker.find m y.key).isSome = false := by
      rw [Option.isSome_eq_false_iff, Option.isNone_iff_eq_none, Tracker.find, Option.map_eq_none_iff, List.find?_eq_none]
      intro e he
      simpa using h1 y (by simp) e he
    rw [List.foldl_cons, Tracker.emplace, hf]
    simp only [Bool.false_eq_true, if_false]
    rw [ih _ _ h4]
    · simp
    · intro z hz e he
      rcases List.mem_cons.1 he with rfl | he
      · exact h3 z hz
      · exact h1 z (List.mem_cons_of_mem _ hz) e he

/-- The abstract state of a cache. -/
def abs (p : Policy) (c : Cache K V) : Spec.State K V := ⟨c.capacity, recent p c, c.evicted⟩

theorem access_spec (p : Policy) {c : Cache K V} (h : Inv c) {n : Node K V} (hn : n ∈ c.xs) :
    Inv { c with xs := access p c.xs n } ∧ recent p { c with xs := access p c.xs n } = Spec.touch (recent p c) n.key := by
  have h1 := access_perm h.tracked hn
  have he := eraseNode_eq h.tracked.keys h.tracked.addrs hn
  have h2 : (access p c.xs n).Perm c.xs := by
    have h3 : (access p c.xs n).Perm (n :: eraseNode c.xs n.addr) := by
      cases p
      · exact List.perm_append_comm
      · exact List.Perm.refl _
    rw [he] at h3
    exact h3.trans h1
  refine ⟨⟨tracked_perm h.tracked h2.symm, ?_, h.pos⟩, ?_⟩
  · have := h2.length_eq; have := h.bound; simp only; omega
  · rw [recent_eq, recent_eq]
    simp only
    rw [orient_access, Spec.touch, orient_lookup_mem p h.tracked.keys hn, he, orient_filter]
    simp only
    rw [← pairs_without]; rfl

/-- What a step of `cache` does. -/
theorem step_spec (p : Policy) {c : Cache K V} (h : Inv c) (op : Op K V) (hop : ∀ n, op = .setCapacity n → 0 < n) :
    (step p c op).map (fun r => (r.1, abs p r.2)) = Spec.cacheStep p (abs p c) op ∧ ∀ r, step p c op = some r → Inv r.2 := by
  have hb := h.bound
  have hpos := h.pos
  have hl : (recent p c).length = c.xs.length := by
    rw [recent_eq, pairs, List.length_map, orient_length]
  cases op with
  | insert k v =>
    simp only [step, insert, Spec.cacheStep, abs]
    cases hf : c.tracker.find k with
    | some a =>
      obtain ⟨n, hn, rfl, rfl⟩ := find_some h.tracked hf
      obtain ⟨h1, h2⟩ := access_spec p h hn
      have h3 : Spec.lookup (recent p c) n.key = some n.value := by rw [recent_eq]; exact orient_lookup_mem p h.tracked.keys hn
      simp only [deref_mem h.tracked.addrs hn, Option.bind_eq_bind, Option.bind_some, Option.map_some, h3, h2, true_and]
      intro r hr
      obtain rfl := Option.some.inj hr
      exact h1
    | none =>
      have hk := (find_none h.tracked).1 hf
      have h3 : Spec.lookup (recent p c) k = none := by rw [recent_eq]; exact orient_lookup_none p hk
      obtain ⟨c', g1, g2, g3, g4, g5, g6, g7⟩ := makeRoom_spec p c h
      have hk' : ∀ n ∈ c'.xs, n.key ≠ k := fun n hn => hk n (g7 n hn)
      have g8 : c'.tracker.emplace k c'.next = (k, c'.next) :: c'.tracker := by
        rw [Tracker.emplace, (find_none g2).2 hk']; rfl
      have g9 : (⟨c'.next, k, v⟩ :: c'.xs).Perm (policyInsert p c'.xs ⟨c'.next, k, v⟩) := by
        cases p
        · exact List.perm_append_singleton _ _ |>.symm
        · exact List.Perm.refl _
      simp only [g1, Option.bind_eq_bind, Option.bind_some, Option.map_some, h3, g8]
      constructor
      · rw [recent_eq]
        simp only [orient_insert, g3, g6, Option.some.injEq, Prod.mk.injEq, true_and]
        rw [← g5]; rfl
      · intro r hr
        obtain rfl := Option.some.inj hr
        refine ⟨tracked_perm (tracked_cons g2 v hk') g9, ?_, ?_⟩
        · have := g9.length_eq; simp only [List.length_cons] at this ⊢; omega
        · simp only; omega
  | find k =>
    simp only [step, find, Spec.cacheStep, abs]
    cases hf : c.tracker.find k with
    | some a =>
      obtain ⟨n, hn, rfl, rfl⟩ := find_some h.tracked hf
      obtain ⟨h1, h2⟩ := access_spec p h hn
      have h3 : Spec.lookup (recent p c) n.key = some n.value := by rw [recent_eq]; exact orient_lookup_mem p h.tracked.keys hn
      simp only [deref_mem h.tracked.addrs hn, Option.bind_eq_bind, Option.bind_some, Option.map_some, h3, h2, true_and]
      intro r hr
      obtain rfl := Option.some.inj hr
      exact h1
    | none =>
      have h3 : Spec.lookup (recent p c) k = none := by rw [recent_eq]; exact orient_lookup_none p ((find_none h.tracked).1 hf)
      simp only [Option.map_some, h3, Option.map_none, Spec.touch, true_and]
      intro r hr
      obtain rfl := Option.some.inj hr
      exact h
  | eraseKey k =>
    simp only [step, eraseKey, Spec.cacheStep, abs]
    cases hf : c.tracker.find k with
    | some a =>
      obtain ⟨n, hn, rfl, rfl⟩ := find_some h.tracked hf
      have h3 : Spec.lookup (recent p c) n.key = some n.value := by rw [recent_eq]; exact orient_lookup_mem p h.tracked.keys hn
      simp only [eraseNode_eq h.tracked.keys h.tracked.addrs hn, h3, Option.map_some, Option.isSome_some, if_true]
      constructor
      · rw [recent_eq, recent_eq]
        simp only [orient_filter, pairs_without]
      · intro r hr
        obtain rfl := Option.some.inj hr
        refine ⟨tracked_erase h.tracked _, ?_, hpos⟩
        have := List.length_filter_le (fun x : Node K V => x.key != n.key) c.xs
        simp only; omega
    | none =>
      have h3 : Spec.lookup (recent p c) k = none := by rw [recent_eq]; exact orient_lookup_none p ((find_none h.tracked).1 hf)
      simp only [Option.map_some, h3, Option.isSome_none, Bool.false_eq_true, if_false, without_none h3, true_and]
      intro r hr
      obtain rfl := Option.some.inj hr
      exact h
  | eraseFound k =>
    simp only [step, eraseFound, find, Spec.cacheStep, abs]
    cases hf : c.tracker.find k with
    | some a =>
      obtain ⟨n, hn, rfl, rfl⟩ := find_some h.tracked hf
      obtain ⟨h1, h2⟩ := access_spec p h hn
      have h3 : Spec.lookup (recent p c) n.key = some n.value := by rw [recent_eq]; exact orient_lookup_mem p h.tracked.keys hn
      have hn' : n ∈ access p c.xs n := by cases p <;> simp [access]
      have h4 := eraseNode_eq h1.tracked.keys h1.tracked.addrs hn'
      simp only [deref_mem h.tracked.addrs hn, Option.bind_eq_bind, Option.bind_some, Option.map_some, eraseAt]
      simp only at h4
      rw [h4]
      have h5 : (c.tracker.filter fun e => e.2 != n.addr) = c.tracker.erase n.key := by
        rw [Tracker.erase]
        apply List.filter_congr
        intro e he
        obtain ⟨y, hy, rfl⟩ := (mem_tracker h.tracked).1 he
        by_cases hyn : y = n
        · subst hyn; simp
        · have g1 : y.addr ≠ n.addr := fun e => hyn (addr_inj h.tracked.addrs hy hn e)
          have g2 : y.key ≠ n.key := fun e => hyn (key_inj h.tracked.keys hy hn e)
          rw [bne_iff_ne.2 g1, bne_iff_ne.2 g2]
      constructor
      · rw [recent_eq]
        simp only [orient_filter, pairs_without, Option.some.injEq, Prod.mk.injEq, true_and]
        rw [recent_eq] at h2
        simp only at h2
        rw [h2, Spec.touch, h3]
        simp only [Spec.without]
        rw [List.filter_cons_of_neg (by simp), List.filter_filter]
        simp only [Bool.and_self]
      · intro r hr
        obtain rfl := Option.some.inj hr
        refine ⟨?_, ?_, hpos⟩
        · simp only
          rw [h5]
          exact tracked_erase h1.tracked n.key
        · have := List.length_filter_le (fun x : Node K V => x.key != n.key) (access p c.xs n)
          have := h1.bound
          simp only at this ⊢; omega
    | none =>
      have h3 : Spec.lookup (recent p c) k = none := by rw [recent_eq]; exact orient_lookup_none p ((find_none h.tracked).1 hf)
      simp only [Option.map_some, without_none h3, true_and]
      intro r hr
      obtain rfl := Option.some.inj hr
      exact h
  | evict =>
    simp only [step, evict, Spec.cacheStep, abs]
    rw [recent_eq]
    cases hx : c.xs with
    | nil =>
      refine ⟨?_, by simp⟩
      cases p <;> simp [orient, pairs, Spec.victim]
    | cons n xs =>
      rw [hx] at hb
      simp only [List.length_cons] at hb
      simp only [orient_victim, Option.map_some, orient_rest]
      constructor
      · rw [recent_eq]
      · intro r hr
        obtain rfl := Option.some.inj hr
        refine ⟨?_, by simp only; omega, hpos⟩
        have := h.tracked
        rw [hx] at this
        exact tracked_tail this
  | setCapacity n =>
    have hn := hop n rfl
    obtain ⟨c', g1, g2, g3, g4, g5, g6, g7⟩ := evictN_spec p n { c with capacity := n } h.tracked c.xs.length (by simp only; omega)
    simp only at g1 g3 g5 g6
    simp only [step, setCapacity, Spec.cacheStep, abs, g1, Option.map_some, hl]
    constructor
    · rw [recent_eq, recent_eq, g3, g5, g6]
    · intro r hr
      obtain rfl := Option.some.inj hr
      exact ⟨g2, by simp only; omega, by simp only; omega⟩
  | clear =>
    simp only [step, Spec.cacheStep, abs, clear, Option.map_some]
    constructor
    · rw [recent_eq]
      cases p <;> simp [orient, pairs]
    · intro r hr
      obtain rfl := Option.some.inj hr
      exact ⟨tracked_nil _, by simp, hpos⟩
  | reload =>
    simp only [step, Spec.cacheStep, abs, reload, Option.map_some]
    refine ⟨rfl, ?_⟩
    intro r hr
    obtain rfl := Option.some.inj hr
    refine ⟨⟨?_, h.tracked.keys, h.tracked.addrs, h.tracked.fresh⟩, hb, hpos⟩
    simp only
    rw [reload_foldl _ _ (by simp) h.tracked.keys, List.append_nil]
    exact List.reverse_perm _

theorem run_spec (p : Policy) (ops : List (Op K V)) (hops : ∀ n, .setCapacity n ∈ ops → 0 < n) {c : Cache K V} (h : Inv c) :
    (run p c ops).map (fun r => (r.1, abs p r.2)) = Spec.cacheRun p (abs p c) ops ∧ ∀ r, run p c ops = some r → Inv r.2 := by
  induction ops generalizing c with
  | nil =>
    refine ⟨rfl, ?_⟩
    intro r hr
    obtain rfl := Option.some.inj hr
    exact h
  | cons op ops ih =>
    obtain ⟨h1, h2⟩ := step_spec p h op (fun n e => hops n (by rw [e]; simp))
    rw [Spec.cacheRun, ← h1, run]
    cases hs : step p c op with
    | none => simp
    | some r =>
      obtain ⟨h3, h4⟩ := ih (fun n hn => hops n (List.mem_cons_of_mem _ hn)) (h2 r hs)
      simp only [Option.bind_eq_bind, Option.bind_some, Option.map_some]
      rw [← h3]
      cases hr : run p r.2 ops with
      | none => simp
      | some rs =>
        simp only [Option.bind_some, Option.map_some, true_and]
        intro x hx
        obtain rfl := Option.some.inj hx
        exact h4 rs hr

end Verif.Cache.Cache
