import Verif.Cache.Spec

/-!
# Helper lemmas for the caches
-/

set_option linter.unusedSectionVars false

namespace Verif.Cache

variable {K V : Type} [DecidableEq K]

/-- The map is the index of the list by key. -/
structure Tracked (xs : List (Node K V)) (m : Tracker K) (next : Nat) : Prop where
  perm : List.Perm m (xs.map fun n => (n.key, n.addr))
  keys : xs.Pairwise fun a b => a.key ≠ b.key
  addrs : xs.Pairwise fun a b => a.addr ≠ b.addr
  fresh : ∀ n ∈ xs, n.addr < next

theorem tracked_nil (next : Nat) : Tracked ([] : List (Node K V)) [] next :=
  ⟨List.Perm.refl _, List.Pairwise.nil, List.Pairwise.nil, by simp⟩

theorem key_inj {xs : List (Node K V)} (h : xs.Pairwise fun a b => a.key ≠ b.key) {a b : Node K V} (ha : a ∈ xs)
    (hb : b ∈ xs) (hk : a.key = b.key) : a = b := by
  induction xs with
  | nil => simp at ha
  | cons x xs ih =>
    obtain ⟨h1, h2⟩ := List.pairwise_cons.1 h
    rcases List.mem_cons.1 ha with e | ha' <;> rcases List.mem_cons.1 hb with e' | hb'
    · rw [e, e']
    · exact absurd (e ▸ hk) (h1 _ hb')
    · exact absurd (e' ▸ hk.symm) (h1 _ ha')
    · exact ih h2 ha' hb'

theorem addr_inj {xs : List (Node K V)} (h : xs.Pairwise fun a b => a.addr ≠ b.addr) {a b : Node K V} (ha : a ∈ xs)
    (hb : b ∈ xs) (hk : a.addr = b.addr) : a = b := by
  induction xs with
  | nil => simp at ha
  | cons x xs ih =>
    obtain ⟨h1, h2⟩ := List.pairwise_cons.1 h
    rcases List.mem_cons.1 ha with e | ha' <;> rcases List.mem_cons.1 hb with e' | hb'
    · rw [e, e']
    · exact absurd (e ▸ hk) (h1 _ hb')
    · exact absurd (e' ▸ hk.symm) (h1 _ ha')
    · exact ih h2 ha' hb'

theorem mem_tracker {xs : List (Node K V)} {m : Tracker K} {next : Nat} (h : Tracked xs m next) {e : K × Nat} :
    e ∈ m ↔ ∃ n ∈ xs, (n.key, n.addr) = e := by
  rw [h.perm.mem_iff, List.mem_map]

theorem find_none {xs : List (Node K V)} {m : Tracker K} {next : Nat} (h : Tracked xs m next) {k : K} :
    m.find k = none ↔ ∀ n ∈ xs, n.key ≠ k := by
  rw [Tracker.find, Option.map_eq_none_iff, List.find?_eq_none]
  constructor
  · intro h1 n hn hk
    have := h1 (n.key, n.addr) ((mem_tracker h).2 ⟨n, hn, rfl⟩)
    simp [hk] at this
  · intro h1 e he
    obtain ⟨n, hn, rfl⟩ := (mem_tracker h).1 he
    simpa using h1 n hn

theorem find_some {xs : List (Node K V)} {m : Tracker K} {next : Nat} (h : Tracked xs m next) {k : K} {a : Nat}
    (hf : m.find k = some a) : ∃ n ∈ xs, n.key = k ∧ n.addr = a := by
  rw [Tracker.find, Option.map_eq_some_iff] at hf
  obtain ⟨e, h1, h2⟩ := hf
  have h3 := List.find?_some h1
  obtain ⟨n, hn, hne⟩ := (mem_tracker h).1 (List.mem_of_find?_eq_some h1)
  subst hne
  exact ⟨n, hn, by simpa using h3, h2⟩

theorem deref_mem {xs : List (Node K V)} (h : xs.Pairwise fun a b => a.addr ≠ b.addr) {n : Node K V} (hn : n ∈ xs) :
    deref xs n.addr = some n := by
  rw [deref]
  cases hf : xs.find? fun x => x.addr == n.addr with
  | none =>
    have := List.find?_eq_none.1 hf n hn
    simp at this
  | some y =>
    have h1 := List.find?_some hf
    have h2 := List.mem_of_find?_eq_some hf
    rw [addr_inj h h2 hn (by simpa using h1)]

theorem eraseNode_eq {xs : List (Node K V)} (hk : xs.Pairwise fun a b => a.key ≠ b.key) (ha : xs.Pairwise fun a b => a.addr ≠ b.addr)
    {n : Node K V} (hn : n ∈ xs) : eraseNode xs n.addr = xs.filter fun x => x.key != n.key := by
  rw [eraseNode]
  apply List.filter_congr
  intro x hx
  by_cases h : x = n
  · subst h; simp
  · have h1 : x.addr ≠ n.addr := fun e => h (addr_inj ha hx hn e)
    have h2 : x.key ≠ n.key := fun e => h (key_inj hk hx hn e)
    rw [bne_iff_ne.2 h1, bne_iff_ne.2 h2]

/-- The entries of a list of nodes. -/
def pairs (xs : List (Node K V)) : List (K × V) := xs.map fun n => (n.key, n.value)

theorem pairs_without (xs : List (Node K V)) (k : K) :
    pairs (xs.filter fun n => n.key != k) = Spec.without (pairs xs) k := by
  rw [Spec.without, pairs, pairs, List.filter_map]; rfl

theorem pairs_lookup (xs : List (Node K V)) (k : K) :
    Spec.lookup (pairs xs) k = (xs.find? fun n => n.key == k).map (·.value) := by
  rw [Spec.lookup, pairs, List.find?_map, Option.map_map]; rfl

theorem lookup_mem {xs : List (Node K V)} (hk : xs.Pairwise fun a b => a.key ≠ b.key) {n : Node K V} (hn : n ∈ xs) :
    Spec.lookup (pairs xs) n.key = some n.value := by
  rw [pairs_lookup]
  cases hf : xs.find? fun x => x.key == n.key with
  | none =>
    have := List.find?_eq_none.1 hf n hn
    simp at this
  | some y =>
    have h1 := List.find?_some hf
    have h2 := List.mem_of_find?_eq_some hf
    rw [key_inj hk h2 hn (by simpa using h1)]; rfl

theorem lookup_none {xs : List (Node K V)} {k : K} (h : ∀ n ∈ xs, n.key ≠ k) : Spec.lookup (pairs xs) k = none := by
  rw [pairs_lookup, Option.map_eq_none_iff, List.find?_eq_none]
  intro n hn
  simpa using h n hn

theorem without_none {l : List (K × V)} {k : K} (h : Spec.lookup l k = none) : Spec.without l k = l := by
  rw [Spec.lookup, Option.map_eq_none_iff, List.find?_eq_none] at h
  rw [Spec.without, List.filter_eq_self]
  intro e he
  have := h e he
  simpa using this

theorem erase_perm {xs : List (Node K V)} {m : Tracker K} (h : List.Perm m (xs.map fun n => (n.key, n.addr))) (k : K) :
    List.Perm (m.erase k) ((xs.filter fun n => n.key != k).map fun n => (n.key, n.addr)) := by
  have h1 := h.filter fun e => e.1 != k
  rw [List.filter_map] at h1
  exact h1

theorem tracked_erase {xs : List (Node K V)} {m : Tracker K} {next : Nat} (h : Tracked xs m next) (k : K) :
    Tracked (xs.filter fun n => n.key != k) (m.erase k) next :=
  ⟨erase_perm h.perm k, h.keys.filter _, h.addrs.filter _, fun n hn => h.fresh n (List.mem_filter.1 hn).1⟩

theorem erase_absent {xs : List (Node K V)} {m : Tracker K} {next : Nat} (h : Tracked xs m next) {k : K} (hk : ∀ n ∈ xs, n.key ≠ k) :
    m.erase k = m := by
  rw [Tracker.erase, List.filter_eq_self]
  intro e he
  obtain ⟨n, hn, rfl⟩ := (mem_tracker h).1 he
  simpa using hk n hn

theorem filter_absent {xs : List (Node K V)} {k : K} (hk : ∀ n ∈ xs, n.key ≠ k) : (xs.filter fun n => n.key != k) = xs := by
  rw [List.filter_eq_self]
  intro n hn
  simpa using hk n hn

theorem tracked_cons {xs : List (Node K V)} {m : Tracker K} {next : Nat} (h : Tracked xs m next) {k : K} (v : V) (hk : ∀ n ∈ xs, n.key ≠ k) :
    Tracked (⟨next, k, v⟩ :: xs) ((k, next) :: m) (next + 1) := by
  refine ⟨List.Perm.cons _ h.perm, List.pairwise_cons.2 ⟨?_, h.keys⟩, List.pairwise_cons.2 ⟨?_, h.addrs⟩, ?_⟩
  · intro n hn e; exact hk n hn e.symm
  · intro n hn e; have := h.fresh n hn; simp only at e; omega
  · intro n hn
    rcases List.mem_cons.1 hn with rfl | hn
    · simp
    · have := h.fresh n hn; omega

theorem tracked_perm {xs ys : List (Node K V)} {m : Tracker K} {next : Nat} (h : Tracked xs m next) (hp : xs.Perm ys) :
    Tracked ys m next :=
  ⟨h.perm.trans (hp.map _), hp.pairwise h.keys (fun {_ _} h => h.symm), hp.pairwise h.addrs (fun {_ _} h => h.symm),
    fun n hn => h.fresh n (hp.mem_iff.2 hn)⟩

theorem tracked_length {xs : List (Node K V)} {m : Tracker K} {next : Nat} (h : Tracked xs m next) : m.length = xs.length := by
  rw [h.perm.length_eq, List.length_map]

theorem without_keys {l : List (K × V)} {k : K} : ∀ e ∈ Spec.without l k, e.1 ≠ k := by
  intro e he
  have := (List.mem_filter.1 he).2
  simpa using this

/-- Removing the last nodes from both. -/
theorem tracked_take {xs ys : List (Node K V)} {m : Tracker K} {next : Nat} (h : Tracked (xs ++ ys) m next) :
    Tracked xs (ys.foldl (fun m n => Tracker.erase m n.key) m) next := by
  induction ys generalizing m xs with
  | nil => simpa using h
  | cons y ys ih =>
    rw [List.foldl_cons]
    apply ih
    have h1 := tracked_erase h y.key
    have h2 : ((xs ++ y :: ys).filter fun n => n.key != y.key) = xs ++ ys := by
      obtain ⟨h3, h4, h5⟩ := List.pairwise_append.1 h.keys
      obtain ⟨h6, h7⟩ := List.pairwise_cons.1 h4
      rw [List.filter_append, List.filter_cons_of_neg (by simp), filter_absent, filter_absent]
      · intro n hn e; exact h6 n hn e.symm
      · intro n hn; exact h5 n hn y (by simp)
    rw [h2] at h1
    exact h1

theorem access_perm {xs : List (Node K V)} {m : Tracker K} {next : Nat} (h : Tracked xs m next) {n : Node K V} (hn : n ∈ xs) :
    (n :: xs.filter fun x => x.key != n.key).Perm xs := by
  induction xs generalizing m with
  | nil => simp at hn
  | cons x xs ih =>
    have hx := List.pairwise_cons.1 h.keys
    rcases List.mem_cons.1 hn with rfl | hn
    · rw [List.filter_cons_of_neg (by simp), filter_absent]
      intro y hy e; exact hx.1 y hy e.symm
    · have h1 : x.key ≠ n.key := hx.1 n hn
      rw [List.filter_cons_of_pos (by simpa using h1)]
      have h2 : Tracked xs (xs.map fun n => (n.key, n.addr)) next :=
        ⟨List.Perm.refl _, hx.2, (List.pairwise_cons.1 h.addrs).2, fun y hy => h.fresh y (List.mem_cons_of_mem _ hy)⟩
      exact (List.Perm.swap _ _ _).trans ((ih h2 hn).cons x)

namespace LruCache

/-- The invariant of `lru_cache`. -/
structure Inv (c : LruCache K V) : Prop where
  tracked : Tracked c.list c.map c.next
  bound : c.list.length ≤ c.maxSize

theorem putNode_spec {c : LruCache K V} (h : Inv c) (k : K) (v : V) :
    ∃ m, putNode id c k v = { c with list := ⟨c.next, k, v⟩ :: c.list.filter (fun n => n.key != k), map := m, next := c.next + 1 } ∧
      Tracked (⟨c.next, k, v⟩ :: c.list.filter (fun n => n.key != k)) m (c.next + 1) := by
  have h1 := tracked_erase h.tracked k
  have h2 : ∀ n ∈ c.list.filter (fun n => n.key != k), n.key ≠ k := by
    intro n hn; simpa using (List.mem_filter.1 hn).2
  have h3 := tracked_cons h1 v h2
  rw [putNode]
  cases hf : c.map.find k with
  | some a =>
    obtain ⟨n, hn, hk, ha⟩ := find_some h.tracked hf
    refine ⟨(k, c.next) :: c.map.erase k, ?_, h3⟩
    have h4 : eraseNode (⟨c.next, k, v⟩ :: c.list) a = ⟨c.next, k, v⟩ :: c.list.filter (fun n => n.key != k) := by
      have hlt := h.tracked.fresh n hn
      rw [eraseNode, List.filter_cons_of_pos (by simp; omega), ← hk, ← ha, ← eraseNode_eq h.tracked.keys h.tracked.addrs hn]; rfl
    simp only [h4, Tracker.assign, id_eq, erase_absent h1 h2]
  | none =>
    have h4 := (find_none h.tracked).1 hf
    refine ⟨(k, c.next) :: c.map.erase k, ?_, h3⟩
    simp only [Tracker.assign, id_eq, filter_absent h4]

theorem shrink_spec {c : LruCache K V} (h : Tracked c.list c.map c.next) (hl : c.list.length ≤ c.maxSize + 1) :
    ∃ m, c.shrink = some { c with list := c.list.take c.maxSize, map := m } ∧ Tracked (c.list.take c.maxSize) m c.next := by
  rw [shrink, tracked_length h]
  split
  · next h1 =>
    cases hg : c.list.getLast? with
    | none =>
      rw [List.getLast?_eq_none_iff] at hg
      rw [hg] at h1; simp at h1
    | some last =>
      have h2 : c.list = c.list.dropLast ++ [last] := by
        obtain ⟨ys, hy⟩ := List.getLast?_eq_some_iff.1 hg
        rw [hy, List.dropLast_concat]
      have h3 : c.list.take c.maxSize = c.list.dropLast := by
        rw [List.dropLast_eq_take]; congr 1; omega
      refine ⟨c.map.erase last.key, by rw [h3], ?_⟩
      rw [h3]
      rw [h2] at h
      exact tracked_take h
  · next h1 =>
    have h3 : c.list.take c.maxSize = c.list := List.take_of_length_le (by omega)
    exact ⟨c.map, by rw [h3], by rw [h3]; exact h⟩

theorem put_spec {c : LruCache K V} (h : Inv c) (hp : 0 < c.maxSize) (k : K) (v : V) :
    ∃ c', put id c k v = some (v, c') ∧ Inv c' ∧ c'.maxSize = c.maxSize ∧
      pairs c'.list = Spec.use c.maxSize (pairs c.list) k v := by
  obtain ⟨m, h1, h2⟩ := putNode_spec h k v
  have hlen : (c.list.filter fun n => n.key != k).length ≤ c.list.length := List.length_filter_le _ _
  have hb := h.bound
  obtain ⟨m', h3, h4⟩ := shrink_spec (c := putNode id c k v) (by rw [h1]; exact h2) (by rw [h1]; simp only [List.length_cons]; omega)
  rw [h1] at h3 h4
  simp only at h3 h4
  rw [put, h1, h3]
  obtain ⟨j, hj⟩ : ∃ j, c.maxSize = j + 1 := ⟨c.maxSize - 1, by omega⟩
  refine ⟨⟨List.take c.maxSize (⟨c.next, k, v⟩ :: c.list.filter fun n => n.key != k), m', c.maxSize, c.next + 1⟩, ?_, ⟨h4, ?_⟩, rfl, ?_⟩
  · simp only [Option.bind_eq_bind, Option.bind_some]
    have : deref (List.take c.maxSize (⟨c.next, k, v⟩ :: c.list.filter fun n => n.key != k)) c.next = some ⟨c.next, k, v⟩ := by
      rw [hj, List.take_succ_cons, deref, List.find?_cons_of_pos (by simp)]
    rw [this]
    rfl
  · simp only [List.length_take]; omega
  · simp only [Spec.use, pairs, List.map_take, List.map_cons]
    rw [← pairs, ← pairs, pairs_without]

/-- What a step of `lru_cache` does. -/
theorem step_spec {c : LruCache K V} (h : Inv c) (hp : 0 < c.maxSize) (op : Op K V) (hop : ∀ n, op = .resize n → 0 < n) :
    ∃ c', step id c op = some ((Spec.lruStep c.maxSize (pairs c.list) op).1, c') ∧ Inv c' ∧ 0 < c'.maxSize ∧
      c'.maxSize = (Spec.lruStep c.maxSize (pairs c.list) op).2.1 ∧ pairs c'.list = (Spec.lruStep c.maxSize (pairs c.list) op).2.2 := by
  have hb := h.bound
  have hfl : ∀ k : K, (c.list.filter fun n => n.key != k).length ≤ c.list.length := fun k => List.length_filter_le _ _
  cases op with
  | put k v =>
    obtain ⟨c', h1, h2, h3, h4⟩ := put_spec h hp k v
    exact ⟨c', by simp [step, h1, Spec.lruStep], h2, by omega, h3, h4⟩
  | getOrLoad k v =>
    rw [step, getOrLoad]
    cases hf : c.map.find k with
    | none =>
      obtain ⟨c', h1, h2, h3, h4⟩ := put_spec h hp k v
      have h5 := lookup_none ((find_none h.tracked).1 hf)
      exact ⟨c', by simp [h1, Spec.lruStep, h5], h2, by omega, h3, by simp only [Spec.lruStep, h5, Option.getD_none]; exact h4⟩
    | some a =>
      obtain ⟨n, hn, rfl, rfl⟩ := find_some h.tracked hf
      have h5 := lookup_mem h.tracked.keys hn
      have h6 := access_perm h.tracked hn
      simp only [deref_mem h.tracked.addrs hn, Option.bind_eq_bind, Option.bind_some, Option.map_some, Spec.lruStep, h5, Option.getD_some]
      rw [eraseNode_eq h.tracked.keys h.tracked.addrs hn]
      refine ⟨_, rfl, ⟨tracked_perm h.tracked h6.symm, ?_⟩, hp, rfl, ?_⟩
      · have := h6.length_eq; simp only; omega
      · simp only [Spec.use]
        rw [List.take_of_length_le]
        · rw [← pairs_without]; rfl
        · rw [← pairs_without]
          have := h6.length_eq
          simp only [pairs, List.length_cons, List.length_map] at this ⊢
          omega
  | drop k =>
    rw [step, drop]
    cases hf : c.map.find k with
    | none =>
      have h5 := lookup_none ((find_none h.tracked).1 hf)
      exact ⟨c, rfl, h, hp, rfl, by simp only [Spec.lruStep]; rw [without_none h5]⟩
    | some a =>
      obtain ⟨n, hn, rfl, rfl⟩ := find_some h.tracked hf
      simp only [eraseNode_eq h.tracked.keys h.tracked.addrs hn]
      refine ⟨_, rfl, ⟨tracked_erase h.tracked _, ?_⟩, hp, rfl, pairs_without _ _⟩
      have := hfl n.key; simp only; omega
  | eject k v =>
    rw [step, eject]
    cases hf : c.map.find k with
    | none =>
      have h5 := lookup_none ((find_none h.tracked).1 hf)
      exact ⟨c, by simp [Spec.lruStep, h5], h, hp, rfl, by simp only [Spec.lruStep]; rw [without_none h5]⟩
    | some a =>
      obtain ⟨n, hn, rfl, rfl⟩ := find_some h.tracked hf
      have h5 := lookup_mem h.tracked.keys hn
      simp only [deref_mem h.tracked.addrs hn, Option.bind_eq_bind, Option.bind_some, Option.map_some, Spec.lruStep, h5, Option.getD_some]
      rw [eraseNode_eq h.tracked.keys h.tracked.addrs hn]
      refine ⟨_, rfl, ⟨tracked_erase h.tracked _, ?_⟩, hp, rfl, pairs_without _ _⟩
      have := hfl n.key; simp only; omega
  | resize n =>
    rw [step, resize]
    have hn := hop n rfl
    split
    · refine ⟨_, rfl, ⟨?_, ?_⟩, hn, rfl, ?_⟩
      · simp only
        apply tracked_take
        rw [List.take_append_drop]
        exact h.tracked
      · simp only [List.length_take]; omega
      · simp only [Spec.lruStep, pairs, List.map_take]
    · refine ⟨_, rfl, ⟨h.tracked, by simp only; omega⟩, hn, rfl, ?_⟩
      simp only [Spec.lruStep]
      rw [List.take_of_length_le]
      simp only [pairs, List.length_map]; omega
  | clear => exact ⟨_, rfl, ⟨tracked_nil _, by simp [clear]⟩, hp, rfl, rfl⟩
  | contains k =>
    refine ⟨c, ?_, h, hp, rfl, rfl⟩
    simp only [step, contains, Spec.lruStep]
    cases hf : c.map.find k with
    | none => rw [lookup_none ((find_none h.tracked).1 hf)]; rfl
    | some a =>
      obtain ⟨n, hn, rfl, rfl⟩ := find_some h.tracked hf
      rw [lookup_mem h.tracked.keys hn]; rfl
  | size =>
    refine ⟨c, ?_, h, hp, rfl, rfl⟩
    simp only [step, size, Spec.lruStep, tracked_length h.tracked, pairs, List.length_map]

theorem run_spec (ops : List (Op K V)) (hops : ∀ n, .resize n ∈ ops → 0 < n) {c : LruCache K V} (h : Inv c) (hp : 0 < c.maxSize) :
    ∃ c', run id c ops = some ((Spec.lruRun c.maxSize (pairs c.list) ops).1, c') ∧ Inv c' ∧
      c'.maxSize = (Spec.lruRun c.maxSize (pairs c.list) ops).2.1 ∧ pairs c'.list = (Spec.lruRun c.maxSize (pairs c.list) ops).2.2 := by
  induction ops generalizing c with
  | nil => exact ⟨c, rfl, h, rfl, rfl⟩
  | cons op ops ih =>
    obtain ⟨c1, h1, h2, h3, h4, h5⟩ := step_spec h hp op (fun n e => hops n (by rw [e]; simp))
    obtain ⟨c2, h6, h7, h8, h9⟩ := ih (fun n hn => hops n (List.mem_cons_of_mem _ hn)) h2 h3
    rw [h4, h5] at h6 h8 h9
    refine ⟨c2, ?_, h7, h8, h9⟩
    simp only [run, h1, h6, Option.bind_eq_bind, Option.bind_some, Spec.lruRun]

end LruCache

end Verif.Cache
