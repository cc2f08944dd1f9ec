import Verif.Cache.CacheLemmas
import Verif.Cache.FlatLemmas

/-!
# C32: the caches

Each cache is compared with a specification (`Spec.lean`) that is a list of entries, the most recently
used one first.
-/

namespace Verif.Cache

variable {K V T : Type} [DecidableEq K]

/-! ## lru_cache -/

/-- **C32**, `lru_cache`. For every history of calls and every capacity: the calls return what the
specification says, and iterating over the cache yields the entries of the specification, the most
recently used first. Excluded: a capacity of zero (refuted below) and key types for which moving from a
key changes it (refuted below); `id` says that it does not. -/
theorem C32_lru_cache_partial (cap : Nat) (hc : 0 < cap) (ops : List (LruCache.Op K V)) (hops : ∀ n, .resize n ∈ ops → 0 < n) :
    ∃ c : LruCache K V, LruCache.run id (LruCache.make cap) ops = some ((Spec.lruRun cap [] ops).1, c) ∧
      c.maxSize = (Spec.lruRun cap [] ops).2.1 ∧ c.entries = (Spec.lruRun cap [] ops).2.2 := by
  obtain ⟨c, h1, _, h2, h3⟩ := LruCache.run_spec ops hops (c := LruCache.make cap) ⟨tracked_nil _, by simp [LruCache.make]⟩ hc
  exact ⟨c, h1, h2, h3⟩

/-- **C32**, `lru_cache`: after any history, at most as many entries as the capacity, no key twice, and
`contains` and `size` agree with the entries. -/
theorem C32_lru_bounded_partial (cap : Nat) (hc : 0 < cap) (ops : List (LruCache.Op K V)) (hops : ∀ n, .resize n ∈ ops → 0 < n) :
    ∃ outs, ∃ c : LruCache K V, LruCache.run id (LruCache.make cap) ops = some (outs, c) ∧ c.entries.length ≤ c.maxSize ∧
      (c.entries.map (·.1)).Nodup ∧ c.size = c.entries.length ∧ ∀ k, c.contains k = true ↔ k ∈ c.entries.map (·.1) := by
  obtain ⟨c, h1, h2, h3, h4⟩ := LruCache.run_spec ops hops (c := LruCache.make cap) ⟨tracked_nil _, by simp [LruCache.make]⟩ hc
  refine ⟨_, c, h1, ?_, ?_, ?_, ?_⟩
  · rw [LruCache.entries, List.length_map]; exact h2.bound
  · rw [LruCache.entries, List.map_map, List.Nodup, List.pairwise_map]; exact h2.tracked.keys
  · rw [LruCache.size, tracked_length h2.tracked, LruCache.entries, List.length_map]
  · intro k
    rw [LruCache.contains, LruCache.entries, List.map_map, List.mem_map]
    cases hf : c.map.find k with
    | none =>
      have := (find_none h2.tracked).1 hf
      simp only [Option.isSome_none, Bool.false_eq_true, false_iff, not_exists, not_and, Function.comp]
      exact this
    | some a =>
      obtain ⟨n, hn, rfl, _⟩ := find_some h2.tracked hf
      simp only [Option.isSome_some, true_iff]
      exact ⟨n, hn, rfl⟩

/-- The key a `put` or `get_or_load` uses. -/
def Spec.usedKey : LruCache.Op K V → Option K
  | .put k _ => some k
  | .getOrLoad k _ => some k
  | _ => none

theorem distinct_filter (k : K) (l : List K) : Spec.distinct (l.filter (· != k)) = (Spec.distinct l).filter (· != k) := by
  induction l with
  | nil => rfl
  | cons x l ih =>
    by_cases h : x = k
    · subst h
      rw [List.filter_cons_of_neg (by simp), ih, Spec.distinct, List.filter_cons_of_neg (by simp), List.filter_filter]
      simp only [Bool.and_self]
    · rw [List.filter_cons_of_pos (by simpa using h), Spec.distinct, Spec.distinct, ih, List.filter_cons_of_pos (by simpa using h),
        List.filter_filter, List.filter_filter]
      congr 2
      funext y
      rw [Bool.and_comm]

theorem distinct_nodup (l : List K) : (Spec.distinct l).Nodup := by
  induction l with
  | nil => exact List.Pairwise.nil
  | cons x l ih =>
    rw [Spec.distinct]
    refine List.pairwise_cons.2 ⟨?_, ih.filter _⟩
    intro y hy e
    have := (List.mem_filter.1 hy).2
    simp [e] at this

/-- Forgetting beyond the capacity commutes with using. -/
theorem take_filter_take (k : K) (n : Nat) (l : List K) (hn : l.Nodup) :
    (k :: (l.take n).filter (· != k)).take n = (k :: l.filter (· != k)).take n := by
  cases n with
  | zero => rfl
  | succ n =>
    rw [List.take_succ_cons, List.take_succ_cons]
    congr 1
    by_cases hk : k ∈ l.take (n + 1)
    · -- both sides: at most one element is removed from the first n + 1
      have h1 : l = l.take (n + 1) ++ l.drop (n + 1) := (List.take_append_drop _ _).symm
      have hd : ∀ x ∈ l.drop (n + 1), x ≠ k := by
        intro x hx e
        subst e
        have := hn
        rw [h1] at this
        exact (List.nodup_append.1 this).2.2 x hk x hx rfl
      have h2 : l.filter (· != k) = (l.take (n + 1)).filter (· != k) ++ l.drop (n + 1) := by
        conv => lhs; rw [h1]
        rw [List.filter_append]
        congr 1
        rw [List.filter_eq_self]
        intro x hx
        simpa using hd x hx
      rw [h2]
      have hlen : ((l.take (n + 1)).filter (· != k)).length + 1 = (l.take (n + 1)).length := by
        have h3 := List.length_eq_countP_add_countP (fun x => x != k) (l := l.take (n + 1))
        have h4 : (l.take (n + 1)).countP (fun a => decide ¬(a != k) = true) = 1 := by
          have h5 : (fun a => decide ¬(a != k) = true) = (fun a => a == k) := by
            funext a
            by_cases h : a = k <;> simp [h]
          rw [h5]
          have h6 : (l.take (n + 1)).Nodup := hn.sublist (List.take_sublist _ _)
          have := h6.count (a := k)
          rw [if_pos hk] at this
          exact this
        rw [h4, List.countP_eq_length_filter] at h3
        omega
      by_cases hl : n + 1 ≤ l.length
      · rw [List.length_take, Nat.min_eq_left hl] at hlen
        generalize (l.take (n + 1)).filter (· != k) = a at hlen ⊢
        rw [List.take_of_length_le (by omega), List.take_append_of_le_length (by omega), List.take_of_length_le (by omega)]
      · rw [List.drop_eq_nil_of_le (by omega), List.append_nil]
    · have h1 : (l.take (n + 1)).filter (· != k) = l.take (n + 1) := by
        rw [List.filter_eq_self]
        intro x hx
        have : x ≠ k := fun e => hk (e ▸ hx)
        simpa using this
      rw [h1, List.take_take, Nat.min_eq_left (by omega)]
      have h2 : l = l.take (n + 1) ++ l.drop (n + 1) := (List.take_append_drop _ _).symm
      conv => rhs; rw [h2, List.filter_append, h1]
      by_cases hl : n ≤ l.length
      · rw [List.take_append_of_le_length (by rw [List.length_take]; omega), List.take_take, Nat.min_eq_left (by omega)]
      · rw [List.drop_eq_nil_of_le (by omega)]
        simp only [List.filter_nil, List.append_nil]
        rw [List.take_take, Nat.min_eq_left (by omega)]

theorem lruRun_keys (cap : Nat) (ops : List (LruCache.Op K V)) (hu : ∀ op ∈ ops, (Spec.usedKey op).isSome) :
    ∀ (l : List (K × V)) (used : List K), l.map (·.1) = (Spec.distinct used).take cap →
      (Spec.lruRun cap l ops).2.2.map (·.1) = (Spec.distinct ((ops.filterMap Spec.usedKey).reverse ++ used)).take cap := by
  induction ops with
  | nil => intro l used h; simpa [Spec.lruRun] using h
  | cons op ops ih =>
    intro l used h
    have hstep : ∀ k v, (Spec.use cap l k v).map (·.1) = (Spec.distinct (k :: used)).take cap := by
      intro k v
      rw [Spec.use, List.map_take, List.map_cons, Spec.without]
      have h1 : (l.filter fun e => e.1 != k).map (·.1) = (l.map (·.1)).filter (· != k) := by
        rw [List.filter_map]; rfl
      rw [h1, h, take_filter_take k cap _ (distinct_nodup used)]
      rfl
    have hu' : ∀ op ∈ ops, (Spec.usedKey op).isSome := fun o ho => hu o (List.mem_cons_of_mem _ ho)
    cases op with
    | put k v =>
      simp only [Spec.lruRun, Spec.lruStep]
      rw [ih hu' _ _ (hstep k v), List.filterMap_cons]
      simp [Spec.usedKey]
    | getOrLoad k v =>
      simp only [Spec.lruRun, Spec.lruStep]
      rw [ih hu' _ _ (hstep k _), List.filterMap_cons]
      simp [Spec.usedKey]
    | _ => have := hu _ (List.mem_cons_self ..); simp [Spec.usedKey] at this

/-- **C32**, `lru_cache`: it is the least recently used entry that goes. After any history of `put` and
`get_or_load`, the cache holds exactly the keys used last: the first `cap` distinct keys of the history,
read backwards. -/
theorem C32_lru_recency_partial (cap : Nat) (hc : 0 < cap) (ops : List (LruCache.Op K V)) (hu : ∀ op ∈ ops, (Spec.usedKey op).isSome) :
    ∃ outs, ∃ c : LruCache K V, LruCache.run id (LruCache.make cap) ops = some (outs, c) ∧
      c.entries.map (·.1) = (Spec.distinct (ops.filterMap Spec.usedKey).reverse).take cap := by
  obtain ⟨c, h1, _, h3⟩ := C32_lru_cache_partial cap hc ops (by
    intro n hn
    have := hu _ hn
    simp [Spec.usedKey] at this)
  refine ⟨_, c, h1, ?_⟩
  rw [h3, lruRun_keys cap ops hu [] [] (by simp [Spec.distinct]), List.append_nil]

/-- **C32**, `lru_cache`: a value stays until something else is stored for its key, it is dropped, or
enough other keys are used: after `put(k, v)`, as long as only other keys occur, and fewer than the
capacity of them, `get_or_load(k)` returns `v`. -/
theorem C32_lru_hit_partial (cap : Nat) (before after : List (LruCache.Op K V)) (hb : ∀ n, .resize n ∈ before → 0 < n) (hc : 0 < cap)
    (k : K) (v made : V) (hu : ∀ op ∈ after, ∃ k', Spec.usedKey op = some k' ∧ k' ≠ k)
    (hd : (Spec.distinct (after.filterMap Spec.usedKey)).length < (Spec.lruRun cap [] before).2.1) :
    ∃ outs, ∃ c : LruCache K V, LruCache.run id (LruCache.make cap) (before ++ .put k v :: after ++ [.getOrLoad k made]) = some (outs, c) ∧
      outs.getLast? = some (.value v) := by
  have happ : ∀ (xs ys : List (LruCache.Op K V)) (n : Nat) (l : List (K × V)), Spec.lruRun n l (xs ++ ys) =
      ((Spec.lruRun n l xs).1 ++ (Spec.lruRun (Spec.lruRun n l xs).2.1 (Spec.lruRun n l xs).2.2 ys).1,
        (Spec.lruRun (Spec.lruRun n l xs).2.1 (Spec.lruRun n l xs).2.2 ys).2) := by
    intro xs
    induction xs with
    | nil => intro ys n l; rfl
    | cons x xs ih =>
      intro ys n l
      simp only [List.cons_append, Spec.lruRun, ih]
  obtain ⟨c, h1, _, _⟩ := C32_lru_cache_partial cap hc (before ++ .put k v :: after ++ [.getOrLoad k made]) (by
    intro n hn
    simp only [List.append_assoc, List.cons_append, List.mem_append, List.mem_cons, List.not_mem_nil, or_false, reduceCtorEq,
      false_or] at hn
    rcases hn with hn | hn
    · exact hb n hn
    · obtain ⟨_, h, _⟩ := hu _ hn; simp [Spec.usedKey] at h)
  refine ⟨_, c, h1, ?_⟩
  generalize hs : Spec.lruRun cap [] before = s at hd
  obtain ⟨o1, n, l⟩ := s
  simp only at hd
  -- the key is found after `after`
  have key : ∀ (ops : List (LruCache.Op K V)), (∀ op ∈ ops, ∃ k', Spec.usedKey op = some k' ∧ k' ≠ k) →
      ∀ (pre post : List (K × V)) (used : List K), pre.map (·.1) = Spec.distinct used → (∀ x ∈ used, x ≠ k) →
      (Spec.distinct (ops.filterMap Spec.usedKey ++ used)).length < n → 
      ∃ pre' post', (Spec.lruRun n (pre ++ (k, v) :: post) ops).2 = (n, pre' ++ (k, v) :: post') ∧ ∀ x ∈ pre', x.1 ≠ k := by
    have hlen : ∀ a b : List K, (∀ x ∈ a, x ∈ b) → (Spec.distinct a).length ≤ (Spec.distinct b).length := by
      intro a b hab
      have hmem : ∀ (l : List K) (x : K), x ∈ Spec.distinct l ↔ x ∈ l := by
        intro l
        induction l with
        | nil => intro x; simp [Spec.distinct]
        | cons y l ih =>
          intro x
          rw [Spec.distinct, List.mem_cons, List.mem_cons, List.mem_filter, ih]
          by_cases hxy : x = y <;> simp [hxy]
      have hsub : ∀ (a b : List K), a.Nodup → (∀ x ∈ a, x ∈ b) → a.length ≤ b.length := by
        intro a
        induction a with
        | nil => intro b _ _; simp
        | cons x a ih =>
          intro b hn hb
          obtain ⟨h1, h2⟩ := List.nodup_cons.1 hn
          have h3 := ih (b.erase x) h2 (by
            intro y hy
            have : y ≠ x := fun e => h1 (e ▸ hy)
            exact (List.mem_erase_of_ne this).2 (hb y (List.mem_cons_of_mem _ hy)))
          have h4 := List.length_erase_of_mem (hb x (List.mem_cons_self ..))
          have h5 : 0 < b.length := List.length_pos_of_mem (hb x (List.mem_cons_self ..))
          simp only [List.length_cons]; omega
      exact hsub _ _ (distinct_nodup a) (fun x hx => (hmem b x).2 (hab x ((hmem a x).1 hx)))
    intro ops
    induction ops with
    | nil =>
      intro _ pre post used hpre hused _
      refine ⟨pre, post, rfl, ?_⟩
      intro x hx e
      have hmem : ∀ (l : List K) (x : K), x ∈ Spec.distinct l → x ∈ l := by
        intro l
        induction l with
        | nil => intro x; simp [Spec.distinct]
        | cons y l ih =>
          intro x hx
          rw [Spec.distinct, List.mem_cons, List.mem_filter] at hx
          rcases hx with rfl | hx
          · simp
          · exact List.mem_cons_of_mem _ (ih x hx.1)
      have : x.1 ∈ Spec.distinct used := by rw [← hpre]; exact List.mem_map_of_mem hx
      exact hused _ (hmem _ _ this) e
    | cons op ops ih =>
      intro hops pre post used hpre hused hn
      obtain ⟨k', hk1, hk2⟩ := hops op (List.mem_cons_self ..)
      have huse : ∀ v', ∃ post', Spec.use n (pre ++ (k, v) :: post) k' v' =
          ((k', v') :: pre.filter fun e => e.1 != k') ++ (k, v) :: post' := by
        intro v'
        rw [Spec.use, Spec.without, List.filter_append, List.filter_cons_of_pos (by simpa using Ne.symm hk2), ← List.cons_append]
        have hl : ((k', v') :: pre.filter fun e => e.1 != k').length < n := by
          have h1 : ((k', v') :: pre.filter fun e => e.1 != k').length = (Spec.distinct (k' :: used)).length := by
            rw [Spec.distinct, ← hpre, List.filter_map, List.length_cons, List.length_cons, List.length_map]; rfl
          rw [h1]
          refine Nat.lt_of_le_of_lt (hlen _ _ ?_) hn
          intro x hx
          rcases List.mem_cons.1 hx with rfl | hx
          · simp [hk1]
          · exact List.mem_append.2 (Or.inr hx)
        generalize ((k', v') :: pre.filter fun e => e.1 != k') = a at hl ⊢
        refine ⟨(post.filter fun e => e.1 != k').take (n - a.length - 1), ?_⟩
        rw [List.take_append, List.take_of_length_le (by omega)]
        obtain ⟨j, hj⟩ : ∃ j, n - a.length = j + 1 := ⟨n - a.length - 1, by omega⟩
        rw [hj, List.take_succ_cons]; rfl
      have hpre' : ∀ v', ((k', v') :: pre.filter fun e => e.1 != k').map (·.1) = Spec.distinct (k' :: used) := by
        intro v'
        rw [Spec.distinct, ← hpre, List.filter_map]; rfl
      have hn' : (Spec.distinct (ops.filterMap Spec.usedKey ++ k' :: used)).length < n := by
        refine Nat.lt_of_le_of_lt (hlen _ _ ?_) hn
        intro x hx
        simp only [List.filterMap_cons, hk1, List.mem_append, List.mem_cons] at hx ⊢
        rcases hx with h | h | h
        · exact Or.inl (Or.inr h)
        · exact Or.inl (Or.inl h)
        · exact Or.inr h
      have hused' : ∀ x ∈ k' :: used, x ≠ k := by
        intro x hx
        rcases List.mem_cons.1 hx with rfl | hx
        · exact hk2
        · exact hused x hx
      have hops' := fun o ho => hops o (List.mem_cons_of_mem _ ho)
      cases op with
      | put k1 v1 =>
        obtain rfl : k1 = k' := by simpa [Spec.usedKey] using hk1
        obtain ⟨post', hp⟩ := huse v1
        simp only [Spec.lruRun, Spec.lruStep, hp]
        exact ih hops' _ post' _ (hpre' v1) hused' hn'
      | getOrLoad k1 v1 =>
        obtain rfl : k1 = k' := by simpa [Spec.usedKey] using hk1
        obtain ⟨post', hp⟩ := huse ((Spec.lookup (pre ++ (k, v) :: post) k1).getD v1)
        simp only [Spec.lruRun, Spec.lruStep, hp]
        exact ih hops' _ post' _ (hpre' _) hused' hn'
      | _ => simp [Spec.usedKey] at hk1
  have hput : ∃ post, Spec.use n l k v = (k, v) :: post := by
    obtain ⟨j, hj⟩ : ∃ j, n = j + 1 := ⟨n - 1, by omega⟩
    rw [Spec.use, hj, List.take_succ_cons]
    exact ⟨_, rfl⟩
  obtain ⟨post, hput⟩ := hput
  obtain ⟨pre', post', hr, hne⟩ := key after hu [] post [] rfl (by simp) (by simpa using hd)
  rw [List.append_assoc, happ, hs]
  simp only [List.cons_append, Spec.lruRun, Spec.lruStep, hput]
  rw [happ]
  simp only [List.nil_append] at hr
  rw [hr]
  have hfind : Spec.lookup (pre' ++ (k, v) :: post') k = some v := by
    rw [Spec.lookup, List.find?_append]
    have : pre'.find? (fun e => e.1 == k) = none := by
      rw [List.find?_eq_none]
      intro x hx
      simpa using hne x hx
    rw [this]
    simp
  simp only [Spec.lruRun, Spec.lruStep, hfind, Option.getD_some]
  rw [← List.cons_append, ← List.append_assoc, List.getLast?_concat]

/-- A cache of capacity two: storing a third key evicts the one not used since. -/
example : LruCache.run id (LruCache.make 2) [.put 1 'a', .put 2 'b', .getOrLoad 1 'x', .put 3 'c', .contains 2, .getOrLoad 1 'x']
    = some ([.value 'a', .value 'b', .value 'a', .value 'c', .bool false, .value 'a'],
      ⟨[⟨0, 1, 'a'⟩, ⟨2, 3, 'c'⟩], [(3, 2), (1, 0)], 2, 3⟩) := by decide

/-- **C32** is refuted for a cache without capacity: `put` returns a reference to an entry that it has
removed. -/
theorem C32_lru_capacity_zero_refuted (k : K) (v : V) : LruCache.put id (LruCache.make 0) k v = none := by
  simp [LruCache.put, LruCache.putNode, LruCache.make, LruCache.shrink, Tracker.find, Tracker.assign, Tracker.erase, deref]

/-- **C32** is refuted for key types that are changed by moving from them, such as strings: `put` moves
from the key and then uses it. The key stored is not found again, and the cache exceeds its capacity.
(The only user of the cache, the index, has UUIDs as keys, which are not changed.) -/
theorem C32_lru_moved_key_refuted :
    ∃ (moved : List Char → List Char) (ops : List (LruCache.Op (List Char) Nat)) (outs : List (LruCache.Out Nat)) (c : LruCache (List Char) Nat),
      LruCache.run moved (LruCache.make 1) ops = some (outs, c) ∧ c.maxSize = 1 ∧ c.entries.length = 2 ∧ c.contains ['b'] = false ∧
        (['b'], 2) ∈ c.entries :=
  ⟨fun _ => [], [.put ['a'] 1, .put ['b'] 2], [.value 1, .value 2], ⟨[⟨1, ['b'], 2⟩, ⟨0, ['a'], 1⟩], [([], 1)], 1, 2⟩, by decide, rfl, rfl,
    by decide, by decide⟩

/-! ## cache -/

/-- **C32**, `cache`: for every history of calls, every positive capacity and both policies: the calls
return, and hand to the eviction callback, what the specification says, and iterating over the cache
yields its entries, the next one to be evicted first. Only evicting from an empty cache is not
defined. -/
theorem C32_cache_partial (p : Policy) (cap : Nat) (hc : 0 < cap) (ops : List (Cache.Op K V)) (hops : ∀ n, .setCapacity n ∈ ops → 0 < n) :
    (Cache.run p (Cache.make cap) ops).map (fun r => (r.1, r.2.capacity, r.2.entries, r.2.evicted)) =
      (Spec.cacheRun p ⟨cap, [], []⟩ ops).map fun r =>
        (r.1, r.2.cap, (match p with | .lru => r.2.entries.reverse | .mru => r.2.entries), r.2.evicted) := by
  have h := (Cache.run_spec p ops hops (c := Cache.make cap) ⟨tracked_nil _, by simp [Cache.make], hc⟩).1
  have h0 : Cache.abs p (Cache.make cap : Cache K V) = ⟨cap, [], []⟩ := by cases p <;> rfl
  rw [h0] at h
  rw [← h, Option.map_map]
  congr 1
  funext r
  cases p <;> simp [Cache.abs, Cache.recent, Cache.orient]

/-- **C32**, `cache`: after any history, at most as many entries as the capacity, and no key twice. -/
theorem C32_cache_bounded_partial (p : Policy) (cap : Nat) (hc : 0 < cap) (ops : List (Cache.Op K V))
    (hops : ∀ n, .setCapacity n ∈ ops → 0 < n) (outs : List (Cache.Out K V)) (c : Cache K V)
    (h : Cache.run p (Cache.make cap) ops = some (outs, c)) :
    c.entries.length ≤ c.capacity ∧ (c.entries.map (·.1)).Nodup := by
  have h1 := (Cache.run_spec p ops hops (c := Cache.make cap) ⟨tracked_nil _, by simp [Cache.make], hc⟩).2 _ h
  refine ⟨by rw [Cache.entries, List.length_map]; exact h1.bound, ?_⟩
  rw [Cache.entries, List.map_map, List.Nodup, List.pairwise_map]
  exact h1.tracked.keys

/-- **C32**, `cache`: evicting is defined exactly if the cache is not empty. -/
theorem C32_cache_evict (c : Cache K V) : c.evict = none ↔ c.entries = [] := by
  cases hx : c.xs <;> simp [Cache.evict, Cache.entries, hx]

/-- Three insertions into a cache of capacity two, under both policies. -/
example : (Cache.run .lru (Cache.make 2) [.insert 1 'a', .insert 2 'b', .find 1, .insert 3 'c', .insert 1 'x']).map
      (fun r => (r.1.getLast?, r.2.entries, r.2.evicted)) = some (some (.inserted 'a' false), [(3, 'c'), (1, 'a')], [(2, 'b')])
    ∧ (Cache.run .mru (Cache.make 2) [.insert 1 'a', .insert 2 'b', .find 1, .insert 3 'c']).map
      (fun r => (r.2.entries, r.2.evicted)) = some ([(3, 'c'), (2, 'b')], [(1, 'a')]) := by decide

/-- What the specification means: inserting into a full cache with the policy `lru` evicts the entry
that was used least recently. -/
example : (Spec.cacheRun .lru ⟨2, [], []⟩ [.insert 1 'a', .insert 2 'b', .find 1, .insert 3 'c']).map (fun r => (r.2.entries, r.2.evicted))
    = some ([(3, 'c'), (1, 'a')], [(2, 'b')]) := by decide

/-! ## flat_lru_cache -/

/-- **C32**, `flat_lru_cache`: for every history of calls that keeps to the documented conditions and
every positive size: the calls return what the specification says, the elements are those of the
specification, at most as many as the size, no key occurs twice, and `contains` tells the keys of the
elements. -/
theorem C32_flat_partial (key : T → K) (cap : Nat) (hc : 0 < cap) (ops : List (Flat.Op K T)) (ha : Spec.flatAllowed key cap [] ops) :
    ∃ c, Flat.run key (Flat.make cap) ops = some ((Spec.flatRun key cap [] ops).1, c) ∧
      c.size = (Spec.flatRun key cap [] ops).2.1 ∧ c.elements.reverse = (Spec.flatRun key cap [] ops).2.2 ∧
      c.elements.length ≤ c.size ∧ (c.elements.map key).Nodup ∧
      ∀ k, c.contains key k = true ↔ ∃ t ∈ (Spec.flatRun key cap [] ops).2.2, key t = k := by
  obtain ⟨c, h1, h2, h3, h4⟩ := Flat.run_spec ops (c := Flat.make cap) ⟨List.Pairwise.nil, by simp [Flat.make], hc⟩ ha
  refine ⟨c, h1, h3, h4, h2.bound, ?_, fun k => ?_⟩
  · rw [List.Nodup, List.pairwise_map]
    exact h2.keys
  · have h5 : c.elements.reverse = (Spec.flatRun key cap [] ops).2.2 := h4
    simp [Flat.contains, ← h5]

/-- Elements that are pairs, with the first component as key. -/
example : Spec.flatAllowed (K := Nat) (T := Nat × Char) (·.1) 2 []
      [.getOrAdd 1 (1, 'a'), .add (2, 'b'), .getOrAdd 1 (1, 'x'), .getOrAdd 3 (3, 'c'), .setSize 1]
    ∧ Flat.run (K := Nat) (·.1) (Flat.make 2) [.getOrAdd 1 (1, 'a'), .add (2, 'b'), .getOrAdd 1 (1, 'x'), .getOrAdd 3 (3, 'c')]
      = some ([some (1, 'a'), some (2, 'b'), some (1, 'a'), some (3, 'c')], ⟨[(1, 'a'), (3, 'c')], 2⟩) := by
  refine ⟨by simp [Spec.flatAllowed, Spec.flatStep], by decide⟩

/-- **C32** is refuted for a `flat_lru_cache` of size zero: adding an element rotates an empty vector. -/
theorem C32_flat_size_zero_refuted (t : T) : Flat.add (Flat.make 0) t = none := by
  simp [Flat.add, Flat.make, Flat.rotateFrom]

end Verif.Cache
