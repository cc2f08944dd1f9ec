import Verif.Cache.Model

/-!
# What a cache should do

A cache is a list of entries, the most recently used one first. Nothing here refers to how the caches
store their entries, only to their calls.
-/

namespace Verif.Cache.Spec

variable {K V : Type} [DecidableEq K]

/-- The entries of other keys. -/
def without (l : List (K × V)) (k : K) : List (K × V) := l.filter fun e => e.1 != k

/-- The value of a key. -/
def lookup (l : List (K × V)) (k : K) : Option V := (l.find? fun e => e.1 == k).map (·.2)

/-- Using an entry makes it the most recent one; what exceeds the capacity is forgotten, the least
recently used entries first. -/
def use (cap : Nat) (l : List (K × V)) (k : K) (v : V) : List (K × V) := ((k, v) :: without l k).take cap

/-- The specification of `lru_cache`: the result of a call, the capacity and the entries after it. -/
def lruStep (cap : Nat) (l : List (K × V)) : LruCache.Op K V → LruCache.Out V × Nat × List (K × V)
  | .put k v => (.value v, cap, use cap l k v)
  | .getOrLoad k made => (.value ((lookup l k).getD made), cap, use cap l k ((lookup l k).getD made))
  | .drop k => (.unit, cap, without l k)
  | .eject k made => (.value ((lookup l k).getD made), cap, without l k)
  | .resize n => (.unit, n, l.take n)
  | .clear => (.unit, cap, [])
  | .contains k => (.bool (lookup l k).isSome, cap, l)
  | .size => (.num l.length, cap, l)

/-- A sequence of calls. -/
def lruRun : Nat → List (K × V) → List (LruCache.Op K V) → List (LruCache.Out V) × Nat × List (K × V)
  | cap, l, [] => ([], cap, l)
  | cap, l, op :: ops =>
    let r := lruStep cap l op
    let rs := lruRun r.2.1 r.2.2 ops
    (r.1 :: rs.1, rs.2)

/-- The keys of a sequence, each once, in the order of their first occurrence. -/
def distinct : List K → List K
  | [] => []
  | k :: ks => k :: (distinct ks).filter (· != k)

/-- The entry to evict: the least recently used one, or the most recently used one. -/
def victim (p : Policy) (l : List (K × V)) : Option (K × V) :=
  match p with
  | .lru => l.getLast?
  | .mru => l.head?

/-- The rest. -/
def rest (p : Policy) (l : List (K × V)) : List (K × V) :=
  match p with
  | .lru => l.dropLast
  | .mru => l.tail

/-- Evicts entries until at most `n` are left; also returns those evicted, in order. -/
def evictTo (p : Policy) (n : Nat) : Nat → List (K × V) → List (K × V) × List (K × V)
  | 0, l => (l, [])
  | fuel + 1, l =>
    if l.length ≤ n then (l, [])
    else
      let r := evictTo p n fuel (rest p l)
      (r.1, (victim p l).toList ++ r.2)

/-- The state of the specification of `cache`: the capacity, the entries (the most recently used first)
and the calls of the eviction callback. -/
structure State (K V : Type) where
  cap : Nat
  entries : List (K × V)
  evicted : List (K × V)

/-- Touches a key, if it exists. -/
def touch (l : List (K × V)) (k : K) : List (K × V) :=
  match lookup l k with
  | some v => (k, v) :: without l k
  | none => l

/-- The specification of `cache`. Evicting from an empty cache is not allowed. -/
def cacheStep (p : Policy) (s : State K V) : Cache.Op K V → Option (Cache.Out K V × State K V)
  | .insert k v => some (match lookup s.entries k with
    | some old => (.inserted old false, { s with entries := touch s.entries k })
    | none =>
      let r := evictTo p (s.cap - 1) s.entries.length s.entries
      (.inserted v true, { s with entries := (k, v) :: r.1, evicted := s.evicted ++ r.2 }))
  | .find k => some (.found ((lookup s.entries k).map fun v => (k, v)), { s with entries := touch s.entries k })
  | .eraseKey k => some (.num (if (lookup s.entries k).isSome then 1 else 0), { s with entries := without s.entries k })
  | .eraseFound k => some (.unit, { s with entries := without s.entries k })
  | .evict => (victim p s.entries).map fun e =>
      (.pair e.1 e.2, { s with entries := rest p s.entries, evicted := s.evicted ++ [e] })
  | .setCapacity n =>
      let r := evictTo p n s.entries.length s.entries
      some (.unit, ⟨n, r.1, s.evicted ++ r.2⟩)
  | .clear => some (.unit, { s with entries := [] })
  | .reload => some (.unit, s)

/-- A sequence of calls. -/
def cacheRun (p : Policy) : State K V → List (Cache.Op K V) → Option (List (Cache.Out K V) × State K V)
  | s, [] => some ([], s)
  | s, op :: ops => do
    let r ← cacheStep p s op
    let rs ← cacheRun p r.2 ops
    some (r.1 :: rs.1, rs.2)

/-- The specification of `flat_lru_cache`, whose elements contain their key. -/
def flatStep {T : Type} (key : T → K) (cap : Nat) (l : List T) : Flat.Op K T → Option T × Nat × List T
  | .getOrAdd k made =>
    let t := (l.find? fun t => key t == k).getD made
    (some t, cap, (t :: l.filter fun t => key t != k).take cap)
  | .add t => (some t, cap, (t :: l).take cap)
  | .setSize n => (none, n, l.take n)

/-- A sequence of calls. -/
def flatRun {T : Type} (key : T → K) : Nat → List T → List (Flat.Op K T) → List (Option T) × Nat × List T
  | cap, l, [] => ([], cap, l)
  | cap, l, op :: ops =>
    let r := flatStep key cap l op
    let rs := flatRun key r.2.1 r.2.2 ops
    (r.1 :: rs.1, rs.2)

/-- What the documentation of `flat_lru_cache` asks for: the factory makes elements of the key it is given,
elements are added only if there is none of that key, and the size is not zero. -/
def flatAllowed {T : Type} (key : T → K) : Nat → List T → List (Flat.Op K T) → Prop
  | _, _, [] => True
  | cap, l, op :: ops =>
    (match op with
      | .getOrAdd k made => key made = k
      | .add t => ∀ x ∈ l, key x ≠ key t
      | .setSize n => 0 < n) ∧
    flatAllowed key (flatStep key cap l op).2.1 (flatStep key cap l op).2.2 ops

end Verif.Cache.Spec
