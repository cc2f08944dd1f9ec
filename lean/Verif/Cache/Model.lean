/-!
# The caches

Models of `libvast/vast/detail/lru_cache.hpp`, `libvast/vast/detail/cache.hpp` and
`libvast/vast/detail/flat_lru_cache.hpp`.

The nodes of a `std::list` carry an address, so that the iterators stored in the hash maps can dangle:
following an iterator whose node is gone is undefined behaviour, written `none`.
-/

namespace Verif.Cache

variable {K V : Type} [DecidableEq K]

/-- A node of a `std::list<std::pair<Key, Value>>`. The address identifies the node. -/
structure Node (K V : Type) where
  addr : Nat
  key : K
  value : V
deriving DecidableEq, Repr

/-- `std::list::erase(iterator)`. -/
def eraseNode (xs : List (Node K V)) (a : Nat) : List (Node K V) := xs.filter fun n => n.addr != a

/-- Dereferencing a list iterator; `none` if it dangles. -/
def deref (xs : List (Node K V)) (a : Nat) : Option (Node K V) := xs.find? fun n => n.addr == a

/-- `std::unordered_map<Key, list_iterator>`, as a list of its entries in any order. -/
abbrev Tracker (K : Type) := List (K × Nat)

/-- `unordered_map::find`. -/
def Tracker.find (m : Tracker K) (k : K) : Option Nat := (List.find? (fun e => e.1 == k) m).map (·.2)

/-- `unordered_map::erase(key)`, and `erase(iterator)` of the entry found for the key. -/
def Tracker.erase (m : Tracker K) (k : K) : Tracker K := List.filter (fun e => e.1 != k) m

/-- `m[k] = a`. -/
def Tracker.assign (m : Tracker K) (k : K) (a : Nat) : Tracker K := (k, a) :: m.erase k

/-- `unordered_map::emplace`: does nothing if the key exists. -/
def Tracker.emplace (m : Tracker K) (k : K) (a : Nat) : Tracker K := if (m.find k).isSome then m else (k, a) :: m

/-! ## lru_cache -/

/-- lru_cache.hpp:150-153, the data members but the factory. `next` is an address not yet used. -/
structure LruCache (K V : Type) where
  list : List (Node K V)
  map : Tracker K
  maxSize : Nat
  next : Nat
deriving DecidableEq, Repr

namespace LruCache

/-- lru_cache.hpp:48-50, the constructor. -/
def make (maxSize : Nat) : LruCache K V := ⟨[], [], maxSize, 0⟩

/-- lru_cache.hpp:52-55 `clear`. -/
def clear (c : LruCache K V) : LruCache K V := { c with list := [], map := [] }

/-- lru_cache.hpp:57-68 `resize`: the loop visits every node from position `max_size` on. -/
def resize (c : LruCache K V) (maxSize : Nat) : LruCache K V :=
  if c.list.length > maxSize then
    { c with
      map := (c.list.drop maxSize).foldl (fun m n => Tracker.erase m n.key) c.map
      list := c.list.take maxSize
      maxSize := maxSize }
  else { c with maxSize := maxSize }

/-- lru_cache.hpp:88-95: the new node goes to the front, the old entry is removed, the map is updated.
`moved` is what moving from a key leaves behind: line 89 moves from `key`, line 95 uses it. -/
def putNode (moved : K → K) (c : LruCache K V) (k : K) (v : V) : LruCache K V :=
  match c.map.find k with
  | some a => { c with
      list := eraseNode (⟨c.next, k, v⟩ :: c.list) a
      map := Tracker.assign (c.map.erase k) (moved k) c.next
      next := c.next + 1 }
  | none => { c with
      list := ⟨c.next, k, v⟩ :: c.list
      map := c.map.assign (moved k) c.next
      next := c.next + 1 }

/-- lru_cache.hpp:96-101: evicts the last node if the cache is too large. -/
def shrink (c : LruCache K V) : Option (LruCache K V) :=
  if c.map.length > c.maxSize then
    match c.list.getLast? with
    | none => none
    | some last => some { c with map := c.map.erase last.key, list := c.list.dropLast }
  else some c

/-- lru_cache.hpp:86-103 `put`. The result is a reference into the new node: reading it is undefined if
that node is gone. -/
def put (moved : K → K) (c : LruCache K V) (k : K) (v : V) : Option (V × LruCache K V) := do
  let c' ← (putNode moved c k v).shrink
  let node ← deref c'.list c.next
  some (node.value, c')

/-- lru_cache.hpp:105-113 `get_or_load`. `made` is what the factory would return for the key. -/
def getOrLoad (moved : K → K) (c : LruCache K V) (k : K) (made : V) : Option (V × LruCache K V) :=
  match c.map.find k with
  | some a => do
    let node ← deref c.list a
    some (node.value, { c with list := node :: eraseNode c.list a })
  | none => put moved c k made

/-- lru_cache.hpp:115-121 `drop`. -/
def drop (c : LruCache K V) (k : K) : LruCache K V :=
  match c.map.find k with
  | some a => { c with list := eraseNode c.list a, map := c.map.erase k }
  | none => c

/-- lru_cache.hpp:125-135 `eject`. -/
def eject (c : LruCache K V) (k : K) (made : V) : Option (V × LruCache K V) :=
  match c.map.find k with
  | some a => do
    let node ← deref c.list a
    some (node.value, { c with list := eraseNode c.list a, map := c.map.erase k })
  | none => some (made, c)

/-- lru_cache.hpp:137-139 `contains`. -/
def contains (c : LruCache K V) (k : K) : Bool := (c.map.find k).isSome

/-- lru_cache.hpp:141-143 `size`. -/
def size (c : LruCache K V) : Nat := c.map.length

/-- lru_cache.hpp:70-84, what iterating from `begin` to `end` yields. -/
def entries (c : LruCache K V) : List (K × V) := c.list.map fun n => (n.key, n.value)

/-- The calls of the interface. The factory's answer comes with the call, as it may change over time. -/
inductive Op (K V : Type) where
  | put (k : K) (v : V)
  | getOrLoad (k : K) (made : V)
  | drop (k : K)
  | eject (k : K) (made : V)
  | resize (n : Nat)
  | clear
  | contains (k : K)
  | size
deriving Repr

/-- What a call returns. -/
inductive Out (V : Type) where
  | value (v : V)
  | bool (b : Bool)
  | num (n : Nat)
  | unit
deriving DecidableEq, Repr

/-- One call. -/
def step (moved : K → K) (c : LruCache K V) : Op K V → Option (Out V × LruCache K V)
  | .put k v => (put moved c k v).map fun r => (.value r.1, r.2)
  | .getOrLoad k v => (getOrLoad moved c k v).map fun r => (.value r.1, r.2)
  | .drop k => some (.unit, c.drop k)
  | .eject k v => (c.eject k v).map fun r => (.value r.1, r.2)
  | .resize n => some (.unit, c.resize n)
  | .clear => some (.unit, c.clear)
  | .contains k => some (.bool (c.contains k), c)
  | .size => some (.num c.size, c)

/-- A sequence of calls: what they return and the final state. -/
def run (moved : K → K) : LruCache K V → List (Op K V) → Option (List (Out V) × LruCache K V)
  | c, [] => some ([], c)
  | c, op :: ops => do
    let r ← step moved c op
    let rs ← run moved r.2 ops
    some (r.1 :: rs.1, rs.2)

end LruCache

/-! ## cache -/

/-- cache.hpp:249-273, the two policies. -/
inductive Policy where
  | lru
  | mru
deriving DecidableEq, Repr

/-- cache.hpp:243-246, the data members; `evicted` records the calls of the eviction callback. -/
structure Cache (K V : Type) where
  xs : List (Node K V)
  tracker : Tracker K
  capacity : Nat
  next : Nat
  evicted : List (K × V)
deriving DecidableEq, Repr

namespace Cache

/-- cache.hpp:47-49, the constructor. -/
def make (capacity : Nat) : Cache K V := ⟨[], [], capacity, 0, []⟩

/-- cache.hpp:251-254 and 264-267 `policy::access`. -/
def access (p : Policy) (xs : List (Node K V)) (n : Node K V) : List (Node K V) :=
  match p with
  | .lru => eraseNode xs n.addr ++ [n]
  | .mru => n :: eraseNode xs n.addr

/-- cache.hpp:256-259 and 269-272 `policy::insert`. -/
def policyInsert (p : Policy) (xs : List (Node K V)) (n : Node K V) : List (Node K V) :=
  match p with
  | .lru => xs ++ [n]
  | .mru => n :: xs

/-- cache.hpp:62-72 `evict`; undefined for an empty cache. -/
def evict (c : Cache K V) : Option ((K × V) × Cache K V) :=
  match c.xs with
  | [] => none
  | n :: xs => some ((n.key, n.value),
      { c with xs := xs, tracker := c.tracker.erase n.key, evicted := c.evicted ++ [(n.key, n.value)] })

/-- cache.hpp:88-89, the loop that evicts. -/
def evictN : Nat → Cache K V → Option (Cache K V)
  | 0, c => some c
  | n + 1, c => do
    let r ← c.evict
    evictN n r.2

/-- cache.hpp:84-90, setting the capacity. -/
def setCapacity (c : Cache K V) (n : Nat) : Option (Cache K V) :=
  evictN (c.xs.length - n) { c with capacity := n }

/-- cache.hpp:170-171. -/
def makeRoom (c : Cache K V) : Option (Cache K V) :=
  if c.xs.length = c.capacity then do
    let r ← c.evict
    some r.2
  else some c

/-- cache.hpp:160-175 `insert` and 178-180 `emplace`: the value now in the cache, and whether the entry
is new. -/
def insert (p : Policy) (c : Cache K V) (k : K) (v : V) : Option ((V × Bool) × Cache K V) :=
  match c.tracker.find k with
  | some a => do
    let n ← deref c.xs a
    some ((n.value, false), { c with xs := access p c.xs n })
  | none => do
    let c' ← c.makeRoom
    some ((v, true), { c' with xs := policyInsert p c'.xs ⟨c'.next, k, v⟩, tracker := c'.tracker.emplace k c'.next, next := c'.next + 1 })

/-- cache.hpp:185-192 `erase(key)`. -/
def eraseKey (c : Cache K V) (k : K) : Nat × Cache K V :=
  match c.tracker.find k with
  | some a => (1, { c with xs := eraseNode c.xs a, tracker := c.tracker.erase k })
  | none => (0, c)

/-- cache.hpp:195-204 `erase(iterator)`. -/
def eraseAt (c : Cache K V) (a : Nat) : Cache K V :=
  { c with tracker := c.tracker.filter (fun e => e.2 != a), xs := eraseNode c.xs a }

/-- cache.hpp:207-210 `clear`. -/
def clear (c : Cache K V) : Cache K V := { c with xs := [], tracker := [] }

/-- cache.hpp:214-220 `find`: an iterator, or the end. -/
def find (p : Policy) (c : Cache K V) (k : K) : Option (Option (Node K V) × Cache K V) :=
  match c.tracker.find k with
  | some a => do
    let n ← deref c.xs a
    some (some n, { c with xs := access p c.xs n })
  | none => some (none, c)

/-- cache.hpp:229-236 `inspect`, saving and loading into a new cache: the list and the capacity are
written; the tracker is filled from the list. Simplification: the nodes keep their addresses. -/
def reload (c : Cache K V) : Cache K V :=
  { c with tracker := c.xs.foldl (fun m n => Tracker.emplace m n.key n.addr) [] }

/-- What iterating from `begin` to `end` yields. -/
def entries (c : Cache K V) : List (K × V) := c.xs.map fun n => (n.key, n.value)

/-- The calls of the interface. `eraseFound` is `find` followed by `erase` of the iterator. `operator[]` is
left out: for a key in the cache it does not compile (line 149 returns an iterator). -/
inductive Op (K V : Type) where
  | insert (k : K) (v : V)
  | find (k : K)
  | eraseKey (k : K)
  | eraseFound (k : K)
  | evict
  | setCapacity (n : Nat)
  | clear
  | reload
deriving Repr

/-- What a call returns. -/
inductive Out (K V : Type) where
  | inserted (v : V) (new : Bool)
  | found (r : Option (K × V))
  | num (n : Nat)
  | pair (k : K) (v : V)
  | unit
deriving DecidableEq, Repr

/-- `find`, then `erase` of the iterator unless it is the end. -/
def eraseFound (p : Policy) (c : Cache K V) (k : K) : Option (Cache K V) :=
  (c.find p k).map fun r => match r.1 with
    | some n => r.2.eraseAt n.addr
    | none => r.2

/-- One call. -/
def step (p : Policy) (c : Cache K V) : Op K V → Option (Out K V × Cache K V)
  | .insert k v => (c.insert p k v).map fun r => (.inserted r.1.1 r.1.2, r.2)
  | .find k => (c.find p k).map fun r => (.found (r.1.map fun n => (n.key, n.value)), r.2)
  | .eraseKey k => some (.num (c.eraseKey k).1, (c.eraseKey k).2)
  | .eraseFound k => (c.eraseFound p k).map fun r => (.unit, r)
  | .evict => c.evict.map fun r => (.pair r.1.1 r.1.2, r.2)
  | .setCapacity n => (c.setCapacity n).map fun r => (.unit, r)
  | .clear => some (.unit, c.clear)
  | .reload => some (.unit, c.reload)

/-- A sequence of calls. -/
def run (p : Policy) : Cache K V → List (Op K V) → Option (List (Out K V) × Cache K V)
  | c, [] => some ([], c)
  | c, op :: ops => do
    let r ← step p c op
    let rs ← run p r.2 ops
    some (r.1 :: rs.1, rs.2)

end Cache

/-! ## flat_lru_cache -/

/-- flat_lru_cache.hpp:103-106. -/
structure Flat (T : Type) where
  elements : List T
  size : Nat
deriving DecidableEq, Repr

namespace Flat

variable {T : Type}

/-- flat_lru_cache.hpp:27-33, the constructor. -/
def make (size : Nat) : Flat T := ⟨[], size⟩

/-- flat_lru_cache.hpp:42-48 `contains`; `key` is what the predicate compares. -/
def contains (key : T → K) (c : Flat T) (k : K) : Bool := c.elements.any fun t => key t == k

/-- `std::rotate(first + i, first + i + 1, last)`; undefined if there is no element `i`. -/
def rotateFrom (l : List T) (i : Nat) : Option (List T) :=
  match l.drop i with
  | [] => none
  | x :: xs => some (l.take i ++ xs ++ [x])

/-- flat_lru_cache.hpp:65-74 `add`: the value behind the result and the new state. -/
def add (c : Flat T) (t : T) : Option (T × Flat T) :=
  if c.elements.length < c.size then some (t, { c with elements := c.elements ++ [t] })
  else do
    let l ← rotateFrom c.elements 0
    some (t, { c with elements := l.dropLast ++ [t] })

/-- flat_lru_cache.hpp:56-59: moves element `i` to the back unless it is there; the result is the back. -/
def refresh (c : Flat T) (i : Nat) : Option (T × Flat T) := do
  let l ← if i ≠ c.elements.length - 1 then rotateFrom c.elements i else some c.elements
  let t ← l.getLast?
  some (t, { c with elements := l })

/-- flat_lru_cache.hpp:51-62 `get_or_add`. `made` is what the factory returns for the key. -/
def getOrAdd (key : T → K) (c : Flat T) (k : K) (made : T) : Option (T × Flat T) :=
  match c.elements.findIdx? fun t => key t == k with
  | some i => c.refresh i
  | none => c.add made

/-- flat_lru_cache.hpp:84-92, setting the size. -/
def setSize (c : Flat T) (n : Nat) : Flat T :=
  if n < c.elements.length then ⟨c.elements.drop (c.elements.length - n), n⟩ else ⟨c.elements, n⟩

/-- The calls of the interface. -/
inductive Op (K T : Type) where
  | getOrAdd (k : K) (made : T)
  | add (t : T)
  | setSize (n : Nat)
deriving Repr

/-- One call; the result is the element returned, if any. -/
def step (key : T → K) (c : Flat T) : Op K T → Option (Option T × Flat T)
  | .getOrAdd k t => (c.getOrAdd key k t).map fun r => (some r.1, r.2)
  | .add t => (c.add t).map fun r => (some r.1, r.2)
  | .setSize n => some (none, c.setSize n)

/-- A sequence of calls. -/
def run (key : T → K) : Flat T → List (Op K T) → Option (List (Option T) × Flat T)
  | c, [] => some ([], c)
  | c, op :: ops => do
    let r ← step key c op
    let rs ← run key r.2 ops
    some (r.1 :: rs.1, rs.2)

end Flat

end Verif.Cache
