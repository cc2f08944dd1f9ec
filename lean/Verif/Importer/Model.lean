/-
Model of the event ID allocation of the importer,
`libvast/src/system/importer.cpp` and `libvast/vast/system/importer.hpp`.

IDs are naturals.  The driver asserts that an import fits into the remaining ID
space (importer.cpp:56), so 64-bit wrap-around is not modelled.
-/
namespace Verif.Importer

/-- importer.cpp:172, `8_Mi`. -/
def blockSize : Nat := 8 * 1024 * 1024

/-- importer.hpp:46-52 `id_block`. -/
structure Block where
  next : Nat
  stop : Nat   -- called `end` in the code
  deriving DecidableEq, Repr

/-- Contents of the state file `current_id_block` (importer.cpp:147-167).
`empty` is what a crash leaves behind between opening the `std::ofstream`, which
truncates the file, and flushing it. -/
inductive File where
  | empty
  | stopOnly (stop : Nat)
  | stopNext (stop next : Nat)
  deriving DecidableEq, Repr

/-- What happens to the state file while `write_state` runs.  `write_state` does
not check the stream after writing and its callers `next_id` and `~importer_state`
ignore its result (importer.cpp:113, 158-166, 180), so a write that fails is
silently lost.  `torn` is a crash of the process between truncation and flush. -/
inductive Write where
  | ok
  | lost
  | torn
  deriving DecidableEq, Repr

/-- importer.cpp:171-172, the loop of `get_next_block`. -/
def growStop (target stop : Nat) : Nat :=
  if target ≥ stop then growStop target (stop + blockSize) else stop
termination_by target + 1 - stop
decreasing_by
  simp only [blockSize]; omega

/-- The persistent and volatile state of an importer, with the log of all ID
ranges `(first, count)` handed out so far (a history variable). -/
structure State where
  disk : Option File
  proc : Option Block
  log : List (Nat × Nat)
  deriving DecidableEq, Repr

/-- A directory that no importer has used. -/
def State.init : State := { disk := none, proc := none, log := [] }

/-- What may happen to an importer. -/
inductive Op where
  /-- The node starts the importer.  `garbage` is the content of the
  uninitialised member `current` (importer.hpp:81 has no initialiser). -/
  | start (garbage : Block) (w : Write)
  /-- A table slice with `rows` rows arrives. -/
  | rows (n : Nat) (w : Write)
  /-- Regular shutdown: the destructor writes the state. -/
  | shutdown (w : Write)
  /-- The process dies. -/
  | crash
  deriving DecidableEq, Repr

/-- Effect of a `write_state` on the disk and on the process. -/
def finishWrite (s : State) (f : File) (p : Option Block) : Write → State
  | .ok => { s with disk := some f, proc := p }
  | .lost => { s with proc := p }
  | .torn => { s with disk := some .empty, proc := none }

/-- importer.cpp:169-174 `get_next_block` on a block that is then stored. -/
def getNextBlock (b : Block) (required : Nat) : Block :=
  { b with stop := growStop (b.next + required) b.stop }

/-- One step of an importer. -/
def step (s : State) : Op → State
  | .start garbage w =>
    match s.proc with
    | some _ => s
    | none =>
      match s.disk with
      -- importer.cpp:139-144
      | none =>
        let b := getNextBlock { next := 0, stop := 0 } 0
        finishWrite s (.stopOnly b.stop) (some b) w
      -- importer.cpp:128-131, 250-253 and the destructor at 112-114: parsing
      -- fails, `current` stays uninitialised, the actor quits, and its
      -- destructor writes `current`.
      | some .empty => finishWrite s (.stopNext garbage.stop garbage.next) none w
      -- importer.cpp:133-138, 144
      | some (.stopOnly e) =>
        let b := getNextBlock { next := e, stop := e } 0
        finishWrite s (.stopOnly b.stop) (some b) w
      -- importer.cpp:128-132, 144
      | some (.stopNext e n) =>
        let b := getNextBlock { next := n, stop := e } 0
        finishWrite s (.stopOnly b.stop) (some b) w
  | .rows n w =>
    match s.proc with
    | none => s
    -- importer.cpp:176-184 `next_id`.  The slice leaves the importer
    -- (importer.cpp:60) only after `next_id` returned, so a crash inside
    -- `write_state` assigns nothing.
    | some b =>
      let post := b.next + n
      if post ≥ b.stop then
        let b' := getNextBlock b n
        let s' := finishWrite s (.stopOnly b'.stop) (some { b' with next := post }) w
        if w = .torn then s' else { s' with log := s.log ++ [(b.next, n)] }
      else
        { s with proc := some { b with next := post }, log := s.log ++ [(b.next, n)] }
  | .shutdown w =>
    match s.proc with
    | none => s
    -- importer.cpp:112-114
    | some b => finishWrite s (.stopNext b.stop b.next) none w
  | .crash => { s with proc := none }

/-- A history of operations. -/
def run (ops : List Op) : State := ops.foldl step State.init

/-! ### Specification -/

/-- The event with ID `i` belongs to the range `r`. -/
def InRange (i : Nat) (r : Nat × Nat) : Prop := r.1 ≤ i ∧ i < r.1 + r.2

instance (i : Nat) (r : Nat × Nat) : Decidable (InRange i r) := by
  unfold InRange; infer_instance

/-- No ID is assigned twice, and later imports get larger IDs. -/
def UniqueIds (log : List (Nat × Nat)) : Prop :=
  log.Pairwise (fun r s => ∀ i j, InRange i r → InRange j s → i < j)

/-- The write of the state file in this operation, if any, took effect. -/
def Op.writeOk : Op → Prop
  | .start _ w => w = .ok
  | .rows _ w => w = .ok
  | .shutdown w => w = .ok
  | .crash => True

end Verif.Importer
