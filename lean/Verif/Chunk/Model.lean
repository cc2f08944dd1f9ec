/-!
# Chunks: memory that is shared, sent and read from files

Models `libvast/src/chunk.cpp` with `libvast/vast/chunk.hpp`, `libvast/src/io/read.cpp`, `read` of `libvast/src/detail/posix.cpp` and
`libvast/src/system/posix_filesystem.cpp`.

Chunks have a number of references (`caf::ref_counted`, outside of the repository), which threads change atomically.  What a thread
does after it was the last one to release a chunk takes several steps; other threads act in between.  Not modelled: `incore`, trace
points, the chunk without a deleter (`empty`).
-/
namespace Verif.Chunk

abbrev Bytes := List UInt8

/-! ### References -/

/-- What remains to be done by a thread: to release a chunk, as a handle (`by = none`) or as a slice that goes away, to free the
memory that belongs to a chunk, or a deletion step. -/
inductive Act where
  | deref (by_ : Option Nat) (o : Nat)
  | free (o : Nat)
  | step (o s : Nat)
  deriving DecidableEq, Repr

/-- A chunk: its view, as an interval of the memory of the chunk `root`; the chunk that its deleter releases; the number of
references; its deletion steps.  `bytes`: the memory of a chunk that is not a slice. -/
structure Obj where
  root : Nat
  off : Nat
  len : Nat
  parent : Option Nat
  rc : Nat
  steps : List Nat
  bytes : Bytes

/-- All chunks, also the ones that were deleted; the handles (`chunk_ptr`) of the program; what the threads have to do; and what
they have done. -/
structure State where
  objs : List Obj
  handles : List (Option Nat)
  tasks : List (List Act)
  log : List Act

/-- What a program does with chunks.  A handle is the number of the operation that made it, among these.  `run i`: thread `i` goes
on. -/
inductive Op where
  | make (bs : Bytes)
  | slice (h start length : Nat)
  | copy (h : Nat)
  | drop (h : Nat)
  | addStep (h s : Nat)
  | run (i : Nat)
  deriving DecidableEq, Repr

/-- The chunk of a handle that was not dropped. -/
def State.held (s : State) (h : Nat) : Option (Nat × Obj) :=
  match s.handles[h]? with
  | some (some o) => s.objs[o]?.map (o, ·)
  | _ => none

/-- What the destructor does (chunk.cpp:36-42): the deleter, then the steps (chunk.hpp:165-178); the deleter of a slice releases
the chunk that it is a slice of (chunk.cpp:133-136). -/
def Obj.acts (o : Nat) (x : Obj) : List Act :=
  (match x.parent with
    | some p => Act.deref (some o) p
    | none => .free o) :: x.steps.map (.step o)

/-- One operation.  `none`: the program has no such handle, or the assertion of `slice` fails (chunk.cpp:130), or there is no such
thread. -/
def step (s : State) : Op → Option State
  | .make bs => -- chunk.cpp:46-53
    some { s with
      objs := s.objs ++ [⟨s.objs.length, 0, bs.length, none, 1, [], bs⟩]
      handles := s.handles ++ [some s.objs.length] }
  | .slice h start length => -- chunk.cpp:129-137
    match s.held h with
    | none => none
    | some (o, x) =>
      if start < x.len then
        some { s with
          objs := s.objs.set o { x with rc := x.rc + 1 } ++
            [⟨x.root, x.off + start, if length > x.len - start then x.len - start else length, some o, 1, [], []⟩]
          handles := s.handles ++ [some s.objs.length] }
      else none
  | .copy h =>
    match s.held h with
    | none => none
    | some (o, x) => some { s with objs := s.objs.set o { x with rc := x.rc + 1 }, handles := s.handles ++ [some o] }
  | .drop h =>
    match s.held h with
    | none => none
    | some (o, _) => some { s with handles := s.handles.set h none, tasks := s.tasks ++ [[.deref none o]] }
  | .addStep h k => -- chunk.hpp:161-178
    match s.held h with
    | none => none
    | some (o, x) => some { s with objs := s.objs.set o { x with steps := x.steps ++ [k] } }
  | .run i =>
    match s.tasks[i]? with
    | some (a :: as) =>
      match a with
      | .deref _ o => match s.objs[o]? with
        | none => none
        | some x => some { s with
            objs := s.objs.set o { x with rc := x.rc - 1 }
            tasks := s.tasks.set i ((if x.rc = 1 then x.acts o else []) ++ as)
            log := s.log ++ [a] }
      | .free _ => some { s with tasks := s.tasks.set i as, log := s.log ++ [a] }
      | .step _ _ => some { s with tasks := s.tasks.set i as, log := s.log ++ [a] }
    | _ => none

/-- A program from its start. -/
def exec (ops : List Op) : Option State := ops.foldlM step ⟨[], [], [], []⟩

/-- The bytes that a handle gives access to.  `none`: the handle was dropped, or the memory was freed. -/
def State.read (s : State) (h : Nat) : Option Bytes :=
  match s.held h with
  | none => none
  | some (_, x) =>
    if .free x.root ∈ s.log then none
    else s.objs[x.root]?.map fun r => (r.bytes.drop x.off).take x.len

/-! ### Sending -/

/-- The result of a function that can fail. -/
inductive Out (α : Type) where
  | ok (x : α)
  | error
  | thrown
  deriving DecidableEq, Repr

/-- `uint32_t` in the format of `caf::binary_serializer`: network byte order. -/
def word (n : Nat) : Bytes := [(n / 2 ^ 24).toUInt8, (n / 2 ^ 16).toUInt8, (n / 2 ^ 8).toUInt8, n.toUInt8]

/-- `inspect` for serializers (chunk.cpp:173-180); `narrow` throws. -/
def serialize : Option Bytes → Out Bytes
  | none => .ok (word 0)
  | some bs => if bs.length < 2 ^ 32 then .ok (word bs.length ++ bs) else .thrown

/-- `inspect` for deserializers (chunk.cpp:182-201): the chunk and the rest of the input.  If the bytes are missing, then the chunk
is null, and there is no error (193-196); the source has not moved. -/
def deserialize : Bytes → Out (Option Bytes × Bytes)
  | a :: b :: c :: d :: r =>
    let size := a.toNat * 2 ^ 24 + b.toNat * 2 ^ 16 + c.toNat * 2 ^ 8 + d.toNat
    if size = 0 then .ok (none, r)
    else if r.length < size then .ok (none, r)
    else .ok (some (r.take size), r.drop size)
  | _ => .error

/-! ### Files -/

/-- A file at the time of a `read(2)`, and what that call does: fail, or return so many bytes at most. -/
structure Call where
  content : Bytes
  returns : Option Nat

/-- The largest number of bytes in one call (posix.cpp:371). -/
def readMax : Nat := 2 ^ 31 - 1

/-- `read` (posix.cpp:363-384).  Interrupted calls are repeated and do not appear.  `read(2)` returns 0 at the end of the file only.
The list must be long enough. -/
def readLoop (bytes : Nat) : Bytes → List Call → Out Bytes
  | got, cs =>
    if bytes ≤ got.length then .ok got
    else match cs with
      | [] => .error
      | c :: cs =>
        match c.returns with
        | none => .error
        | some n =>
          let request := min readMax (bytes - got.length)
          let taken := (c.content.drop got.length).take (min request (n + 1))
          if taken = [] then .ok got
          else readLoop bytes (got ++ taken) cs

/-- What the system calls return: the size of the file, whether it can be opened, and the reads. -/
structure Env where
  size : Option Nat
  opens : Bool
  calls : List Call

/-- `io::read` (io/read.cpp:20-50) and `read` for chunks (chunk.cpp:151-171), which do the same. -/
def readFile (env : Env) : Out Bytes :=
  match env.size with
  | none => .error
  | some size =>
    if !env.opens then .error
    else match readLoop size [] env.calls with
      | .ok got => if got.length = size then .ok got else .error
      | _ => .error

/-- `chunk::mmap` (chunk.cpp:59-84) of a whole file, which does not change; `mmap(2)` fails for an empty one. -/
def mmap (env : Env) (content : Bytes) (maps : Bool) : Out Bytes :=
  match env.size with
  | none => .error
  | some size =>
    if !env.opens then .error
    else if size = 0 then .error
    else if !maps then .error
    else .ok (content.take size)

/-! ### The filesystem -/

/-- `filesystem_statistics`, for one kind of requests. -/
structure Stats where
  successful : Nat
  failed : Nat
  bytes : Nat
  deriving DecidableEq, Repr

/-- The handlers of `posix_filesystem` (posix_filesystem.cpp:31-71): `++bytes += size` after a success. -/
def Stats.update (s : Stats) : Option Nat → Stats
  | some size => { s with successful := s.successful + 1, bytes := s.bytes + 1 + size }
  | none => { s with failed := s.failed + 1 }

/-- The numbers after some requests: for each the size, or that it failed. -/
def stats (rs : List (Option Nat)) : Stats := rs.foldl Stats.update ⟨0, 0, 0⟩

end Verif.Chunk
