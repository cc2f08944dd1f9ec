/-!
# Memory from an arena

`libvast/vast/detail/short_alloc.hpp`: the allocator of vectors that keep few elements on the stack.  Addresses and sizes are natural numbers;
sizes are computed modulo 2^64, as `size_t` is.
-/
namespace Verif.Arena

/-- `arena<N, Alignment>` (short_alloc.hpp:49-114): the address of `buf_`, its size, the logarithm of the alignment, and `ptr_`. -/
structure Arena where
  buf : Nat
  cap : Nat
  align : Nat
  ptr : Nat
deriving DecidableEq

/-- `arena()` (56-57). -/
def create (buf cap align : Nat) : Arena := ⟨buf, cap, align, buf⟩

/-- `align_up` (104-106); `~(Alignment - 1)` has 64 bits. -/
def alignUp (align n : Nat) : Nat := ((n + (2 ^ align - 1)) % 2 ^ 64) &&& (2 ^ 64 - 2 ^ align)

/-- `pointer_in_buffer` (108-110). -/
def inBuffer (a : Arena) (p : Nat) : Bool := decide (a.buf ≤ p ∧ p ≤ a.buf + a.cap)

/-- `allocate` (63-78).  `fresh` is what `operator new` returns; the result is the address, whether it is from there, and the arena after it.
`none`: the assertion fails. -/
def allocate (a : Arena) (n fresh : Nat) : Option (Nat × Bool × Arena) :=
  if inBuffer a a.ptr then
    if alignUp a.align n ≤ a.buf + a.cap - a.ptr then some (a.ptr, false, { a with ptr := a.ptr + alignUp a.align n })
    else some (fresh, true, a)
  else none

/-- `deallocate` (80-89): whether `operator delete` is called, and the arena after it. -/
def deallocate (a : Arena) (p n : Nat) : Option (Bool × Arena) :=
  if inBuffer a a.ptr then
    if inBuffer a p then some (false, if p + alignUp a.align n = a.ptr then { a with ptr := p } else a)
    else some (true, a)
  else none

/-- `used` (95-97). -/
def used (a : Arena) : Nat := a.ptr - a.buf

/-- `reset` (99-101). -/
def reset (a : Arena) : Arena := { a with ptr := a.buf }

/-- The number of bytes for some elements (`short_alloc::allocate`, 144-147). -/
def bytes (count size : Nat) : Nat := count * size % 2 ^ 64

end Verif.Arena
