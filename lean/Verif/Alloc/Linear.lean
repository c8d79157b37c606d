import Verif.Common
import Verif.Bits.Model

/-!
Model of `cc::linear_allocator` (/repo/src/clean-core/allocators/linear_allocator.hh).

Pointers are 64-bit addresses and pointer arithmetic wraps around (in C++ a pointer beyond the buffer is undefined already). The allocator never touches the memory, so the
model has none.
-/
namespace Verif.Alloc.Linear
open Verif.Bits

/-- The members (allocators/linear_allocator.hh:84-88); 0 is the null pointer. -/
structure Lin where
  bbegin : BitVec 64
  head : BitVec 64
  bend : BitVec 64
  latest : BitVec 64
deriving DecidableEq

/-- Constructor (allocators/linear_allocator.hh:79-81). -/
def ctor (data size : BitVec 64) : Lin := { bbegin := data, head := data, bend := data + size, latest := 0 }

/-- `cc::max<size_t>(align, 1)` (allocators/linear_allocator.hh:18, utility.hh:26). -/
def atLeastOne (align : BitVec 64) : BitVec 64 := if align < 1#64 then 1#64 else align

/-- `alloc` (allocators/linear_allocator.hh:14-27). -/
def alloc (s : Lin) (size align : BitVec 64) : R (BitVec 64 × Lin) := do
  ccAssert (decide (s.bbegin ≠ 0#64))
  let padded := alignUp s.head (atLeastOne align)
  ccAssert (decide (padded + size ≤ s.bend))
  .ok (padded, { s with head := padded + size, latest := padded })

/-- `get_allocation_size` (allocators/linear_allocator.hh:35-42). -/
def getSize (s : Lin) (ptr : BitVec 64) : Option (BitVec 64) :=
  if ptr = 0#64 ∨ ptr ≠ s.latest then none else some (s.head - s.latest)

/-- `allocator::realloc` for a null pointer (allocator.cc:26-46; `free` does nothing). -/
def reallocNull (s : Lin) (newSize align : BitVec 64) : R (BitVec 64 × Lin) :=
  if newSize > 0#64 then alloc s newSize align else .ok (0#64, s)

/-- `realloc` (allocators/linear_allocator.hh:44-63). -/
def realloc (s : Lin) (ptr newSize align : BitVec 64) : R (BitVec 64 × Lin) :=
  if ptr ≠ 0#64 then do
    ccAssert (decide (ptr = s.latest))
    ccAssert (decide (ptr + newSize ≤ s.bend))
    .ok (ptr, { s with head := ptr + newSize })
  else reallocNull s newSize align

/-- `reset` (allocators/linear_allocator.hh:67-71). -/
def reset (s : Lin) : Lin := { s with head := s.bbegin, latest := 0 }

/-- `allocated_size`, `remaining_size`, `max_size` (allocators/linear_allocator.hh:73-75). -/
def allocatedSize (s : Lin) : BitVec 64 := s.head - s.bbegin
def remainingSize (s : Lin) : BitVec 64 := s.bend - s.head
def maxSize (s : Lin) : BitVec 64 := s.bend - s.bbegin

/-- A call; pointers and numbers as given by the client. -/
inductive Op where
  | alloc (size align : Nat)
  | realloc (ptr newSize align : Nat)
  /-- does nothing (allocators/linear_allocator.hh:29-33) -/
  | free (ptr : Nat)
  | reset

/-- One call and what it returns. -/
def step (s : Lin) : Op → R (Option (BitVec 64) × Lin)
  | .alloc size align => do
    let r ← alloc s (BitVec.ofNat 64 size) (BitVec.ofNat 64 align)
    .ok (some r.1, r.2)
  | .realloc ptr n align => do
    let r ← realloc s (BitVec.ofNat 64 ptr) (BitVec.ofNat 64 n) (BitVec.ofNat 64 align)
    .ok (some r.1, r.2)
  | .free _ => .ok (none, s)
  | .reset => .ok (none, reset s)

/-- A history; the returned pointers, and the allocator. -/
def run (s : Lin) : List Op → R (List (Option (BitVec 64)) × Lin)
  | [] => .ok ([], s)
  | op :: ops => do
    let a ← step s op
    let b ← run a.2 ops
    .ok (a.1 :: b.1, b.2)

end Verif.Alloc.Linear
