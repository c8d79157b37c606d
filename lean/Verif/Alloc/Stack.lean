import Verif.Common
import Verif.Bits.Model

/-!
Model of `cc::stack_allocator` (/repo/src/clean-core/allocators/stack_allocator.hh and .cc).

Pointers are 64-bit addresses, and pointer arithmetic wraps around (in C++ a pointer beyond the buffer is undefined already). Memory is a function from addresses to bytes; reading or writing a
header outside of the buffer is undefined. Headers are stored little-endian.
-/
namespace Verif.Alloc.Stack
open Verif.Bits

/-- Bytes of memory by address. -/
abbrev Mem := Nat → BitVec 8

/-- `stack_alloc_header` (native/memory.hh:31-35). -/
structure Header where
  padding : BitVec 32
  id : BitVec 32
deriving DecidableEq

/-- Byte `i` of a header in memory: `padding`, then `alloc_id`, lowest byte first. -/
def Header.byte (h : Header) (i : Nat) : BitVec 8 := ((h.id ++ h.padding) >>> (8 * i)).setWidth 8

/-- Copy a header to address `a` (the `memcpy` at allocators/stack_allocator.cc:23). -/
def writeHeader (m : Mem) (a : Nat) (h : Header) : Mem := fun x => if a ≤ x ∧ x < a + 8 then h.byte (x - a) else m x

/-- Four bytes as a number. -/
def read32 (m : Mem) (a : Nat) : BitVec 32 := m (a + 3) ++ m (a + 2) ++ m (a + 1) ++ m a

/-- The header at address `a`. -/
def readHeader (m : Mem) (a : Nat) : Header := { padding := read32 m a, id := read32 m (a + 4) }

/-- `align_up_with_header` (native/memory.hh:38-59). -/
def alignUpWithHeader (head align headerSize : BitVec 64) : R (BitVec 64) :=
  let padded := alignUp head align
  let padding := padded - head
  if padding < headerSize then
    let rest := headerSize - padding
    if align = 0#64 then .error .ub
    else if rest % align > 0#64 then .ok (padded + align * (1#64 + rest / align))
    else .ok (padded + align * (rest / align))
  else .ok padded

/-- The members (allocators/stack_allocator.hh:35-38), and the memory. -/
structure Stk where
  bbegin : BitVec 64
  head : BitVec 64
  bend : BitVec 64
  id : BitVec 32
  mem : Mem

/-- Constructor (allocators/stack_allocator.hh:30-32). -/
def ctor (data size : BitVec 64) (mem : Mem) : Stk := { bbegin := data, head := data, bend := data + size, id := 0, mem := mem }

/-- The eight bytes in front of an address are inside of the buffer. -/
def Stk.hasHeader (s : Stk) (p : BitVec 64) : Prop := s.bbegin.toNat + 8 ≤ p.toNat ∧ p.toNat ≤ s.bend.toNat

instance (s : Stk) (p : BitVec 64) : Decidable (s.hasHeader p) := inferInstanceAs (Decidable (_ ∧ _))

/-- `alloc` (allocators/stack_allocator.cc:10-27); `++_last_alloc_id` overflows at 2^31 - 1. -/
def alloc (s : Stk) (size align : BitVec 64) : R (BitVec 64 × Stk) := do
  ccAssert (decide (s.bbegin ≠ 0#64))
  let padded ← alignUpWithHeader s.head align 8#64
  ccAssert (decide (padded + size ≤ s.bend))
  if s.id = 0x7fffffff#32 ∨ ¬ s.hasHeader padded then .error .ub
  else .ok (padded, { s with head := padded + size, id := s.id + 1,
                             mem := writeHeader s.mem (padded.toNat - 8) { padding := (padded - s.head).setWidth 32, id := s.id + 1 } })

/-- `free` (allocators/stack_allocator.cc:29-41). -/
def free (s : Stk) (ptr : BitVec 64) : R Stk :=
  if ptr = 0#64 then .ok s
  else if ¬ s.hasHeader ptr then .error .ub
  else do
    let h := readHeader s.mem (ptr.toNat - 8)
    ccAssert (decide (h.id = s.id))
    .ok { s with id := s.id - 1, head := ptr - h.padding.setWidth 64 }

/-- `realloc` (allocators/stack_allocator.cc:43-68). -/
def realloc (s : Stk) (ptr newSize align : BitVec 64) : R (BitVec 64 × Stk) :=
  if newSize = 0#64 then do
    let s ← free s ptr
    .ok (0#64, s)
  else if ptr = 0#64 then alloc s newSize align
  else if ¬ s.hasHeader ptr then .error .ub
  else do
    ccAssert (decide ((readHeader s.mem (ptr.toNat - 8)).id = s.id))
    ccAssert (decide (ptr + newSize ≤ s.bend))
    .ok (ptr, { s with head := ptr + newSize })

/-- `reset` (allocators/stack_allocator.hh:23-27). -/
def reset (s : Stk) : Stk := { s with head := s.bbegin, id := 0 }

/-- A call, or a byte written by the client. -/
inductive Op where
  | alloc (size align : Nat)
  | free (ptr : Nat)
  | realloc (ptr newSize align : Nat)
  | reset
  | write (addr : Nat) (v : BitVec 8)

/-- One call and what it returns. -/
def step (s : Stk) : Op → R (Option (BitVec 64) × Stk)
  | .alloc size align => do
    let r ← alloc s (BitVec.ofNat 64 size) (BitVec.ofNat 64 align)
    .ok (some r.1, r.2)
  | .free ptr => do
    let s ← free s (BitVec.ofNat 64 ptr)
    .ok (none, s)
  | .realloc ptr n align => do
    let r ← realloc s (BitVec.ofNat 64 ptr) (BitVec.ofNat 64 n) (BitVec.ofNat 64 align)
    .ok (some r.1, r.2)
  | .reset => .ok (none, reset s)
  | .write a v => .ok (none, { s with mem := fun x => if x = a then v else s.mem x })

/-- A history; the returned pointers, and the allocator. -/
def run (s : Stk) : List Op → R (List (Option (BitVec 64)) × Stk)
  | [] => .ok ([], s)
  | op :: ops => do
    let a ← step s op
    let b ← run a.2 ops
    .ok (a.1 :: b.1, b.2)

end Verif.Alloc.Stack
