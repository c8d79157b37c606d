import Verif.Alloc.Word
import Verif.Bits.Model

/-!
Model of the system allocator (/repo/src/clean-core/allocators/system_allocator.hh and .cc) on Linux (`aligned_alloc`) and on other systems (`malloc` with
a header in front of the result). The Windows branch (`_aligned_malloc`) is not modelled.

Memory is bytes by address, and the blocks that the C library has given out and not got back. An access outside of such a block is undefined. The C library is a
parameter; see `Spec.CLib.Good` for what is assumed about it. The thread-safety of the C library and the construction of the global object
(system_allocator.cc:134-144) are left out.
-/
namespace Verif.SysAlloc
open Verif.Bits Verif.Alloc

/-- A block of the C library. -/
structure Blk where
  addr : Nat
  size : Nat
deriving DecidableEq, Repr

/-- The memory of the program. -/
structure Heap where
  mem : Mem
  blocks : List Blk

/-- `malloc(size)` and `aligned_alloc(alignment, size)`: null, or the address (with `malloc_usable_size` of the block for the second one). -/
structure CLib where
  malloc : Heap → Nat → Option Nat
  alignedAlloc : Heap → Nat → Nat → Option (Nat × Nat)

/-- Which branch is compiled (system_allocator.cc:10-20). -/
inductive Plat where
  | linux
  | portable
deriving DecidableEq, Repr

/-- `n` bytes from `a` on lie in one block. -/
def Heap.has (h : Heap) (a n : Nat) : Bool := h.blocks.any fun b => decide (b.addr ≤ a) && decide (a + n ≤ b.addr + b.size)

/-- Read a byte. -/
def Heap.read8 (h : Heap) (a : Nat) : R (BitVec 8) := if h.has a 1 then .ok (h.mem a) else .error .ub

/-- Write a byte. -/
def Heap.write8 (h : Heap) (a : Nat) (v : BitVec 8) : R Heap :=
  if h.has a 1 then .ok { h with mem := fun x => if x = a then v else h.mem x } else .error .ub

/-- Read a pointer or a `size_t`. -/
def Heap.read64 (h : Heap) (a : Nat) : R (BitVec 64) := if h.has a 8 then .ok (Alloc.read64 h.mem a) else .error .ub

/-- Write a pointer or a `size_t`. -/
def Heap.write64 (h : Heap) (a : Nat) (v : BitVec 64) : R Heap :=
  if h.has a 8 then .ok { h with mem := Alloc.write64 h.mem a v } else .error .ub

/-- `memcpy`. -/
def Heap.copy (h : Heap) (dst src n : Nat) : R Heap :=
  if h.has dst n ∧ h.has src n ∧ (dst + n ≤ src ∨ src + n ≤ dst) then .ok { h with mem := Alloc.copy h.mem dst src n } else .error .ub

/-- A new block. -/
def Heap.add (h : Heap) (a n : Nat) : Heap := { h with blocks := { addr := a, size := n } :: h.blocks }

/-- `free` of the C library, not for null: the block must exist. -/
def Heap.release (h : Heap) (a : Nat) : R Heap :=
  if h.blocks.any (fun b => decide (b.addr = a)) then .ok { h with blocks := h.blocks.filter fun b => decide (b.addr ≠ a) } else .error .ub

/-- `cc::max<size_t>(alignment, size >= 16 ? 16 : 8)` (system_allocator.cc:33, 55). -/
def atLeast (align size : BitVec 64) : BitVec 64 :=
  if align < (if size ≥ 16#64 then 16#64 else 8#64) then (if size ≥ 16#64 then 16#64 else 8#64) else align

/-- `system_malloc` (system_allocator.cc:31-51); `none` is null. -/
def sysMalloc (L : CLib) (p : Plat) (h : Heap) (size align : BitVec 64) : R (Heap × Option Nat) :=
  match p with
  | .linux =>
    match L.alignedAlloc h (atLeast align size).toNat size.toNat with
    | none => .ok (h, none)
    | some (a, u) => .ok (h.add a u, some a)
  | .portable =>
    match L.malloc h (size + atLeast align size + 8#64 + 8#64).toNat with
    | none => .ok (h, none)
    | some ptr => do
      let h := h.add ptr (size + atLeast align size + 8#64 + 8#64).toNat
      let result := alignUp (BitVec.ofNat 64 ptr + 8#64 + 8#64) (atLeast align size)
      let h ← h.write64 (result - 8#64).toNat (BitVec.ofNat 64 ptr)
      let h ← h.write64 (result - 8#64 - 8#64).toNat size
      .ok (h, some result.toNat)

/-- `malloc_usable_size`: the block must exist. -/
def usable (h : Heap) (a : Nat) : R Nat :=
  match h.blocks.find? (fun b => decide (b.addr = a)) with
  | some b => .ok b.size
  | none => .error .ub

/-- `system_msize` (system_allocator.cc:95-109). -/
def sysMsize (p : Plat) (h : Heap) : Option Nat → R Nat
  | none => .ok 0
  | some a =>
    match p with
    | .linux => usable h a
    | .portable => do
      let n ← h.read64 (a - 8 - 8)
      .ok n.toNat

/-- `system_free` (system_allocator.cc:111-123). -/
def sysFree (p : Plat) (h : Heap) : Option Nat → R Heap
  | none => .ok h
  | some a =>
    match p with
    | .linux => h.release a
    | .portable => do
      let ptr ← h.read64 (a - 8)
      h.release ptr.toNat

/-- The copy in `system_realloc` (system_allocator.cc:83-87); `memcpy` to null is undefined. -/
def sysMoveOver (p : Plat) (h : Heap) (res ptr : Option Nat) (newSize : BitVec 64) : R Heap :=
  match ptr with
  | none => .ok h
  | some a => do
    let old ← sysMsize p h (some a)
    match res with
    | none => .error .ub
    | some r => h.copy r a (if old < newSize.toNat then old else newSize.toNat)

/-- `system_realloc` (system_allocator.cc:53-56, 76-93). -/
def sysRealloc (L : CLib) (p : Plat) (h : Heap) (ptr : Option Nat) (newSize align : BitVec 64) : R (Heap × Option Nat) :=
  if newSize > 0#64 then do
    let (h, res) ← sysMalloc L p h newSize (atLeast align newSize)
    let h ← sysMoveOver p h res ptr newSize
    let h ← sysFree p h ptr
    .ok (h, res)
  else do
    let h ← sysFree p h ptr
    .ok (h, none)

/-- `alloc` (system_allocator.hh:24-29). -/
def alloc (L : CLib) (p : Plat) (h : Heap) (size align : BitVec 64) : R (Heap × Option Nat) := do
  let (h, r) ← sysMalloc L p h size align
  ccAssert (r.isSome || decide (size = 0#64))
  .ok (h, r)

/-- `realloc` (system_allocator.hh:33-38). -/
def realloc (L : CLib) (p : Plat) (h : Heap) (ptr : Option Nat) (newSize align : BitVec 64) : R (Heap × Option Nat) := do
  let (h, r) ← sysRealloc L p h ptr newSize align
  ccAssert (r.isSome || decide (newSize = 0#64))
  .ok (h, r)

/-! ### a program that uses the allocator -/

/-- The memory and the pointers of the program. -/
structure World where
  heap : Heap
  vars : Nat → Option Nat

/-- All pointers null, nothing allocated. -/
def World.init (m : Mem) : World := { heap := { mem := m, blocks := [] }, vars := fun _ => none }

/-- Store a pointer. -/
def World.put (w : World) (h : Heap) (i : Nat) (p : Option Nat) : World := { heap := h, vars := fun j => if j = i then p else w.vars j }

/-- The calls; `i` is the variable that holds the pointer. `tryAlloc`, `tryRealloc`: system_allocator.hh:22, 31; `free`: 40; `getSize`: 42-46. -/
inductive Op where
  | alloc (i : Nat) (size align : BitVec 64)
  | tryAlloc (i : Nat) (size align : BitVec 64)
  | realloc (i : Nat) (size align : BitVec 64)
  | tryRealloc (i : Nat) (size align : BitVec 64)
  | free (i : Nat)
  | getSize (i : Nat)
  | write (i off : Nat) (v : BitVec 8)
  | read (i off : Nat)

/-- What a call returns. -/
inductive Obs where
  | none
  /-- a pointer, null or not -/
  | ptr (ok : Bool)
  | size (n : Nat)
  | byte (v : BitVec 8)
deriving DecidableEq, Repr

/-- The pointer in variable `i`; using null is undefined. -/
def World.deref (w : World) (i : Nat) : R Nat :=
  match w.vars i with
  | some a => .ok a
  | none => .error .ub

/-- Run one call. A failing `try_realloc` leaves the variable as it is, as a careful program would. -/
def step (L : CLib) (p : Plat) (w : World) : Op → R (World × Obs)
  | .alloc i n al => do
    let (h, r) ← alloc L p w.heap n al
    .ok (w.put h i r, .ptr r.isSome)
  | .tryAlloc i n al => do
    let (h, r) ← sysMalloc L p w.heap n al
    .ok (w.put h i r, .ptr r.isSome)
  | .realloc i n al => do
    let (h, r) ← realloc L p w.heap (w.vars i) n al
    .ok (w.put h i r, .ptr r.isSome)
  | .tryRealloc i n al => do
    let (h, r) ← sysRealloc L p w.heap (w.vars i) n al
    .ok (if r.isSome ∨ n = 0#64 then w.put h i r else { w with heap := h }, .ptr r.isSome)
  | .free i => do
    let h ← sysFree p w.heap (w.vars i)
    .ok (w.put h i none, .none)
  | .getSize i => do
    let n ← sysMsize p w.heap (w.vars i)
    .ok (w, .size n)
  | .write i off v => do
    let a ← w.deref i
    let h ← w.heap.write8 (a + off) v
    .ok ({ w with heap := h }, .none)
  | .read i off => do
    let a ← w.deref i
    let v ← w.heap.read8 (a + off)
    .ok (w, .byte v)

/-- Run a history. -/
def run (L : CLib) (p : Plat) (w : World) : List Op → R (World × List Obs)
  | [] => .ok (w, [])
  | op :: ops => do
    let (w, o) ← step L p w op
    let (w, os) ← run L p w ops
    .ok (w, o :: os)

end Verif.SysAlloc
