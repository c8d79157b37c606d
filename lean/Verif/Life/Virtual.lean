import Verif.Common

/-!
The life of `cc::virtual_linear_allocator` and `cc::virtual_stack_allocator`
(`/repo/src/clean-core/allocators/virtual_linear_allocator.hh` and `.cc`, `virtual_stack_allocator.hh` and `.cc`): what becomes of the
address ranges they reserve. What they do with the memory in between is the subject of `Verif/Alloc`.

Simplifications:
* addresses and sizes are `Nat`, null is 0; `get_..._size_bytes` subtract pointers modulo 2^64.
* the operating system keeps the list of the ranges that are reserved. It chooses the address (a parameter of the call), which is not
  null and does not overlap a range that is reserved; if it has no room the assertion in `reserve_virtual_memory` fails. To give back a
  range that is not reserved is undefined (it may by then belong to someone else).
* the allocators can be neither copied nor moved (allocator.hh:84-88 with their own destructors), so an object is known by its number.
* `alloc`, `realloc`, `free` and `decommit_idle_memory` do not touch `_virtual_begin` and `_virtual_end`; of them only the check of
  `alloc` is here. The commit of pages is left out: `_physical_end` follows `_physical_current`.
-/
namespace Verif.Life.Virtual

/-- The members (virtual_linear_allocator.hh:57-62, virtual_stack_allocator.hh:58-63), without `_last_allocation`, `_last_alloc_id` and
`_chunk_size_bytes`. -/
structure Obj where
  vbegin : Nat := 0
  vend : Nat := 0
  cur : Nat := 0
  pend : Nat := 0
deriving DecidableEq

/-- The objects that are alive and the ranges that are reserved (address, size). -/
structure World where
  objs : Nat → Option Obj
  ranges : List (Nat × Nat)

/-- Nothing there. -/
def start : World := { objs := fun _ => none, ranges := [] }

/-- The calls. `room` is the address the operating system returns. -/
inductive Op where
  /-- the default constructor -/
  | make (i : Nat)
  | setup (i maxSize chunk : Nat) (room : Option Nat)
  | destroy (i : Nat)
  /-- the destructor -/
  | drop (i : Nat)
  | alloc (i size : Nat)
  | reset (i : Nat)
  | virtualSize (i : Nat)
  | allocatedSize (i : Nat)
deriving DecidableEq

def World.put (w : World) (i : Nat) (o : Option Obj) : World := { w with objs := fun j => if j = i then o else w.objs j }

/-- An object that is not alive can not be used. -/
def World.get (w : World) (i : Nat) : R Obj :=
  match w.objs i with
  | some o => .ok o
  | none => .error .ub

/-- Do two ranges overlap? -/
def overlap (a b : Nat × Nat) : Bool := decide (a.1 < b.1 + b.2 ∧ b.1 < a.1 + a.2)

/-- May the operating system return this address? -/
def World.roomFor (w : World) (a n : Nat) : Bool := decide (a ≠ 0) && w.ranges.all (fun r => !overlap (a, n) r)

/-- `reserve_virtual_memory` (native/memory.cc:30-48). `mmap` refuses a size of zero. -/
def reserve (w : World) (n : Nat) (room : Option Nat) : R (Nat × World) :=
  match room with
  | some a => if n ≠ 0 ∧ w.roomFor a n = true then .ok (a, { w with ranges := (a, n) :: w.ranges }) else .error .assert
  | none => .error .assert

/-- `free_virtual_memory` (native/memory.cc:51-67). -/
def release (w : World) (a n : Nat) : R World :=
  if (a, n) ∈ w.ranges then .ok { w with ranges := w.ranges.erase (a, n) } else .error .ub

/-- Is the number a power of two (bits.hh `is_pow2`)? -/
def isPow2 (n : Nat) : Bool := n &&& (n - 1) == 0

/-- `initialize` (virtual_linear_allocator.cc:9-22, virtual_stack_allocator.cc:10-23). -/
def init (w : World) (i maxSize chunk : Nat) (room : Option Nat) : R World := do
  let _ ← w.get i
  let (a, w) ← reserve w maxSize room
  let w := w.put i (some { vbegin := a, vend := a + maxSize, cur := a, pend := a })
  ccAssert (decide (maxSize > 0 ∧ chunk > 0))
  ccAssert (isPow2 chunk)
  ccAssert (decide (a ≠ 0))
  pure w

/-- `destroy` (virtual_linear_allocator.cc:24-31, virtual_stack_allocator.cc:25-32): of the members only `_virtual_begin` is reset. -/
def destroy (w : World) (i : Nat) : R World := do
  let o ← w.get i
  if o.vbegin ≠ 0 then do
    let w ← release w o.vbegin (o.vend - o.vbegin)
    pure (w.put i (some { o with vbegin := 0 }))
  else pure w

/-- A difference of pointers as `size_t`. -/
def diff (a b : Nat) : Nat := (a + (2 ^ 64 - b % 2 ^ 64)) % 2 ^ 64

/-- One call; the number is what it returns. -/
def step (w : World) : Op → R (World × Nat)
  -- virtual_linear_allocator.hh:12, virtual_stack_allocator.hh:16; the storage of an object that is alive is not used again
  | .make i => match w.objs i with
    | none => .ok (w.put i (some {}), 0)
    | some _ => .error .ub
  | .setup i n c room => do
    let w ← init w i n c room
    pure (w, 0)
  | .destroy i => do
    let w ← destroy w i
    pure (w, 0)
  -- virtual_linear_allocator.hh:14, virtual_stack_allocator.hh:18
  | .drop i => do
    let w ← destroy w i
    pure (w.put i none, 0)
  -- the check (virtual_linear_allocator.cc:35, virtual_stack_allocator.cc:36) and the progress of `_physical_current`, without padding
  | .alloc i n => do
    let o ← w.get i
    ccAssert (decide (o.vbegin ≠ 0))
    ccAssert (decide (o.cur + n ≤ o.vend))
    pure (w.put i (some { o with cur := o.cur + n, pend := max o.pend (o.cur + n) }), o.cur)
  -- virtual_linear_allocator.hh:36-42, virtual_stack_allocator.cc:99-105
  | .reset i => do
    let o ← w.get i
    pure (w.put i (some { o with cur := o.vbegin }), diff o.cur o.vbegin)
  -- virtual_linear_allocator.hh:49, virtual_stack_allocator.hh:46
  | .virtualSize i => do
    let o ← w.get i
    pure (w, diff o.vend o.vbegin)
  -- virtual_linear_allocator.hh:55, virtual_stack_allocator.hh:52
  | .allocatedSize i => do
    let o ← w.get i
    pure (w, diff o.cur o.vbegin)

/-- A history and what its calls return. -/
def run (w : World) : List Op → R (World × List Nat)
  | [] => .ok (w, [])
  | op :: ops => do
    let (w, n) ← step w op
    let (w, ns) ← run w ops
    pure (w, n :: ns)

end Verif.Life.Virtual
