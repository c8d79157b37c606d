import Verif.Alloc.Pages
import Verif.Alloc.Owned

/-!
Model of `cc::virtual_linear_allocator` (/repo/src/clean-core/allocators/virtual_linear_allocator.hh and .cc), with the inherited `allocator::realloc` (/repo/src/clean-core/allocator.cc:26-46).
The header is stored through a `size_t*` that need not be aligned; the model stores it like any x86 or ARM64 machine does.
-/
namespace Verif.Alloc.VLinear
open Verif.Bits Verif.Alloc.Spec Verif.Alloc Verif.Alloc.Pages

/-- The members, the memory, and the blocks in use (ghost). -/
structure State where
  pages : Pages
  last : BitVec 64
  mem : Mem
  given : List Owned

/-- `initialize` (allocators/virtual_linear_allocator.cc:9-22). -/
def init (addr maxSize chunk : BitVec 64) (mem : Mem) : R State := do
  let p ← Pages.init addr maxSize chunk
  .ok { pages := p, last := 0, mem := mem, given := [] }

/-- `alloc` (allocators/virtual_linear_allocator.cc:33-51), without the ghost part. -/
def allocCore (s : State) (size align : BitVec 64) : R (BitVec 64 × State) := do
  ccAssert (decide (s.pages.vbegin ≠ 0#64))
  let padded := alignUp (s.pages.cur + 8#64) align
  let padding := padded - s.pages.cur
  let required := padding + size
  let p ← grow s.pages required
  if accessible p (padded.toNat - 8) 8 then
    .ok (padded, { s with pages := { p with cur := padded + size }, last := padded, mem := write64 s.mem (padded.toNat - 8) size })
  else .error .ub

/-- A new block. -/
def State.give (s : State) (ptr size align : BitVec 64) (val : Nat → Option (BitVec 8)) : State :=
  { s with given := { block := { addr := ptr.toNat, size := size.toNat, align := align.toNat }, val := val } :: s.given }

/-- `alloc`. -/
def alloc (s : State) (size align : BitVec 64) : R (BitVec 64 × State) := do
  let r ← allocCore s size align
  .ok (r.1, r.2.give r.1 size align (fun _ => none))

/-- `get_allocation_size` for a pointer that is not null (allocators/virtual_linear_allocator.cc:53-60). -/
def getSize (s : State) (ptr : Nat) : BitVec 64 := read64 s.mem (ptr - 8)

/-- `allocator::realloc` (allocator.cc:26-46) for the block `o` at index `k`; `free` does nothing. The `memcpy` is undefined for overlapping regions. -/
def reallocMove (s : State) (k : Nat) (o : Owned) (newSize align : BitVec 64) : R (BitVec 64 × State) :=
  if newSize > 0#64 then do
    let r ← allocCore s newSize align
    let n := min (getSize r.2 o.block.addr).toNat newSize.toNat
    if accessible r.2.pages o.block.addr n && accessible r.2.pages r.1.toNat n && decide (o.block.addr + n ≤ r.1.toNat ∨ r.1.toNat + n ≤ o.block.addr) then
      .ok (r.1, ({ r.2 with mem := copy r.2.mem r.1.toNat o.block.addr n, given := s.given.eraseIdx k }).give r.1 newSize align (fun i => if i < n then o.val i else none))
    else .error .ub
  else .ok (0#64, { s with given := s.given.eraseIdx k })

/-- `realloc` of the newest block (allocators/virtual_linear_allocator.cc:70-90). -/
def reallocLast (s : State) (k : Nat) (o : Owned) (newSize : BitVec 64) : R (BitVec 64 × State) :=
  let ptr := BitVec.ofNat 64 o.block.addr
  if accessible s.pages (o.block.addr - 8) 8 then do
    let oldSize := getSize s o.block.addr
    ccAssert (decide (oldSize = s.pages.cur - ptr))
    let p ← if newSize > oldSize then grow s.pages (newSize - oldSize) else .ok s.pages
    if accessible p (o.block.addr - 8) 8 then
      .ok (ptr, { s with pages := { p with cur := ptr + newSize }, mem := write64 s.mem (o.block.addr - 8) newSize,
                         given := { block := { addr := o.block.addr, size := newSize.toNat, align := o.block.align }, val := fun i => if i < oldSize.toNat then o.val i else none } :: s.given.eraseIdx k })
    else .error .ub
  else .error .ub

/-- `realloc` (allocators/virtual_linear_allocator.cc:62-90) of block `k` of the blocks in use, or of null. An unknown block is undefined. -/
def realloc (s : State) (k : Option Nat) (newSize align : BitVec 64) : R (BitVec 64 × State) :=
  match k with
  | none => if newSize > 0#64 then alloc s newSize align else .ok (0#64, s)
  | some k => match s.given[k]? with
    | none => .error .ub
    | some o => if BitVec.ofNat 64 o.block.addr ≠ s.last then reallocMove s k o newSize align else reallocLast s k o newSize

/-- `reset` (allocators/virtual_linear_allocator.hh:37-43). -/
def reset (s : State) : BitVec 64 × State :=
  (s.pages.cur - s.pages.vbegin, { s with pages := { s.pages with cur := s.pages.vbegin }, last := 0, given := [] })

/-- A call, or a byte written by the client. -/
inductive Op where
  | alloc (size align : Nat)
  | realloc (k : Option Nat) (size align : Nat)
  | reset
  | decommit
  | write (x : Nat) (v : BitVec 8)

/-- One call and what it returns. -/
def step (s : State) : Op → R (BitVec 64 × State)
  | .alloc size align => alloc s (BitVec.ofNat 64 size) (BitVec.ofNat 64 align)
  | .realloc k size align => realloc s k (BitVec.ofNat 64 size) (BitVec.ofNat 64 align)
  | .reset => .ok (reset s)
  | .decommit => do
    let r ← decommitIdle s.pages
    .ok (r.1, { s with pages := r.2 })
  | .write x v =>
    if accessible s.pages x 1 then .ok (0#64, { s with mem := fun y => if y = x then v else s.mem y, given := s.given.map (Owned.write x v) })
    else .error .ub

/-- A history. -/
def run (s : State) : List Op → R (List (BitVec 64) × State)
  | [] => .ok ([], s)
  | op :: ops => do
    let a ← step s op
    let b ← run a.2 ops
    .ok (a.1 :: b.1, b.2)

/-- Sizes and alignments far from the end of the address space. -/
def Request (size align : Nat) : Prop := size ≤ 2 ^ 60 ∧ IsPowerOfTwo align ∧ align ≤ 2 ^ 60

/-- The rules: good requests; only blocks in use are resized or written to. -/
def OpOk (s : State) : Op → Prop
  | .alloc size align => Request size align
  | .realloc k size align => Request size align ∧ ∀ i, k = some i → i < s.given.length
  | .write x _ => ∃ g ∈ s.given, g.block.addr ≤ x ∧ x < g.block.addr + g.block.size
  | _ => True

/-- All steps obey the rules. -/
def Proper (s : State) : List Op → Prop
  | [] => True
  | op :: ops => OpOk s op ∧ ∀ r, step s op = .ok r → Proper r.2 ops

end Verif.Alloc.VLinear
