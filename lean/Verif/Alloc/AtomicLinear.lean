import Verif.Alloc.Owned
import Verif.Bits.Model

/-!
Model of `cc::atomic_linear_allocator` (/repo/src/clean-core/allocators/atomic_linear_allocator.hh) with the inherited `allocator::realloc` (/repo/src/clean-core/allocator.cc:26-46).

Any number of threads call `alloc` and `realloc` and write to their blocks; a schedule says which thread takes the next step. `fetch_add` on `_offset` reads the newest value, so that the order of these
steps is the order of the atomic variable. Pointers are 64-bit addresses, pointer arithmetic wraps around. Stores outside of the buffer are undefined. The size header is
stored through a `size_t*` that need not be aligned, which is undefined, strictly; the model stores it like any x86 or ARM64 machine does. The `memcpy` of a `realloc` is one step: nobody
else may use the two blocks at that time.
-/
namespace Verif.Alloc.AtomicLinear
open Verif.Bits Verif.Alloc.Spec Verif.Alloc

/-- Where a thread is. `old` is the block that is to be reallocated. -/
inductive Pc where
  | idle
  /-- before the `fetch_add` (allocators/atomic_linear_allocator.hh:21) -/
  | add (size align : BitVec 64) (old : Option Owned)
  /-- behind it (allocators/atomic_linear_allocator.hh:23-32) -/
  | store (size align start : BitVec 64) (old : Option Owned)
  /-- before the `memcpy` (allocator.cc:40) -/
  | copy (new : Block) (old : Owned)

/-- Members (allocators/atomic_linear_allocator.hh:67-69), memory, threads. `given` is ghost: the blocks that are in use. -/
structure State where
  bbegin : BitVec 64
  bend : BitVec 64
  offset : BitVec 64
  mem : Mem
  pc : Nat → Pc
  given : List Owned

/-- Change one value of a function. -/
def upd {β : Type} (f : Nat → β) (i : Nat) (b : β) : Nat → β := fun j => if j = i then b else f j

/-- `initialize` (allocators/atomic_linear_allocator.hh:57-63). -/
def init (data size : BitVec 64) (mem : Mem) : State :=
  { bbegin := data, bend := data + size, offset := 0, mem := mem, pc := fun _ => .idle, given := [] }

/-- `cc::max<size_t>(align, 1)` (allocators/atomic_linear_allocator.hh:18). -/
def atLeastOne (align : BitVec 64) : BitVec 64 := if align < 1#64 then 1#64 else align

/-- Up to the `fetch_add` (allocators/atomic_linear_allocator.hh:16-21). -/
def add (s : State) (t : Nat) (size align : BitVec 64) (old : Option Owned) : R State := do
  ccAssert (decide (s.bbegin ≠ 0#64))
  let align := atLeastOne align
  .ok { s with offset := s.offset + (size + (align - 1#64) + 8#64), pc := upd s.pc t (.store size align s.offset old) }

/-- The rest of `alloc` (allocators/atomic_linear_allocator.hh:23-32). The header is written before the bound is checked. -/
def store (s : State) (t : Nat) (size align start : BitVec 64) (old : Option Owned) : R State :=
  let allocStart := s.bbegin + start
  let padded := alignUp (allocStart + 8#64) align
  if ¬ (s.bbegin.toNat + 8 ≤ padded.toNat ∧ padded.toNat ≤ s.bend.toNat) then .error .ub
  else do
    let mem := write64 s.mem (padded.toNat - 8) size
    ccAssert ((padded - (allocStart + 8#64)).slt align)
    ccAssert (decide (padded + size ≤ s.bend))
    let b : Block := { addr := padded.toNat, size := size.toNat, align := align.toNat }
    match old with
    | none => .ok { s with mem := mem, pc := upd s.pc t .idle, given := { block := b, val := fun _ => none } :: s.given }
    | some o => .ok { s with mem := mem, pc := upd s.pc t (.copy b o) }

/-- `get_allocation_size` for a pointer that is not null (allocators/atomic_linear_allocator.hh:41-48). -/
def getSize (s : State) (ptr : Nat) : BitVec 64 := read64 s.mem (ptr - 8)

/-- The number of bytes that a `realloc` copies (allocator.cc:36-40). -/
def copySize (s : State) (new : Block) (old : Owned) : Nat := min (getSize s old.block.addr).toNat new.size

/-- The `memcpy` of a `realloc` and its return (allocator.cc:40-45; `free` does nothing). It is undefined outside of the buffer and for overlapping regions. -/
def copyStep (s : State) (t : Nat) (new : Block) (old : Owned) : R State :=
  let n := copySize s new old
  if old.block.addr + n ≤ s.bend.toNat ∧ new.addr + n ≤ s.bend.toNat ∧ (old.block.addr + n ≤ new.addr ∨ new.addr + n ≤ old.block.addr) then
    .ok { s with mem := Alloc.copy s.mem new.addr old.block.addr n, pc := upd s.pc t .idle,
                 given := { block := new, val := fun i => if i < n then old.val i else none } :: s.given }
  else .error .ub

/-- What the schedule does with a thread. -/
inductive Act where
  | alloc (size align : Nat)
  /-- `realloc` of block `k` of the blocks in use, or of null -/
  | realloc (k : Option Nat) (size align : Nat)
  /-- a byte is written to a block in use -/
  | write (addr : Nat) (v : BitVec 8)
  /-- `reset` (allocators/atomic_linear_allocator.hh:52): all blocks are gone -/
  | reset
  /-- the next step of the running call -/
  | go

/-- Call of `realloc` (allocator.cc:26-32, 44-45). From now on the block belongs to the call. An unknown block is undefined. -/
def callRealloc (s : State) (t : Nat) (k : Option Nat) (size align : Nat) : R State :=
  match k with
  | none => if 0 < size then .ok { s with pc := upd s.pc t (.add (BitVec.ofNat 64 size) (BitVec.ofNat 64 align) none) } else .ok s
  | some k => match s.given[k]? with
    | none => .error .ub
    | some o =>
      if 0 < size then .ok { s with pc := upd s.pc t (.add (BitVec.ofNat 64 size) (BitVec.ofNat 64 align) (some o)), given := s.given.eraseIdx k }
      else .ok { s with given := s.given.eraseIdx k }

/-- The next step of a running call. -/
def advance (s : State) (t : Nat) : Pc → R State
  | .idle => .ok s
  | .add size align old => add s t size align old
  | .store size align start old => store s t size align start old
  | .copy new old => copyStep s t new old

/-- Is the thread outside of a call? -/
def Pc.isIdle : Pc → Bool
  | .idle => true
  | _ => false

/-- One step of thread `t`. While a call is running the thread does nothing else. -/
def step (s : State) (t : Nat) : Act → R State
  | .go => advance s t (s.pc t)
  | .alloc size align => if (s.pc t).isIdle then .ok { s with pc := upd s.pc t (.add (BitVec.ofNat 64 size) (BitVec.ofNat 64 align) none) } else .ok s
  | .realloc k size align => if (s.pc t).isIdle then callRealloc s t k size align else .ok s
  | .write x v => if (s.pc t).isIdle then .ok { s with mem := fun y => if y = x then v else s.mem y, given := s.given.map (Owned.write x v) } else .ok s
  | .reset => if (s.pc t).isIdle then .ok { s with offset := 0, given := [] } else .ok s

/-- A schedule. -/
def run (s : State) : List (Nat × Act) → R State
  | [] => .ok s
  | (t, a) :: as => do
    let s ← step s t a
    run s as

/-! ### Rules for the clients -/

/-- A request that can be made: a power of two (or 0) as alignment. -/
def Request (size align : Nat) : Prop := Small size ∧ (align = 0 ∨ GoodAlign align)

/-- The rules: good requests, only blocks in use are resized or written to, and `reset` is not called while other calls are running. For the running calls: the requests since
the last `reset` add up to at most 2^62. -/
def ActOk (s : State) (t : Nat) : Act → Prop
  | .alloc size align => Request size align
  | .realloc k size align => Request size align ∧ ∀ i, k = some i → i < s.given.length
  | .write x _ => ∃ g ∈ s.given, g.block.addr ≤ x ∧ x < g.block.addr + g.block.size
  | .reset => ∀ u, s.pc u = .idle
  | .go => ∀ size align old, s.pc t = .add size align old → s.offset.toNat + size.toNat + align.toNat + 8 ≤ 2 ^ 62

/-- All steps obey the rules. -/
def Proper (s : State) : List (Nat × Act) → Prop
  | [] => True
  | (t, a) :: as => ActOk s t a ∧ ∀ s', step s t a = .ok s' → Proper s' as

end Verif.Alloc.AtomicLinear
