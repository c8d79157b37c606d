import Verif.Mem.Buf

/-!
Model of /repo/src/clean-core/experimental/ringbuffer.hh.

Indices are `size_t`: subtraction and addition are taken modulo 2^64 before masking. Each ringbuffer owns its storage; the
storage is a `Mem.Buf`. The allocator pointer is not modelled (allocation never fails). `triv` says that `T` is trivially
destructible. `leaked` counts objects whose storage was freed without running their destructor.
-/
namespace Verif.Ring
open Verif.Mem

/-- The members (ringbuffer.hh:302-305). -/
structure Ring (α : Type) where
  begin_ : Nat
  end_ : Nat
  mask : Nat
  data : Option (Buf α)

variable {α : Type}

/-- A default constructed ringbuffer (ringbuffer.hh:30, 302-305). -/
def Ring.empty : Ring α := { begin_ := 0, end_ := 0, mask := 0, data := none }

/-- `(a + b) & mask` on `size_t`. -/
def addMask (a b mask : Nat) : Nat := ((a + b) % 2 ^ 64) &&& mask

/-- `(a - b) & mask` on `size_t`. -/
def subMask (a b mask : Nat) : Nat := ((a + (2 ^ 64 - b)) % 2 ^ 64) &&& mask

/-- `size` (ringbuffer.hh:98). -/
def size (r : Ring α) : Nat := subMask r.end_ r.begin_ r.mask

/-- `capacity` (ringbuffer.hh:99). -/
def capacity (r : Ring α) : Nat := r.mask

/-- `capacity_remaining` (ringbuffer.hh:100). -/
def capacityRemaining (r : Ring α) : Nat := (r.mask + (2 ^ 64 - size r)) % 2 ^ 64

/-- `empty` (ringbuffer.hh:101). -/
def isEmpty (r : Ring α) : Bool := r.begin_ == r.end_

/-- `at_capacity` (ringbuffer.hh:102). -/
def atCapacity (r : Ring α) : Bool := ((r.end_ + (2 ^ 64 - r.begin_) + 1) % 2 ^ 64) &&& r.mask == 0

/-- The storage; using a null pointer is undefined. -/
def buf (r : Ring α) : R (Buf α) :=
  match r.data with
  | some b => .ok b
  | none => .error .ub

/-- `front` (ringbuffer.hh:104-113). -/
def front (r : Ring α) : R α := do
  ccAssert (!isEmpty r)
  let b ← buf r
  b.read r.begin_

/-- `back` (ringbuffer.hh:115-124). -/
def back (r : Ring α) : R α := do
  ccAssert (!isEmpty r)
  let b ← buf r
  b.read (subMask r.end_ 1 r.mask)

/-- `operator[]`, read (ringbuffer.hh:126-135). -/
def get (r : Ring α) (i : Nat) : R α := do
  ccAssert (i < size r)
  let b ← buf r
  b.read (addMask r.begin_ i r.mask)

/-- `r[i] = a` (ringbuffer.hh:126-130). -/
def set (r : Ring α) (i : Nat) (a : α) : R (Ring α) := do
  ccAssert (i < size r)
  let b ← buf r
  let b ← b.assign (addMask r.begin_ i r.mask) a
  .ok { r with data := some b }

/-- Constructor argument: a value, or a reference to slot `p` of the ringbuffer's own storage. -/
inductive Arg (α : Type) where
  | val (a : α)
  | own (p : Nat)

/-- The value the constructor sees when it runs; `b` is the storage the reference points into. -/
def evalArg (b : Option (Buf α)) : Arg α → R α
  | .val a => .ok a
  | .own p => match b with
    | some b => b.read p
    | none => .error .ub

/-- New mask when growing (ringbuffer.hh:247, 271). -/
def grownMask (mask : Nat) : Nat := if mask = 0 then 3 else (mask * 2 % 2 ^ 64 + 1) % 2 ^ 64

/-- The loop of the grow functions (ringbuffer.hh:252-257, 276-281): move `n` elements, starting with the `i`-th, to the new
storage at offset `off`. -/
def moveLoop (triv : Bool) (r : Ring α) (off : Nat) (i : Nat) (old new : Buf α) : Nat → R (Buf α × Buf α)
  | 0 => .ok (old, new)
  | n + 1 => do
    let p := addMask r.begin_ i r.mask
    let (a, old) ← old.take triv p
    let new ← new.construct triv (i + off) a
    let old ← old.destroy p
    moveLoop triv r off (i + 1) old new n

/-- `emplace_back_grow` (ringbuffer.hh:241-263) and `emplace_front_grow` (265-287): the new element goes to slot `newPos`, the old
ones to `off`, `off + 1`, ... Returns the number of leaked objects, too. -/
def grow (triv : Bool) (r : Ring α) (newPos off : Nat) (arg : Arg α) : R (Ring α × Nat) := do
  ccAssert (atCapacity r)
  let newMask := grownMask r.mask
  let s := size r
  let new : Buf α := Buf.mk (newMask + 1)
  let a ← evalArg r.data arg
  let new ← new.construct triv newPos a
  let (old, new) ← moveLoop triv r off 0 (r.data.getD []) new s
  .ok ({ begin_ := 0, end_ := s + 1, mask := newMask, data := some new }, old.leak triv)

/-- `emplace_back` / `push_back` (ringbuffer.hh:143-158, 170-173). -/
def emplaceBack (triv : Bool) (r : Ring α) (arg : Arg α) : R (Ring α × Nat) :=
  let pos := r.end_
  let newEnd := addMask r.end_ 1 r.mask
  if newEnd ≠ r.begin_ then do
    let b ← buf r
    let a ← evalArg r.data arg
    let b ← b.construct triv pos a
    .ok ({ r with end_ := newEnd, data := some b }, 0)
  else grow triv r (size r) 0 arg

/-- `emplace_back_stable` (ringbuffer.hh:160-167). -/
def emplaceBackStable (triv : Bool) (r : Ring α) (arg : Arg α) : R (Ring α × Nat) := do
  ccAssert (!atCapacity r)
  let b ← buf r
  let a ← evalArg r.data arg
  let b ← b.construct triv r.end_ a
  .ok ({ r with end_ := addMask r.end_ 1 r.mask, data := some b }, 0)

/-- `pop_back` (ringbuffer.hh:176-184). -/
def popBack (triv : Bool) (r : Ring α) : R (α × Ring α) := do
  ccAssert (!isEmpty r)
  let e := subMask r.end_ 1 r.mask
  let b ← buf r
  let (a, b) ← b.take triv e
  let b ← b.destroy e
  .ok (a, { r with end_ := e, data := some b })

/-- `emplace_front` / `push_front` (ringbuffer.hh:188-202, 213-216). -/
def emplaceFront (triv : Bool) (r : Ring α) (arg : Arg α) : R (Ring α × Nat) :=
  let newBegin := subMask r.begin_ 1 r.mask
  if newBegin ≠ r.end_ then do
    let b ← buf r
    let a ← evalArg r.data arg
    let b ← b.construct triv newBegin a
    .ok ({ r with begin_ := newBegin, data := some b }, 0)
  else grow triv r 0 1 arg

/-- `emplace_front_stable` (ringbuffer.hh:204-210). -/
def emplaceFrontStable (triv : Bool) (r : Ring α) (arg : Arg α) : R (Ring α × Nat) := do
  ccAssert (!atCapacity r)
  let newBegin := subMask r.begin_ 1 r.mask
  let b ← buf r
  let a ← evalArg r.data arg
  let b ← b.construct triv newBegin a
  .ok ({ r with begin_ := newBegin, data := some b }, 0)

/-- `pop_front` (ringbuffer.hh:219-227). -/
def popFront (triv : Bool) (r : Ring α) : R (α × Ring α) := do
  ccAssert (!isEmpty r)
  let b ← buf r
  let (a, b) ← b.take triv r.begin_
  let b ← b.destroy r.begin_
  .ok (a, { r with begin_ := addMask r.begin_ 1 r.mask, data := some b })

/-- The destruction loop of `clear`, destructor and move assignment (ringbuffer.hh:49-53, 88-92, 231-235). -/
def destroyLoop (r : Ring α) (i : Nat) (b : Buf α) : Nat → R (Buf α)
  | 0 => .ok b
  | n + 1 => do
    let b ← b.destroy (addMask r.begin_ i r.mask)
    destroyLoop r (i + 1) b n

/-- Destroy all elements; for a null pointer there is nothing to visit. -/
def destroyAll (triv : Bool) (r : Ring α) : R (Option (Buf α)) :=
  if triv then .ok r.data
  else
    match r.data with
    | some b => do
      let b ← destroyLoop r 0 b (size r)
      .ok (some b)
    | none => if size r = 0 then .ok none else .error .ub

/-- `clear` (ringbuffer.hh:229-239). -/
def clear (triv : Bool) (r : Ring α) : R (Ring α) := do
  let d ← destroyAll triv r
  .ok { r with begin_ := 0, end_ := 0, data := d }

/-- Destructor (ringbuffer.hh:84-94): returns the number of leaked objects. -/
def dtor (triv : Bool) (r : Ring α) : R Nat := do
  let d ← destroyAll triv r
  .ok (match d with | some b => b.leak triv | none => 0)

/-- The loop of the copy constructor (ringbuffer.hh:77-78); `src` is the source. -/
def copyLoop (triv : Bool) (src : Ring α) (i : Nat) (new : Buf α) : Nat → R (Buf α)
  | 0 => .ok new
  | n + 1 => do
    let b ← buf src
    let a ← b.read (addMask src.begin_ i src.mask)
    let new ← new.construct triv i a
    copyLoop triv src (i + 1) new n

/-- Copy constructor (ringbuffer.hh:69-79). -/
def copy (triv : Bool) (src : Ring α) : R (Ring α) := do
  let r : Ring α := { begin_ := 0, end_ := size src, mask := src.mask, data := none }
  let new ← copyLoop triv src 0 (Buf.mk (src.mask + 1)) (size r)
  .ok { r with data := some new }

/-! ### a program with several ringbuffers -/

/-- The ringbuffer variables of a program and the leak counter. -/
structure World (α : Type) where
  rings : Nat → Ring α
  leaked : Nat

/-- All ringbuffers default constructed. -/
def World.init : World α := { rings := fun _ => Ring.empty, leaked := 0 }

/-- Store a ringbuffer variable and count leaks. -/
def World.put (w : World α) (i : Nat) (r : Ring α) (leak : Nat := 0) : World α :=
  { rings := fun j => if j = i then r else w.rings j, leaked := w.leaked + leak }

/-- A pushed argument: a value, or a reference to element `k` of the ringbuffer itself. -/
inductive PushArg (α : Type) where
  | val (a : α)
  | elem (k : Nat)

/-- The calls a program can make. -/
inductive Op (α : Type) where
  | pushBack (i : Nat) (a : PushArg α)
  | pushBackStable (i : Nat) (a : PushArg α)
  | pushFront (i : Nat) (a : PushArg α)
  | pushFrontStable (i : Nat) (a : PushArg α)
  | popBack (i : Nat)
  | popFront (i : Nat)
  | clear (i : Nat)
  | front (i : Nat)
  | back (i : Nat)
  | get (i k : Nat)
  | set (i k : Nat) (a : α)
  | size (i : Nat)
  | empty (i : Nat)
  /-- `ring_i = ringbuffer(ring_j)`: copy construction, then move assignment -/
  | assignCopy (i j : Nat)
  /-- `ring_i = cc::move(ring_j)` -/
  | assignMove (i j : Nat)

/-- What a call returns. -/
inductive Obs (α : Type) where
  | none
  | elem (a : α)
  | nat (n : Nat)
  | bool (b : Bool)
deriving DecidableEq, Repr

/-- Evaluate `ring[k]` as a reference. -/
def pushArg (r : Ring α) : PushArg α → R (Arg α)
  | .val a => .ok (.val a)
  | .elem k => do
    ccAssert (k < size r)
    .ok (.own (addMask r.begin_ k r.mask))

/-- Wrap a pushing call. -/
def World.push (w : World α) (i : Nat) (a : PushArg α) (f : Ring α → Arg α → R (Ring α × Nat)) : R (World α × Obs α) := do
  let arg ← pushArg (w.rings i) a
  let (r, l) ← f (w.rings i) arg
  .ok (w.put i r l, .none)

/-- Wrap a popping call. -/
def World.pop (w : World α) (i : Nat) (f : Ring α → R (α × Ring α)) : R (World α × Obs α) := do
  let (a, r) ← f (w.rings i)
  .ok (w.put i r, .elem a)

/-- Run one call. Move assignment is ringbuffer.hh:46-67 (self-assignment included). -/
def step (triv : Bool) (w : World α) : Op α → R (World α × Obs α)
  | .pushBack i a => w.push i a (emplaceBack triv)
  | .pushBackStable i a => w.push i a (emplaceBackStable triv)
  | .pushFront i a => w.push i a (emplaceFront triv)
  | .pushFrontStable i a => w.push i a (emplaceFrontStable triv)
  | .popBack i => w.pop i (popBack triv)
  | .popFront i => w.pop i (popFront triv)
  | .clear i => do
    let r ← clear triv (w.rings i)
    .ok (w.put i r, .none)
  | .front i => do
    let a ← front (w.rings i)
    .ok (w, .elem a)
  | .back i => do
    let a ← back (w.rings i)
    .ok (w, .elem a)
  | .get i k => do
    let a ← get (w.rings i) k
    .ok (w, .elem a)
  | .set i k a => do
    let r ← set (w.rings i) k a
    .ok (w.put i r, .none)
  | .size i => .ok (w, .nat (size (w.rings i)))
  | .empty i => .ok (w, .bool (isEmpty (w.rings i)))
  | .assignCopy i j => do
    let t ← copy triv (w.rings j)
    let l ← dtor triv (w.rings i)
    .ok (w.put i t l, .none)
  | .assignMove i j => do
    let l ← dtor triv (w.rings i)
    let w := w.put i (w.rings j) l
    .ok (w.put j Ring.empty, .none)

/-- Run a history. -/
def run (triv : Bool) (w : World α) : List (Op α) → R (World α × List (Obs α))
  | [] => .ok (w, [])
  | op :: ops => do
    let (w, o) ← step triv w op
    let (w, os) ← run triv w ops
    .ok (w, o :: os)

end Verif.Ring
