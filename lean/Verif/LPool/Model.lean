import Verif.Common

/-!
Model of `cc::atomic_linked_pool<T>` (/repo/src/clean-core/atomic_linked_pool.hh) under the memory model of C++.

Any number of threads call `acquire`, `release` and access their objects; a schedule says which thread takes the next atomic step. Memory:

* `_first_free_node` keeps all values ever stored in it. A load (also that of a failed compare-exchange) may return any of them (more than
  C++ allows); a successful compare-exchange reads the newest one. All its modifications are compare-exchanges, so every
  value carries what the release operations before it published (release sequences).
* The entries of `_free_list` are only touched by sequentially consistent read-modify-writes, which see the newest value.
* The objects and the generations are not atomic: an access to a slot by a thread that does not know all earlier accesses to it is a data race,
  undefined.

Assertions are enabled, hence also the generation check (`sc_enable_gen_check`, line 296-300). `T` has a constructor and a destructor that are not
trivial, `d0` is the value of `T()`. Bit fields are laid out from the least significant bit. `initialize` with size 0 leaves the pool
uninitialised; that case is left out.
-/
namespace Verif.LPool

variable {α : Type}

/-- Number of known accesses to each slot. -/
abbrev View := Nat → Nat

/-- `VersionedIndex` (atomic_linked_pool.hh:467-479). `ver` counts the calls of `set_index`; the code keeps it modulo `2^32`. -/
structure Head where
  idx : Int
  ver : Nat
  view : View

/-- Where a thread is; `x`, `v`: index and version it has read. -/
inductive Pc where
  | idle
  /-- atomic_linked_pool.hh:104 -/
  | aLoad
  /-- atomic_linked_pool.hh:113-115 -/
  | aNext (x : Int) (v : Nat)
  /-- atomic_linked_pool.hh:125 -/
  | aCas (x : Int) (v : Nat) (nxt : Int)
  /-- atomic_linked_pool.hh:131-138 -/
  | aCtor (i : Nat)
  /-- atomic_linked_pool.hh:410-411 -/
  | rDtor (i : Nat)
  /-- atomic_linked_pool.hh:415 -/
  | rLoad (i : Nat)
  /-- atomic_linked_pool.hh:424-425 -/
  | rSwap (i : Nat) (x : Int) (v : Nat)
  /-- atomic_linked_pool.hh:433 -/
  | rCas (i : Nat) (x : Int) (v : Nat)
deriving DecidableEq

/-- A thread. -/
structure Thread where
  pc : Pc
  known : View

/-- A handle that was returned by `acquire` and not yet passed to `release` (ghost), the thread that has it, and the value last written through it. -/
structure Given (α : Type) where
  thread : Nat
  handle : BitVec 32
  val : α
deriving DecidableEq

/-- Calls (ghost). -/
inductive Ev where
  | acquired (t : Nat) (h : BitVec 32)
  | released (t : Nat) (h : BitVec 32)
deriving DecidableEq

/-- Pool, threads and history. `cap` is the number of usable entries of `_free_list`; `obj i` the object in slot `i`, if one is alive there;
`acc i` the number of accesses to slot `i`. Ghost: `given`, `log` and `reads` (values read through handles), newest first. -/
structure State (α : Type) where
  n : Nat
  cap : Nat
  next : Nat → Int
  gen : Nat → BitVec 13
  obj : Nat → Option α
  acc : Nat → Nat
  head : Head
  older : List Head
  threads : Nat → Thread
  given : List (Given α)
  log : List Ev
  reads : List (Nat × α)

/-- Change one value of a function. -/
def upd {β : Type} (f : Nat → β) (i : Nat) (b : β) : Nat → β := fun j => if j = i then b else f j

/-! ### handles -/

/-- `_construct_handle` (atomic_linked_pool.hh:355-371): index plus one in the low 16 bits, generation in the next 13. -/
def mkHandle (i : Nat) (g : BitVec 13) : BitVec 32 := BitVec.ofNat 32 ((i + 1) % 2 ^ 16 + 2 ^ 16 * g.toNat)

/-- `parsed_handle.index_plus_one`. -/
def indexPlusOne (h : BitVec 32) : Nat := h.toNat % 2 ^ 16

/-- `parsed_handle.generation`. -/
def generation (h : BitVec 32) : BitVec 13 := BitVec.ofNat 13 (h.toNat / 2 ^ 16 % 2 ^ 13)

/-- `_read_handle_index` (atomic_linked_pool.hh:373-391). An index of -1 wraps around and is out of bounds. -/
def readIndex (s : State α) (h : BitVec 32) : R Nat := do
  ccAssert (decide (h ≠ 0))
  let i := (indexPlusOne h + 2 ^ 32 - 1) % 2 ^ 32
  ccAssert (decide (i < s.n))
  ccAssert (decide (generation h = s.gen i))
  .ok i

/-- `is_alive` (atomic_linked_pool.hh:156-171): the index is not checked, so a foreign handle reads outside of `_generation`. -/
def isAlive (s : State α) (h : BitVec 32) : R Bool := do
  ccAssert (decide (h ≠ 0))
  let i := (indexPlusOne h : Int) - 1
  if 0 ≤ i ∧ i < s.n then .ok (decide (generation h = s.gen i.toNat)) else .error .ub

/-! ### initialisation -/

/-- The loop `_free_list[i] = i + 1` for `i < size - 1` and the tail (atomic_linked_pool.hh:63-69): the highest entry written must exist. -/
def initFreeList (size cap : Nat) : R (Nat → Int) :=
  if size ≤ cap then .ok (fun i => if i + 1 < size then (i : Int) + 1 else -1) else .error .ub

/-- `initialize` (atomic_linked_pool.hh:31-93). The free list is allocated with `size - 1` entries (lines 58-61); `slack` is the number of further
entries that happen to be usable behind it, for example because the allocator rounds sizes up. -/
def init (size slack : Nat) : R (State α) := do
  ccAssert (decide (size ≤ 2 ^ 16 - 1))
  ccAssert (decide (1 < size))
  let next ← initFreeList size (size - 1 + slack)
  .ok { n := size, cap := size - 1 + slack, next := next, gen := fun _ => 0, obj := fun _ => none, acc := fun _ => 0,
        head := { idx := 0, ver := 1, view := fun _ => 0 }, older := [], threads := fun _ => { pc := .idle, known := fun _ => 0 },
        given := [], log := [], reads := [] }

/-! ### steps -/

/-- Thread `t` goes on at `pc`. -/
def State.goto (s : State α) (t : Nat) (pc : Pc) : State α :=
  { s with threads := upd s.threads t { pc := pc, known := (s.threads t).known } }

/-- Acquire: thread `t` learns what `h` carries, and goes on at `pc`. -/
def State.learn (s : State α) (t : Nat) (h : Head) (pc : Pc) : State α :=
  { s with threads := upd s.threads t { pc := pc, known := fun c => max ((s.threads t).known c) (h.view c) } }

/-- A non-atomic access to slot `i`. -/
def access (s : State α) (t i : Nat) : R Unit := if (s.threads t).known i = s.acc i then .ok () else .error .ub

/-- After the access, with the new content of the slot. -/
def State.accessed (s : State α) (t i : Nat) (obj : Option α) (gen : BitVec 13) (pc : Pc) : State α :=
  { s with
    obj := upd s.obj i obj, gen := upd s.gen i gen, acc := upd s.acc i (s.acc i + 1),
    threads := upd s.threads t { pc := pc, known := upd (s.threads t).known i (s.acc i + 1) } }

/-- The candidate must not be -1 (atomic_linked_pool.hh:109-110). -/
def candidate (s : State α) (t : Nat) (h : Head) : R (State α) := do
  ccAssert (decide (h.idx ≠ -1))
  .ok (s.learn t h (.aNext h.idx h.ver))

/-- First load in `acquire` (atomic_linked_pool.hh:104); `c` picks the value. -/
def aLoad (s : State α) (t c : Nat) : R (State α) :=
  match (s.head :: s.older)[c]? with
  | some h => candidate s t h
  | none => .ok s

/-- Atomic read of `_free_list[x]` (atomic_linked_pool.hh:113-115). -/
def aNext (s : State α) (t : Nat) (x : Int) (v : Nat) : R (State α) :=
  if 0 ≤ x ∧ x < s.cap then .ok (s.goto t (.aCas x v (s.next x.toNat))) else .error .ub

/-- The comparison of a compare-exchange on `_first_free_node`. -/
def same (s : State α) (x : Int) (v : Nat) : Prop := s.head.idx = x ∧ s.head.ver % 2 ^ 32 = v % 2 ^ 32

instance (s : State α) (x : Int) (v : Nat) : Decidable (same s x v) := inferInstanceAs (Decidable (_ ∧ _))

/-- Compare-exchange in `acquire` (atomic_linked_pool.hh:120-130), acquire on success: the value passes on what the old one carried. `c = 0` reads the
newest value; otherwise it fails having read another one. -/
def aCas (s : State α) (t : Nat) (x : Int) (v : Nat) (nxt : Int) (c : Nat) : R (State α) :=
  if c = 0 then
    if same s x v then
      .ok { s.learn t s.head (.aCtor x.toNat) with head := { idx := nxt, ver := s.head.ver + 1, view := s.head.view }, older := s.head :: s.older }
    else candidate s t s.head
  else
    match (s.head :: s.older)[c - 1]? with
    | some h => candidate s t h
    | none => .ok s

/-- Construction and handle (atomic_linked_pool.hh:131-138, 355-366). -/
def aCtor (s : State α) (d0 : α) (t i : Nat) : R (State α) := do
  access s t i
  ccAssert (decide (i < s.n))
  if (s.obj i).isSome then .error .ub else
  .ok { s.accessed t i (some d0) (s.gen i) .idle with
        given := { thread := t, handle := mkHandle i (s.gen i), val := d0 } :: s.given, log := .acquired t (mkHandle i (s.gen i)) :: s.log }

/-- Remove one handle. -/
def dropGiven (g : List (Given α)) (h : BitVec 32) : List (Given α) := g.filter (fun x => x.handle ≠ h)

/-- `release`: check of the handle and the new generation (atomic_linked_pool.hh:142-146, 393-400). -/
def rCall (s : State α) (t : Nat) (h : BitVec 32) : R (State α) := do
  let i ← readIndex s h
  access s t i
  .ok { s.accessed t i (s.obj i) (s.gen i + 1) (.rDtor i) with given := dropGiven s.given h, log := .released t h :: s.log }

/-- Destructor (atomic_linked_pool.hh:410-411). -/
def rDtor (s : State α) (t i : Nat) : R (State α) := do
  access s t i
  if (s.obj i).isSome then .ok (s.accessed t i none (s.gen i) (.rLoad i)) else .error .ub

/-- First load in `_release_node` (atomic_linked_pool.hh:415), relaxed. -/
def rLoad (s : State α) (t i c : Nat) : R (State α) :=
  match (s.head :: s.older)[c]? with
  | some h => .ok (s.goto t (.rSwap i h.idx h.ver))
  | none => .ok s

/-- Atomic write of `_free_list[i]` (atomic_linked_pool.hh:424-425). -/
def rSwap (s : State α) (t i : Nat) (x : Int) (v : Nat) : R (State α) :=
  if i < s.cap then .ok { s.goto t (.rCas i x v) with next := upd s.next i x } else .error .ub

/-- Compare-exchange in `_release_node` (atomic_linked_pool.hh:429-436), release on success, relaxed otherwise. -/
def rCas (s : State α) (t i : Nat) (x : Int) (v : Nat) (c : Nat) : R (State α) :=
  if c = 0 then
    if same s x v then
      .ok { s.goto t .idle with head := { idx := i, ver := s.head.ver + 1, view := fun j => max (s.head.view j) ((s.threads t).known j) }, older := s.head :: s.older }
    else .ok (s.goto t (.rSwap i s.head.idx s.head.ver))
  else
    match (s.head :: s.older)[c - 1]? with
    | some h => .ok (s.goto t (.rSwap i h.idx h.ver))
    | none => .ok s

/-- Write through a handle, `get(handle) = v` (atomic_linked_pool.hh:149). -/
def write (s : State α) (t : Nat) (h : BitVec 32) (v : α) : R (State α) := do
  let i ← readIndex s h
  access s t i
  if (s.obj i).isSome then
    .ok { s.accessed t i (some v) (s.gen i) .idle with
          given := s.given.map (fun g => if g.handle = h then { thread := g.thread, handle := g.handle, val := v } else g) }
  else .error .ub

/-- Read through a handle, `get(handle)` (atomic_linked_pool.hh:149). -/
def read (s : State α) (t : Nat) (h : BitVec 32) : R (State α) := do
  let i ← readIndex s h
  access s t i
  match s.obj i with
  | some v => .ok { s.accessed t i (some v) (s.gen i) .idle with reads := (t, v) :: s.reads }
  | none => .error .ub

/-- Not in the code: thread `t` passes a handle to thread `u`, which synchronises the two. -/
def give (s : State α) (t : Nat) (h : BitVec 32) (u : Nat) : State α :=
  { s with
    given := s.given.map (fun g => if g.handle = h then { thread := u, handle := g.handle, val := g.val } else g),
    threads := upd s.threads u { pc := (s.threads u).pc, known := fun j => max ((s.threads u).known j) ((s.threads t).known j) } }

/-- What the schedule does with a thread. -/
inductive Act (α : Type) where
  | acquire
  | release (h : BitVec 32)
  | write (h : BitVec 32) (v : α)
  | read (h : BitVec 32)
  | give (h : BitVec 32) (u : Nat)
  /-- the next step of the running call; `c` picks the value of a load -/
  | go (c : Nat)

/-- The next step of a running call. -/
def advance (s : State α) (d0 : α) (t c : Nat) : Pc → R (State α)
  | .idle => .ok s
  | .aLoad => aLoad s t c
  | .aNext x v => aNext s t x v
  | .aCas x v nxt => aCas s t x v nxt c
  | .aCtor i => aCtor s d0 t i
  | .rDtor i => rDtor s t i
  | .rLoad i => rLoad s t i c
  | .rSwap i x v => rSwap s t i x v
  | .rCas i x v => rCas s t i x v c

/-- One step of thread `t`. While a call is running the thread does nothing else. -/
def step (s : State α) (d0 : α) (t : Nat) : Act α → R (State α)
  | .go c => advance s d0 t c (s.threads t).pc
  | .acquire => if (s.threads t).pc = .idle then .ok (s.goto t .aLoad) else .ok s
  | .release h => if (s.threads t).pc = .idle then rCall s t h else .ok s
  | .write h v => if (s.threads t).pc = .idle then write s t h v else .ok s
  | .read h => if (s.threads t).pc = .idle then read s t h else .ok s
  | .give h u => if (s.threads t).pc = .idle then .ok (give s t h u) else .ok s

/-- A schedule. -/
def run (s : State α) (d0 : α) : List (Nat × Act α) → R (State α)
  | [] => .ok s
  | (t, a) :: as => do
    let s ← step s d0 t a
    run s d0 as

end Verif.LPool
