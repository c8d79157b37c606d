import Verif.Common

/-!
Model of `cc::atomic_pool_allocator` (/repo/src/clean-core/allocators/atomic_pool_allocator.hh and .cc).

Any number of threads call `alloc` and `free` and write to their blocks; a schedule says which thread takes the next step. `_first_free_node` keeps all
values ever stored in it; a load may return any of them, a compare-exchange succeeds only on the newest one. The links inside of the blocks are not
atomic in the code, so that reading the link of a block that another thread uses is a data race already; the model is more generous and lets them be read and
written like atomic variables (newest value). Blocks are named by their number; a block's content is one word, large enough for the link. Sizes and alignments
are left out: `alloc` is called with a size up to the block size, and buffer and block size are aligned (lines 18 and 35).
-/
namespace Verif.APool

/-- A pointer. -/
inductive Ptr where
  | null
  | block (i : Nat)
  /-- anything else, read from user data -/
  | wild
deriving DecidableEq, Repr

/-- Content of a block. -/
inductive Word where
  | link (p : Ptr)
  | data (v : Nat)
deriving DecidableEq, Repr

/-- The content read as a pointer. -/
def Word.asPtr : Word → Ptr
  | .link p => p
  | .data _ => .wild

/-- Where a thread is. -/
inductive Pc where
  | idle
  /-- allocators/atomic_pool_allocator.hh:17 -/
  | aCheck
  /-- allocators/atomic_pool_allocator.hh:26 -/
  | aLoad
  /-- allocators/atomic_pool_allocator.hh:28 -/
  | aRead (x : Ptr)
  /-- allocators/atomic_pool_allocator.hh:31-33 -/
  | aCas (x nxt : Ptr)
  /-- allocators/atomic_pool_allocator.hh:52 -/
  | fLoad (i : Nat)
  /-- allocators/atomic_pool_allocator.hh:55 -/
  | fWrite (i : Nat) (x : Ptr)
  /-- allocators/atomic_pool_allocator.hh:58-60 -/
  | fCas (i : Nat) (x : Ptr)
deriving DecidableEq

/-- A block that was returned by `alloc` and not yet given to `free` (ghost), the thread that has it, and what was last written to it. -/
structure Given where
  thread : Nat
  block : Nat
  val : Option Nat
deriving DecidableEq

/-- Allocator and threads. `given` is ghost. -/
structure State where
  n : Nat
  head : Ptr
  older : List Ptr
  mem : Nat → Word
  pc : Nat → Pc
  given : List Given

/-- Change one value of a function. -/
def upd {β : Type} (f : Nat → β) (i : Nat) (b : β) : Nat → β := fun j => if j = i then b else f j

/-- `initialize` with a buffer of `n` blocks (allocators/atomic_pool_allocator.cc:5-31). A buffer without room for a block is refused (line 13). -/
def init (n : Nat) : R State := do
  ccAssert (decide (0 < n))
  .ok { n := n, head := .block 0, older := [], mem := fun i => .link (if i + 1 < n then .block (i + 1) else .null), pc := fun _ => .idle, given := [] }

/-- Thread `t` goes on at `pc`. -/
def State.goto (s : State) (t : Nat) (pc : Pc) : State := { s with pc := upd s.pc t pc }

/-- `is_full` and its assertion (allocators/atomic_pool_allocator.hh:17, 90). -/
def aCheck (s : State) (t c : Nat) : R State :=
  match (s.head :: s.older)[c]? with
  | some x => do
    ccAssert (decide (x ≠ .null))
    .ok (s.goto t .aLoad)
  | none => .ok s

/-- Load of the candidate (allocators/atomic_pool_allocator.hh:26). -/
def aLoad (s : State) (t c : Nat) : R State :=
  match (s.head :: s.older)[c]? with
  | some x => .ok (s.goto t (.aRead x))
  | none => .ok s

/-- The link of the candidate (allocators/atomic_pool_allocator.hh:28). -/
def aRead (s : State) (t : Nat) (x : Ptr) : R State :=
  match x with
  | .block i => if i < s.n then .ok (s.goto t (.aCas x (s.mem i).asPtr)) else .error .ub
  | _ => .error .ub

/-- Compare-exchange of `alloc` (allocators/atomic_pool_allocator.hh:31-36); `c ≠ 0`: fails spuriously. -/
def aCas (s : State) (t : Nat) (x nxt : Ptr) (c : Nat) : R State :=
  if c = 0 ∧ s.head = x then
    match x with
    | .block i => .ok { s.goto t .idle with head := nxt, older := s.head :: s.older, given := { thread := t, block := i, val := none } :: s.given }
    | _ => .error .ub
  else .ok (s.goto t .aLoad)

/-- Load of `free` (allocators/atomic_pool_allocator.hh:52). -/
def fLoad (s : State) (t i c : Nat) : R State :=
  match (s.head :: s.older)[c]? with
  | some x => .ok (s.goto t (.fWrite i x))
  | none => .ok s

/-- The link is written into the block (allocators/atomic_pool_allocator.hh:55). -/
def fWrite (s : State) (t i : Nat) (x : Ptr) : R State :=
  if i < s.n then .ok { s.goto t (.fCas i x) with mem := upd s.mem i (.link x) } else .error .ub

/-- Compare-exchange of `free` (allocators/atomic_pool_allocator.hh:58-60). -/
def fCas (s : State) (t i : Nat) (x : Ptr) (c : Nat) : R State :=
  if c = 0 ∧ s.head = x then .ok { s.goto t .idle with head := .block i, older := s.head :: s.older }
  else .ok (s.goto t (.fLoad i))

/-- Call of `free` (allocators/atomic_pool_allocator.hh:41-46). The bound is `<=`: the address right behind the last block is accepted. -/
def fCall (s : State) (t i : Nat) : R State := do
  ccAssert (decide (i ≤ s.n))
  .ok { s.goto t (.fLoad i) with given := s.given.filter (fun g => g.block ≠ i) }

/-- What the schedule does with a thread. -/
inductive Act where
  | alloc
  | free (i : Nat)
  /-- the client writes to a block -/
  | write (i v : Nat)
  /-- the next step of the running call; `c` picks the value of a load, or lets a compare-exchange fail -/
  | go (c : Nat)
deriving DecidableEq

/-- The next step of a running call. -/
def advance (s : State) (t c : Nat) : Pc → R State
  | .idle => .ok s
  | .aCheck => aCheck s t c
  | .aLoad => aLoad s t c
  | .aRead x => aRead s t x
  | .aCas x nxt => aCas s t x nxt c
  | .fLoad i => fLoad s t i c
  | .fWrite i x => fWrite s t i x
  | .fCas i x => fCas s t i x c

/-- One step of thread `t`. While a call is running the thread does nothing else. -/
def step (s : State) (t : Nat) : Act → R State
  | .go c => advance s t c (s.pc t)
  | .alloc => if s.pc t = .idle then .ok (s.goto t .aCheck) else .ok s
  | .free i => if s.pc t = .idle then fCall s t i else .ok s
  | .write i v =>
    if s.pc t = .idle then
      .ok { s with mem := upd s.mem i (.data v), given := s.given.map (fun g => if g.block = i then { thread := g.thread, block := g.block, val := some v } else g) }
    else .ok s

/-- A schedule. -/
def run (s : State) : List (Nat × Act) → R State
  | [] => .ok s
  | (t, a) :: as => do
    let s ← step s t a
    run s as

end Verif.APool
