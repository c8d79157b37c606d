import Verif.Bits.Model
import Verif.Span.Model

/-!
Model of `cc::mpmc_queue<T>` (/repo/src/clean-core/experimental/mpmc_queue.hh) under the memory model of C++.

Any number of threads run `enqueue` and `dequeue`; a schedule says which thread takes the next atomic step. Memory:

* An atomic variable keeps all values ever stored in it. A relaxed or acquire load may return any of them (more than C++ allows: a thread cannot
  even rely on coherence). A successful compare-exchange reads the newest one. Positions are only changed by compare-exchange, so they are
  stored in the order of their modification; the sequence numbers of the cells are never the target of a read-modify-write, so their
  order of modification does not matter.
* A release store attaches what the storing thread knows about the non-atomic accesses to the cells; an acquire load that reads the value
  adds it to what the reading thread knows (synchronises-with).
* `data_` is not atomic: an access by a thread that does not know all earlier accesses to the same cell is a data race, undefined. (Two
  reads would be harmless, but never happen.)
* Within a thread, steps are taken in program order.

`_current_size` (CC_MPMC_QUEUE_TRACK_SIZE, off by default) is in `Size.lean`.
-/
namespace Verif.Mpmc

open Bits (isPow2)

variable {α : Type}

/-- Number of known accesses to the data of each cell. -/
abbrev View := Nat → Nat

/-- A value stored in `sequence_`, with what its release store carries. -/
structure Msg where
  seq : Nat
  view : View

/-- `cell` (mpmc_queue.hh:110-114), and the number of accesses to `data_` so far. -/
structure Cell (α : Type) where
  msgs : List Msg
  data : α
  acc : Nat

/-- Where a thread is. `i` is the number of the claim (ghost). -/
inductive Pc (α : Type) where
  | idle
  /-- mpmc_queue.hh:47 or 61 -/
  | eLoad (v : α)
  /-- mpmc_queue.hh:50-52 -/
  | eSeq (v : α) (pos : Nat)
  /-- mpmc_queue.hh:55 -/
  | eCas (v : α) (pos : Nat)
  /-- mpmc_queue.hh:63 -/
  | eWrite (v : α) (pos i : Nat)
  /-- mpmc_queue.hh:64 -/
  | ePub (pos i : Nat)
  /-- mpmc_queue.hh:76 or 90 -/
  | dLoad
  /-- mpmc_queue.hh:79-81 -/
  | dSeq (pos : Nat)
  /-- mpmc_queue.hh:84 -/
  | dCas (pos : Nat)
  /-- mpmc_queue.hh:92 -/
  | dRead (pos i : Nat)
  /-- mpmc_queue.hh:93 -/
  | dRel (pos i : Nat) (v : α)
deriving DecidableEq

/-- A thread. -/
structure Thread (α : Type) where
  pc : Pc α
  known : View

/-- How far an enqueue that has got its position is. -/
inductive EStage where
  | claimed
  | written
  | published
deriving DecidableEq

/-- An enqueue that has got its position (ghost). -/
structure EnqE (α : Type) where
  val : α
  stage : EStage
  thread : Nat
deriving DecidableEq

/-- How far a dequeue that has got its position is. -/
inductive DStage (α : Type) where
  | claimed
  | read (v : α)
  | done (v : α)
deriving DecidableEq

/-- A dequeue that has got its position (ghost). -/
structure DeqE (α : Type) where
  stage : DStage α
  thread : Nat
deriving DecidableEq

/-- What a call returned. -/
inductive Ret (α : Type) where
  | enqueued (ok : Bool)
  | dequeued (v : Option α)
deriving DecidableEq

/-- Queue, threads and history. `enq` is the newest value of `_enqueue_pos`, `enqOld` the older ones; likewise for `_dequeue_pos`. `n` is
`_buffer_mask + 1`. Ghost: `enqLog` and `deqLog`, the successful compare-exchanges in order, and `rets`, the finished calls, newest first. -/
structure State (α : Type) where
  n : Nat
  enq : Nat
  enqOld : List Nat
  deq : Nat
  deqOld : List Nat
  cells : Nat → Cell α
  threads : Nat → Thread α
  enqLog : List (EnqE α)
  deqLog : List (DeqE α)
  rets : List (Nat × Ret α)

/-- `initialize` (mpmc_queue.hh:29-42), before the queue is used by other threads; `d0` is the default constructed `T`. -/
def init (n : Nat) (d0 : α) : R (State α) := do
  ccAssert (decide (n ≥ 2) && isPow2 (BitVec.ofNat 64 n))
  .ok { n := n, enq := 0, enqOld := [], deq := 0, deqOld := [], cells := fun i => { msgs := [{ seq := i, view := fun _ => 0 }], data := d0, acc := 0 },
        threads := fun _ => { pc := .idle, known := fun _ => 0 }, enqLog := [], deqLog := [], rets := [] }

/-- Change one value of a function. -/
def upd {β : Type} (f : Nat → β) (i : Nat) (b : β) : Nat → β := fun j => if j = i then b else f j

/-- Thread `t` goes on at `pc`. -/
def State.goto (s : State α) (t : Nat) (pc : Pc α) : State α :=
  { s with threads := upd s.threads t { pc := pc, known := (s.threads t).known } }

/-- Thread `t` returns from its call. -/
def State.ret (s : State α) (t : Nat) (r : Ret α) : State α := { s.goto t .idle with rets := (t, r) :: s.rets }

/-- `pos & _buffer_mask` (mpmc_queue.hh:50, 79). -/
def State.idx (s : State α) (pos : Nat) : Nat := pos &&& (s.n - 1)

/-- `static_cast<intptr_t>(a) - static_cast<intptr_t>(b)` (mpmc_queue.hh:52, 81): signed overflow is undefined. -/
def sdiff (a b : Nat) : R Int :=
  let d := Span.toI64 a - Span.toI64 b
  if -(2 ^ 63) ≤ d ∧ d < 2 ^ 63 then .ok d else .error .ub

/-- Acquire: thread `t` learns what `m` carries. -/
def State.acquire (s : State α) (t : Nat) (m : Msg) : State α :=
  { s with threads := upd s.threads t { pc := (s.threads t).pc, known := fun c => max ((s.threads t).known c) (m.view c) } }

/-- Load `_enqueue_pos` (mpmc_queue.hh:47, 61); `c` picks the value. -/
def enqLoad (s : State α) (t : Nat) (v : α) (c : Nat) : R (State α) :=
  match (s.enq :: s.enqOld)[c]? with
  | some pos => .ok (s.goto t (.eSeq v pos))
  | none => .ok s

/-- Where the comparison leads (mpmc_queue.hh:53-61). -/
def enqBranch (s : State α) (t : Nat) (v : α) (pos : Nat) (diff : Int) : State α :=
  if diff = 0 then s.goto t (.eCas v pos)
  else if diff < 0 then s.ret t (.enqueued false)
  else s.goto t (.eLoad v)

/-- Load the sequence number and compare (mpmc_queue.hh:50-52); `c` picks the value. -/
def enqSeq (s : State α) (t : Nat) (v : α) (pos c : Nat) : R (State α) := do
  ccAssert (s.idx pos < s.n)
  match (s.cells (s.idx pos)).msgs[c]? with
  | some m => do
    let diff ← sdiff m.seq pos
    .ok (enqBranch (s.acquire t m) t v pos diff)
  | none => .ok s

/-- `compare_exchange_weak` on `_enqueue_pos` (mpmc_queue.hh:55): `c = 0` reads the newest value; otherwise it fails having read another one. -/
def enqCas (s : State α) (t : Nat) (v : α) (pos c : Nat) : R (State α) :=
  if c = 0 then
    if s.enq = pos then
      .ok { s.goto t (.eWrite v pos s.enqLog.length) with
            enq := (pos + 1) % 2 ^ 64, enqOld := s.enq :: s.enqOld, enqLog := s.enqLog ++ [{ val := v, stage := .claimed, thread := t }] }
    else .ok (s.goto t (.eSeq v s.enq))
  else
    match (s.enq :: s.enqOld)[c - 1]? with
    | some p => .ok (s.goto t (.eSeq v p))
    | none => .ok s

/-- A non-atomic access of thread `t` to the data of cell `c`. -/
def access (s : State α) (t c : Nat) : R Unit := if (s.threads t).known c = (s.cells c).acc then .ok () else .error .ub

/-- State after the access: the thread knows about it; `data` is the new content. -/
def accessed (s : State α) (t c : Nat) (data : α) (pc : Pc α) : State α :=
  { s with
    cells := upd s.cells c { msgs := (s.cells c).msgs, data := data, acc := (s.cells c).acc + 1 },
    threads := upd s.threads t { pc := pc, known := upd (s.threads t).known c ((s.cells c).acc + 1) } }

/-- Change the entry of a claim. -/
def setStage (l : List (EnqE α)) (i : Nat) (st : EStage) : List (EnqE α) :=
  match l[i]? with
  | some e => l.set i { val := e.val, stage := st, thread := e.thread }
  | none => l

/-- Change the entry of a claim. -/
def setDStage (l : List (DeqE α)) (i : Nat) (st : DStage α) : List (DeqE α) :=
  match l[i]? with
  | some e => l.set i { stage := st, thread := e.thread }
  | none => l

/-- `cell->data_ = data` (mpmc_queue.hh:63). -/
def enqWrite (s : State α) (t : Nat) (v : α) (pos i : Nat) : R (State α) := do
  access s t (s.idx pos)
  .ok { accessed s t (s.idx pos) v (.ePub pos i) with enqLog := setStage s.enqLog i .written }

/-- Store a sequence number in a cell with release. -/
def State.store (s : State α) (t c seq : Nat) : State α :=
  { s with cells := upd s.cells c { msgs := { seq := seq, view := (s.threads t).known } :: (s.cells c).msgs, data := (s.cells c).data, acc := (s.cells c).acc } }

/-- `cell->sequence_.store(pos + 1)` (mpmc_queue.hh:64). -/
def enqPub (s : State α) (t pos i : Nat) : R (State α) :=
  .ok { (s.store t (s.idx pos) ((pos + 1) % 2 ^ 64)).ret t (.enqueued true) with enqLog := setStage s.enqLog i .published }

/-- Load `_dequeue_pos` (mpmc_queue.hh:76, 90). -/
def deqLoad (s : State α) (t c : Nat) : R (State α) :=
  match (s.deq :: s.deqOld)[c]? with
  | some pos => .ok (s.goto t (.dSeq pos))
  | none => .ok s

/-- Where the comparison leads (mpmc_queue.hh:82-90). -/
def deqBranch (s : State α) (t pos : Nat) (diff : Int) : State α :=
  if diff = 0 then s.goto t (.dCas pos)
  else if diff < 0 then s.ret t (.dequeued none)
  else s.goto t .dLoad

/-- Load the sequence number and compare (mpmc_queue.hh:79-81). -/
def deqSeq (s : State α) (t pos c : Nat) : R (State α) := do
  ccAssert (s.idx pos < s.n)
  match (s.cells (s.idx pos)).msgs[c]? with
  | some m => do
    let diff ← sdiff m.seq ((pos + 1) % 2 ^ 64)
    .ok (deqBranch (s.acquire t m) t pos diff)
  | none => .ok s

/-- `compare_exchange_weak` on `_dequeue_pos` (mpmc_queue.hh:84). -/
def deqCas (s : State α) (t pos c : Nat) : R (State α) :=
  if c = 0 then
    if s.deq = pos then
      .ok { s.goto t (.dRead pos s.deqLog.length) with
            deq := (pos + 1) % 2 ^ 64, deqOld := s.deq :: s.deqOld, deqLog := s.deqLog ++ [{ stage := .claimed, thread := t }] }
    else .ok (s.goto t (.dSeq s.deq))
  else
    match (s.deq :: s.deqOld)[c - 1]? with
    | some p => .ok (s.goto t (.dSeq p))
    | none => .ok s

/-- `*out_data = cell->data_` (mpmc_queue.hh:92). -/
def deqRead (s : State α) (t pos i : Nat) : R (State α) := do
  access s t (s.idx pos)
  .ok { accessed s t (s.idx pos) (s.cells (s.idx pos)).data (.dRel pos i (s.cells (s.idx pos)).data) with
        deqLog := setDStage s.deqLog i (.read (s.cells (s.idx pos)).data) }

/-- `cell->sequence_.store(pos + _buffer_mask + 1)` (mpmc_queue.hh:93). -/
def deqRel (s : State α) (t pos i : Nat) (v : α) : R (State α) :=
  .ok { (s.store t (s.idx pos) ((pos + (s.n - 1) + 1) % 2 ^ 64)).ret t (.dequeued (some v)) with deqLog := setDStage s.deqLog i (.done v) }

/-- What the schedule does with a thread: begin a call, or take the next step of the running one (`c` picks the value of a load). -/
inductive Act (α : Type) where
  | enqueue (v : α)
  | dequeue
  | go (c : Nat)

/-- The next step of a running call. -/
def advance (s : State α) (t c : Nat) : Pc α → R (State α)
  | .idle => .ok s
  | .eLoad v => enqLoad s t v c
  | .eSeq v pos => enqSeq s t v pos c
  | .eCas v pos => enqCas s t v pos c
  | .eWrite v pos i => enqWrite s t v pos i
  | .ePub pos i => enqPub s t pos i
  | .dLoad => deqLoad s t c
  | .dSeq pos => deqSeq s t pos c
  | .dCas pos => deqCas s t pos c
  | .dRead pos i => deqRead s t pos i
  | .dRel pos i v => deqRel s t pos i v

/-- Begin a call; nothing happens if the thread is still in one. -/
def begin (s : State α) (t : Nat) (pc : Pc α) : Pc α → R (State α)
  | .idle => .ok (s.goto t pc)
  | _ => .ok s

/-- One step of thread `t`. -/
def step (s : State α) (t : Nat) : Act α → R (State α)
  | .enqueue v => begin s t (.eLoad v) (s.threads t).pc
  | .dequeue => begin s t .dLoad (s.threads t).pc
  | .go c => advance s t c (s.threads t).pc

/-- A schedule. -/
def run (s : State α) : List (Nat × Act α) → R (State α)
  | [] => .ok s
  | (t, a) :: as => do
    let s ← step s t a
    run s as

/-- A schedule from the initial state. -/
def start (n : Nat) (d0 : α) (sched : List (Nat × Act α)) : R (State α) := do
  let s ← init n d0
  run s sched

end Verif.Mpmc
