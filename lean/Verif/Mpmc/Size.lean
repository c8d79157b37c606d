import Verif.Mpmc.Model

/-!
Model of `cc::mpmc_queue<T>` with `CC_MPMC_QUEUE_TRACK_SIZE` (/repo/src/clean-core/experimental/mpmc_queue.hh:66-68, 95-97, 102-107, 134-136): the
queue of `Model.lean`, and after the store of the sequence number one more step of the same call, the change of `_current_size`.

The counter is sequentially consistent and only changed by `fetch_add`, so it is one value, read as it is now. `fetch_add` of an atomic wraps
around. The list of returned calls of `Model.lean` has a call already when it has stored the sequence number; here the thread is then still in the
call until it has changed the counter, and cannot begin another one.
-/
namespace Verif.Mpmc.Size

variable {α : Type}

/-- The queue and its counter. `owed`: the threads that have stored the sequence number and not yet changed the counter, with the change. -/
structure State (α : Type) where
  q : Mpmc.State α
  size : BitVec 64
  owed : List (Nat × Int)

/-- `initialize` (mpmc_queue.hh:29-42): the counter keeps its value. A new queue has the value 0 (mpmc_queue.hh:135). -/
def init (n : Nat) (d0 : α) (size : BitVec 64) : R (State α) := do
  let q ← Mpmc.init n d0
  .ok { q := q, size := size, owed := [] }

/-- What the thread will do to the counter if its next step is the store of the sequence number (mpmc_queue.hh:66-68, 95-97). -/
def change : Pc α → Option Int
  | .ePub _ _ => some 1
  | .dRel _ _ _ => some (-1)
  | _ => none

/-- Who owes a change after a step of thread `t`; `d` is the change that comes after the step. -/
def owing (t : Nat) (a : Act α) (d : Option Int) (owed : List (Nat × Int)) : List (Nat × Int) :=
  match a, d with
  | .go _, some d => (t, d) :: owed
  | _, _ => owed

/-- A step of the queue; afterwards the thread may owe a change. -/
def stepQueue (s : State α) (t : Nat) (a : Act α) : R (State α) := do
  let q ← Mpmc.step s.q t a
  .ok { q := q, size := s.size, owed := owing t a (change (s.q.threads t).pc) s.owed }

/-- `_current_size.fetch_add(d)` (mpmc_queue.hh:67, 96), and the call returns. -/
def fetchAdd (s : State α) (t : Nat) (d : Int) : State α :=
  { q := s.q, size := s.size + BitVec.ofInt 64 d, owed := s.owed.filter (fun x => x.1 != t) }

/-- One step of thread `t`. -/
def step (s : State α) (t : Nat) (a : Act α) : R (State α) :=
  match s.owed.lookup t with
  | none => stepQueue s t a
  | some d =>
    match a with
    | .go _ => .ok (fetchAdd s t d)
    | _ => .ok s

/-- A schedule. -/
def run (s : State α) : List (Nat × Act α) → R (State α)
  | [] => .ok s
  | (t, a) :: as => do
    let s ← step s t a
    run s as

/-- A schedule after `initialize` of a queue whose counter is `size`. -/
def start (n : Nat) (d0 : α) (size : BitVec 64) (sched : List (Nat × Act α)) : R (State α) := do
  let s ← init n d0 size
  run s sched

/-- `get_approximate_size` (mpmc_queue.hh:103-106). -/
def approximateSize (s : State α) : Int := s.size.toInt

end Verif.Mpmc.Size
