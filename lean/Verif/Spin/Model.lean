import Verif.Common

/-!
Model of `cc::spin_lock` (/repo/src/clean-core/spin_lock.hh) and `cc::lock_guard` (/repo/src/clean-core/lock_guard.hh) under the memory model
of C++, together with non-atomic data that the lock is meant to protect.

Any number of threads; a schedule says which one takes the next atomic step. Memory:

* `_is_locked` keeps all values ever stored in it. A relaxed load may return any of them (more than C++ allows). An exchange reads the newest one.
* A release store attaches what the storing thread knows about the accesses to the data; an exchange with acquire adds what it reads to
  what its thread knows, and passes it on (release sequence).
* The data is not atomic: an access by a thread that does not know all earlier accesses is a data race, undefined.

The pause instruction (spin_lock.hh:31-35) has no effect and is left out.
-/
namespace Verif.Spin

variable {α : Type}

/-- A value stored in `_is_locked` (spin_lock.hh:62), with what it carries. -/
structure Msg where
  locked : Bool
  view : Nat
deriving DecidableEq

/-- Where a thread is; `g`: in the constructor of a `lock_guard`. -/
inductive Pc where
  | idle
  /-- spin_lock.hh:22 -/
  | lockX (g : Bool)
  /-- spin_lock.hh:29 -/
  | lockWait (g : Bool)
  /-- spin_lock.hh:45 -/
  | tryLoad
  /-- spin_lock.hh:46 -/
  | tryX
deriving DecidableEq

/-- A thread: `held`: its last `lock()` (or successful `try_lock()`) has no `unlock()` yet; `guard`: a `lock_guard` of this thread is alive. -/
structure Thread where
  pc : Pc
  known : Nat
  held : Bool
  guard : Bool
deriving DecidableEq

/-- What happened (ghost): a `lock()` or `try_lock()` was successful, an `unlock()` was done. -/
inductive Ev where
  | acquired (t : Nat)
  | released (t : Nat)
deriving DecidableEq

/-- Lock, data and threads; `log` (newest first) and `rets` (results of `try_lock`, newest first) are ghost. -/
structure State (α : Type) where
  newest : Msg
  older : List Msg
  data : α
  acc : Nat
  threads : Nat → Thread
  log : List Ev
  rets : List (Nat × Bool)

/-- A fresh lock (spin_lock.hh:62). -/
def init (d : α) : State α :=
  { newest := { locked := false, view := 0 }, older := [], data := d, acc := 0, threads := fun _ => { pc := .idle, known := 0, held := false, guard := false },
    log := [], rets := [] }

/-- Change one value of a function. -/
def upd {β : Type} (f : Nat → β) (i : Nat) (b : β) : Nat → β := fun j => if j = i then b else f j

/-- Thread `t` goes on at `pc`. -/
def State.goto (s : State α) (t : Nat) (pc : Pc) : State α :=
  { s with threads := upd s.threads t { pc := pc, known := (s.threads t).known, held := (s.threads t).held, guard := (s.threads t).guard } }

/-- `_is_locked.exchange(true, acquire)`: the thread goes on at `pc`. -/
def State.exchange (s : State α) (t : Nat) (pc : Pc) (held guard : Bool) : State α :=
  { s with newest := { locked := true, view := s.newest.view }, older := s.newest :: s.older,
           threads := upd s.threads t { pc := pc, known := max (s.threads t).known s.newest.view, held := held, guard := guard } }

/-- The exchange in `lock()` (spin_lock.hh:22-26); lock_guard.hh:10. -/
def lockX (s : State α) (t : Nat) (g : Bool) : State α :=
  if s.newest.locked = false then { s.exchange t .idle true (g || (s.threads t).guard) with log := .acquired t :: s.log }
  else s.exchange t (.lockWait g) (s.threads t).held (s.threads t).guard

/-- The waiting loop in `lock()` (spin_lock.hh:29); `c` picks the value that is loaded. -/
def lockWait (s : State α) (t : Nat) (g : Bool) (c : Nat) : State α :=
  match (s.newest :: s.older)[c]? with
  | some m => if m.locked then s else s.goto t (.lockX g)
  | none => s

/-- The load in `try_lock()` (spin_lock.hh:45). -/
def tryLoad (s : State α) (t c : Nat) : State α :=
  match (s.newest :: s.older)[c]? with
  | some m => if m.locked then { s.goto t .idle with rets := (t, false) :: s.rets } else s.goto t .tryX
  | none => s

/-- The exchange in `try_lock()` (spin_lock.hh:46). -/
def tryX (s : State α) (t : Nat) : State α :=
  if s.newest.locked = false then { s.exchange t .idle true (s.threads t).guard with log := .acquired t :: s.log, rets := (t, true) :: s.rets }
  else { s.exchange t .idle (s.threads t).held (s.threads t).guard with rets := (t, false) :: s.rets }

/-- `unlock()` (spin_lock.hh:49-53). -/
def unlock (s : State α) (t : Nat) (guard : Bool) : State α :=
  { s with newest := { locked := false, view := (s.threads t).known }, older := s.newest :: s.older,
           threads := upd s.threads t { pc := .idle, known := (s.threads t).known, held := false, guard := guard }, log := .released t :: s.log }

/-- A non-atomic access to the data. -/
def access (s : State α) (t : Nat) (f : α → α) : R (State α) :=
  if (s.threads t).known = s.acc then
    .ok { s with data := f s.data, acc := s.acc + 1,
                 threads := upd s.threads t { pc := (s.threads t).pc, known := s.acc + 1, held := (s.threads t).held, guard := (s.threads t).guard } }
  else .error .ub

/-- What the schedule does with a thread. -/
inductive Act (α : Type) where
  | lock
  | tryLock
  | unlock
  /-- a `lock_guard` is constructed -/
  | guard
  /-- the `lock_guard` goes out of scope -/
  | endGuard
  | access (f : α → α)
  /-- the next step of the running call; `c` picks the value of a load -/
  | go (c : Nat)

/-- The next step of a running call. -/
def advance (s : State α) (t c : Nat) : Pc → State α
  | .idle => s
  | .lockX g => lockX s t g
  | .lockWait g => lockWait s t g c
  | .tryLoad => tryLoad s t c
  | .tryX => tryX s t

/-- One step of thread `t`. While a call is running the thread can do nothing else; a `lock_guard` that is not alive cannot be destroyed
(lock_guard.hh:11). -/
def step (s : State α) (t : Nat) (a : Act α) : R (State α) :=
  match a with
  | .go c => .ok (advance s t c (s.threads t).pc)
  | .lock => if (s.threads t).pc = .idle then .ok (s.goto t (.lockX false)) else .ok s
  | .tryLock => if (s.threads t).pc = .idle then .ok (s.goto t .tryLoad) else .ok s
  | .unlock => if (s.threads t).pc = .idle then .ok (unlock s t (s.threads t).guard) else .ok s
  | .guard => if (s.threads t).pc = .idle then .ok (s.goto t (.lockX true)) else .ok s
  | .endGuard => if (s.threads t).pc = .idle ∧ (s.threads t).guard = true then .ok (unlock s t false) else .ok s
  | .access f => if (s.threads t).pc = .idle then access s t f else .ok s

/-- A schedule. -/
def run (s : State α) : List (Nat × Act α) → R (State α)
  | [] => .ok s
  | (t, a) :: as => do
    let s ← step s t a
    run s as

end Verif.Spin
