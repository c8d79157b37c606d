import Verif.Common
/-!
# The end of a monitor of `cc::filewatch`

`~Monitor` (/repo/src/clean-core/experimental/filewatch.cc 276-286) tells the thread of the monitor to stop and waits for it.  The thread
(filewatch.cc 142-250) may be anywhere in its loop.  Two machines, for unix and for Windows: each `Act` is one step of the thread, of the
destructor or of the rest of the world, and any sequence of enabled steps may happen.

Simplifications: the events are counted, not described (what is done with one is in `Watch/Model`); the mutex is not held by the
destructor and is left out; signals do not interrupt `read`; the operating system does what its documentation says, in particular a
removed watch and a deleted directory give one last event (`IN_IGNORED`).
-/
namespace Verif.Watch

namespace Unix

/-- Where the thread is: before `while (threadAlive)` (filewatch.cc 163), in `read` (167), in the loop over the events just read with
`n` left (172-190), before `close` (236), at its end. -/
inductive Th where
  | check
  | read
  | busy (n : Nat)
  | close
  | done
deriving DecidableEq, Repr

/-- Where the program is: before `~Monitor`, after `threadAlive.store(false)` (filewatch.cc 278), after `inotify_rm_watch` (280), after
`thread.join()` (285). -/
inductive Prog where
  | before
  | stored
  | joining
  | gone
deriving DecidableEq, Repr

/-- `watch`: the kernel's watch exists; `fdOpen`: the descriptor is open; `queue`: events that can be read; `wrongFd`: `inotify_rm_watch` was
called with a descriptor that is closed and may belong to someone else by now. -/
structure S where
  watch : Bool
  fdOpen : Bool
  queue : Nat
  alive : Bool
  th : Th
  prog : Prog
  wrongFd : Bool
deriving DecidableEq, Repr

/-- After `Monitor::create` (filewatch.cc 257-264). -/
def init : S := ⟨true, true, 0, true, .check, .before, false⟩

inductive Act where
  /-- something in the directory changes -/
  | change
  /-- the directory is deleted (or unmounted) -/
  | delete
  /-- the thread makes a step; `read` gives it `n` events -/
  | thread (n : Nat)
  /-- the program makes a step of `~Monitor` -/
  | prog
deriving DecidableEq, Repr

/-- The kernel adds an event to a queue of at most `lim` events. -/
def push (lim : Nat) (q : Nat) : Nat := if q < lim then q + 1 else q

/-- One step, `none` if it cannot be made now. -/
def step (lim : Nat) (s : S) : Act → Option S
  | .change => some (if s.watch then { s with queue := push lim s.queue } else s)
  | .delete => some (if s.watch then { s with watch := false, queue := push lim s.queue } else s)
  | .thread n =>
    match s.th with
    | .check => some { s with th := if s.alive then .read else .close }
    | .read => if 1 ≤ n ∧ n ≤ s.queue then some { s with queue := s.queue - n, th := .busy n } else none
    | .busy 0 => some { s with th := .check }
    | .busy (k + 1) => some { s with th := .busy k }
    | .close => some { s with fdOpen := false, watch := false, queue := 0, th := .done }
    | .done => none
  | .prog =>
    match s.prog with
    | .before => some { s with alive := false, prog := .stored }
    | .stored =>
      some (if s.fdOpen then
          if s.watch then { s with watch := false, queue := push lim s.queue, prog := .joining } else { s with prog := .joining }
        else { s with wrongFd := true, prog := .joining })
    | .joining => if s.th = .done then some { s with prog := .gone } else none
    | .gone => none

/-- A sequence of steps. -/
def run (lim : Nat) (s : S) : List Act → Option S
  | [] => some s
  | a :: as => (step lim s a).bind fun s' => run lim s' as

end Unix

namespace Win

/-- Where the thread is: before `CreateEvent` (filewatch.cc 155), before `while (threadAlive)` (163), before `ReadDirectoryChangesW` (193), in
`WaitForMultipleObjects` (198), before `GetOverlappedResult` (202), in the loop over the entries with `n` left (213-230), before the
cleanup (238-244), at its end. -/
inductive Th where
  | start
  | check
  | issue
  | wait
  | fetch
  | busy (n : Nat)
  | clean
  | done
deriving DecidableEq, Repr

/-- Where the program is: before `~Monitor`, after `threadAlive.store(false)` (filewatch.cc 278), after `SetEvent` (283), after
`thread.join()` (285). -/
inductive Prog where
  | before
  | stored
  | joining
  | gone
deriving DecidableEq, Repr

/-- `pending`: a request for notifications is running; `ioDone`: its event is set; `closeSet`: the close event is set; `handles`: handles
that are open. -/
structure S where
  pending : Bool
  ioDone : Bool
  closeSet : Bool
  alive : Bool
  th : Th
  prog : Prog
  handles : Nat
deriving DecidableEq, Repr

/-- After `Monitor::create` (filewatch.cc 265-272): the close event and the directory are open. -/
def init : S := ⟨false, false, false, true, .start, .before, 2⟩

inductive Act where
  | change
  /-- the thread makes a step; a finished request reports `n` entries -/
  | thread (n : Nat)
  | prog
deriving DecidableEq, Repr

/-- One step, `none` if it cannot be made now. Both events are manual-reset events; starting a request resets its event. Entries are
looked at only if the first is a modification (filewatch.cc 210), else `n` is 0. -/
def step (s : S) : Act → Option S
  | .change => some (if s.pending then { s with ioDone := true } else s)
  | .thread n =>
    match s.th with
    | .start => some { s with handles := s.handles + 1, th := .check }
    | .check => some { s with th := if s.alive then .issue else .clean }
    | .issue => some { s with pending := true, ioDone := false, th := .wait }
    | .wait => if s.ioDone then some { s with th := .fetch } else if s.closeSet then some { s with th := .check } else none
    | .fetch => some { s with pending := false, th := .busy n }
    | .busy 0 => some { s with th := .check }
    | .busy (k + 1) => some { s with th := .busy k }
    | .clean => some { s with pending := false, handles := s.handles - 1, th := .done }
    | .done => none
  | .prog =>
    match s.prog with
    | .before => some { s with alive := false, prog := .stored }
    | .stored => some { s with closeSet := true, prog := .joining }
    | .joining => if s.th = .done then some { s with prog := .gone } else none
    | .gone => none

def run (s : S) : List Act → Option S
  | [] => some s
  | a :: as => (step s a).bind fun s' => run s' as

end Win

end Verif.Watch
