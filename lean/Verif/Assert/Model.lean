import Verif.Common

/-!
Model of the assertion macros and their handlers (/repo/src/clean-core/assert.hh:29-123, assert.cc:68-141), not for Windows.

A history is what the threads of a process do, one event after the other: setting the handler, and executing a macro whose condition has a value. Handlers
are numbers; what one does when it is called (it returns, or it throws) is a parameter, as is what the signal SIGTRAP does.
-/
namespace Verif.Assert

/-- The macros (assert.hh:43-85). -/
inductive Macro where
  | runtimeAssert | assert | inBounds | isNull | notNull | contract | unreachable
deriving DecidableEq, Repr

/-- The compile flags (assert.hh:8-10, 51-85). -/
structure Flags where
  assertions : Bool
  boundChecking : Bool
  nullChecking : Bool
  contractChecking : Bool
deriving DecidableEq, Repr

/-- What a macro expands to: a check, nothing (the condition is an operand of `sizeof`), or, for `CC_UNREACHABLE` without assertions, a promise to the compiler. -/
inductive Expansion where
  | check | nothing | promise
deriving DecidableEq, Repr

/-- `CC_ASSERT` (assert.hh:51-57). -/
def expandAssert (f : Flags) : Expansion := if f.assertions then .check else .nothing

/-- The other macros, most of them by `CC_ASSERT` (assert.hh:48-49, 59-85). -/
def expand (f : Flags) : Macro → Expansion
  | .runtimeAssert => .check
  | .assert => expandAssert f
  | .inBounds => if f.boundChecking then expandAssert f else .nothing
  | .isNull => if f.nullChecking then expandAssert f else .nothing
  | .notNull => if f.nullChecking then expandAssert f else .nothing
  | .contract => if f.contractChecking then expandAssert f else .nothing
  | .unreachable => if f.assertions then .check else .promise

/-- `assertion_info` (assert.hh:100-107), the texts as numbers. -/
structure Info where
  expr : Nat
  msg : Option Nat
  line : Nat
deriving DecidableEq, Repr

/-- What a handler does when it is called. -/
inductive Behaviour where
  | returns | throws
deriving DecidableEq, Repr

/-- What is outside of the library. -/
structure World where
  handler : Nat → Behaviour
  /-- SIGTRAP ends the process (its default), otherwise it is ignored, handled, or stops in a debugger that goes on -/
  trapEnds : Bool

inductive Event where
  /-- `set_assertion_handler`, `none` is a null pointer -/
  | set (thread : Nat) (h : Option Nat)
  | exec (thread : Nat) (m : Macro) (cond : Bool) (info : Info)
deriving DecidableEq, Repr

/-- What can be seen. -/
inductive Obs where
  /-- the handler of the user is called -/
  | called (thread : Nat) (h : Nat) (info : Info)
  /-- the text of the default handler -/
  | printed (thread : Nat) (info : Info)
  | threw (thread : Nat)
  | trapped
  | aborted
deriving DecidableEq, Repr

/-- The process: still running or not, and the handlers of the threads (`s_current_handler`, assert.cc:70). Undefined behaviour is an error. -/
structure State where
  running : Bool
  handlers : Nat → Option Nat

def init : State := { running := true, handlers := fun _ => none }

/-- `CC_DEBUG_BREAK` (assert.hh:32, `is_debugger_connected` answers `true`, assert.cc:115-123) and `perform_abort` (assert.cc:125-139). -/
def breakAndAbort (w : World) (s : State) : List Obs × State :=
  if w.trapEnds then ([.trapped], { s with running := false }) else ([.trapped, .aborted], { s with running := false })

/-- `assertion_failed` (assert.cc:103-113) and what comes after it in the macro (assert.hh:43-46). -/
def failed (w : World) (s : State) (t : Nat) (info : Info) : List Obs × State :=
  match s.handlers t with
  | some h =>
    match w.handler h with
    | .throws => ([.called t h info, .threw t], s)
    | .returns => let (o, s) := breakAndAbort w s; (.called t h info :: o, s)
  | none => let (o, s) := breakAndAbort w s; (.printed t info :: o, s)

/-- One event; a process that has ended does nothing more. -/
def step (f : Flags) (w : World) (s : State) (e : Event) : R (List Obs × State) :=
  if s.running then
    match e with
    | .set t h => .ok ([], { s with handlers := fun u => if u = t then h else s.handlers u })
    | .exec t m cond info =>
      match expand f m with
      | .nothing => .ok ([], s)
      | .promise => .error .ub
      | .check => if cond && m != .unreachable then .ok ([], s) else .ok (failed w s t info)
  else .ok ([], s)

def run (f : Flags) (w : World) (s : State) : List Event → R (List Obs × State)
  | [] => .ok ([], s)
  | e :: es => do
    let (o, s) ← step f w s e
    let (os, s) ← run f w s es
    .ok (o ++ os, s)

end Verif.Assert
