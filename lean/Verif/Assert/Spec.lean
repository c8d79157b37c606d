import Verif.Assert.Model

/-! Specification: by the history alone. -/
namespace Verif.Assert.Spec

/-- The handler a thread has after a history: the last one it has set itself. -/
def handlerOf (t : Nat) (past : List Event) : Option Nat :=
  (past.filterMap fun e => match e with
    | .set u h => if u = t then some h else none
    | .exec .. => none).getLast?.join

/-- Which macros check something: those whose flag is on, if assertions are on; `CC_RUNTIME_ASSERT` always. -/
def checks (f : Flags) : Macro → Bool
  | .runtimeAssert => true
  | .assert | .unreachable => f.assertions
  | .inBounds => f.assertions && f.boundChecking
  | .isNull | .notNull => f.assertions && f.nullChecking
  | .contract => f.assertions && f.contractChecking

/-- An event at which an active check fails. -/
def fails (f : Flags) : Event → Option (Nat × Info)
  | .set .. => none
  | .exec t m cond info => if checks f m && (!cond || m == .unreachable) then some (t, info) else none

/-- What is seen at a failing check, and whether the process goes on, as it should be: the handler of that thread is called once, then the process is aborted, unless
the handler throws. -/
def report (w : World) (past : List Event) (t : Nat) (info : Info) : List Obs × Bool :=
  match handlerOf t past with
  | none => ([.printed t info, .aborted], false)
  | some h => if w.handler h = .throws then ([.called t h info, .threw t], true) else ([.called t h info, .aborted], false)

/-- What is seen of a history. -/
def observe (f : Flags) (w : World) (past : List Event) : List Event → List Obs
  | [] => []
  | e :: es =>
    match fails f e with
    | none => observe f w (past ++ [e]) es
    | some (t, info) =>
      let (o, goesOn) := report w past t info
      o ++ if goesOn then observe f w (past ++ [e]) es else []

/-- No `CC_UNREACHABLE` is reached that is a promise to the compiler. -/
def NoPromise (f : Flags) (es : List Event) : Prop := f.assertions = true ∨ ∀ t c i, Event.exec t .unreachable c i ∉ es

/-- The signal that comes before the abort, left out. -/
def withoutTrap (os : List Obs) : List Obs := os.filter (· != .trapped)

end Verif.Assert.Spec
