import Verif.Common
/-!
# `CC_DEFER`, `CC_RETURN_DEFER`

Model of `/repo/src/clean-core/defer.hh` and of the programs that use it.

The header is one class with a destructor that calls a function object.  When destructors run is decided by the language, so the model is an
interpreter of the part of C++ that matters: scopes, functions, loops, exceptions, and objects with this destructor.  There is no state beside the trace of
what happens; so a deferred function does the same whenever it runs (what it reads of its captured variables is not modelled).
-/
namespace Verif.Defer

/-- What can be observed. -/
inductive Ev where
  /-- some other effect -/
  | act (e : Nat)
  /-- the beginning and the end of a scope -/
  | enter
  | leave
  /-- a defer statement has been executed -/
  | reg (id : Nat)
  /-- a deferred function is called -/
  | run (id : Nat)
deriving DecidableEq, Repr

/-- How a statement ends. `terminated`: `std::terminate` was called. -/
inductive Outcome where
  | normal | broke | continued | returned | thrown | terminated
deriving DecidableEq, Repr

/-- Statements. -/
inductive Stmt where
  | act (e : Nat)
  | seq (a b : Stmt)
  /-- `{ ... }`, also the branches of an `if` -/
  | scope (s : Stmt)
  /-- the call of a function with this body -/
  | call (s : Stmt)
  /-- a loop that runs its body, which is a scope, at most `n` times -/
  | loop (n : Nat) (s : Stmt)
  /-- `try { s } catch (...) { h }` -/
  | tryCatch (s h : Stmt)
  | brk | cont | ret | throw
  /-- `CC_DEFER { body };` -/
  | defer (id : Nat) (body : Stmt)
  /-- `auto x = f();` where `f` is `{ pre; CC_RETURN_DEFER { body }; }` and `pre` does not return -/
  | hold (pre : Stmt) (id : Nat) (body : Stmt)
  /-- `f();` with the same `f`: its result is discarded -/
  | discard (pre : Stmt) (id : Nat) (body : Stmt)
  /-- `auto y = x;` or `auto y = cc::move(x);` for the last deferred object in the scope: `deferred` has the implicit copy constructor (defer.hh 30-36) -/
  | copy

/-- A `deferred` object (defer.hh 30-36): which function it holds, and what this function will do. -/
structure Obj where
  id : Nat
  trace : List Ev
  out : Outcome

/-- The result of a statement: what happened, how it ended, the objects that it has added to its scope (the last one first). -/
structure Res where
  trace : List Ev
  out : Outcome
  objs : List Obj

/-- `~deferred() { f(); }` (defer.hh 35) for the objects of a scope, the last one first. A destructor is `noexcept`: an exception in `f` ends the program. -/
def unwind : List Obj → List Ev × Bool
  | [] => ([], false)
  | o :: os =>
    if o.out = .thrown ∨ o.out = .terminated then (.run o.id :: o.trace, true)
    else
      let (t, b) := unwind os
      (.run o.id :: (o.trace ++ t), b)

/-- The end of a scope, however it is left. -/
def close (r : Res) : Res :=
  if r.out = .terminated then { trace := .enter :: r.trace, out := .terminated, objs := [] }
  else
    let (t, b) := unwind r.objs
    if b then { trace := .enter :: (r.trace ++ t), out := .terminated, objs := [] }
    else { trace := .enter :: (r.trace ++ (t ++ [.leave])), out := r.out, objs := [] }

/-- The end of a function: `return` has done its work; `break` and `continue` do not occur outside loops. -/
def finish (r : Res) : Res :=
  { close r with out := if (close r).out = .thrown then .thrown else if (close r).out = .terminated then .terminated else .normal }

/-- The repetitions of a body. -/
def repeated (r : Res) : Nat → Res
  | 0 => ⟨[], .normal, []⟩
  | n + 1 =>
    let c := close r
    if c.out = .normal ∨ c.out = .continued then
      let rest := repeated r n
      ⟨c.trace ++ rest.trace, rest.out, []⟩
    else if c.out = .broke then ⟨c.trace, .normal, []⟩
    else ⟨c.trace, c.out, []⟩

/-- `deferred_tag{} + [&] body` (defer.hh 38-46): the function object is kept, nothing is called; the result is constructed in place. -/
def mkDeferred (id : Nat) (body : Res) : Obj := { id := id, trace := (finish body).trace, out := (finish body).out }

/-- Execution of a statement; the argument are the objects that are already in the scope. -/
def exec : Stmt → List Obj → Res
  | .act e, _ => ⟨[.act e], .normal, []⟩
  | .seq a b, os =>
    let ra := exec a os
    if ra.out = .normal then
      let rb := exec b (ra.objs ++ os)
      ⟨ra.trace ++ rb.trace, rb.out, rb.objs ++ ra.objs⟩
    else ra
  | .scope s, _ => close (exec s [])
  | .call s, _ => finish (exec s [])
  | .loop n s, _ => repeated (exec s []) n
  | .tryCatch s h, _ =>
    let r := close (exec s [])
    if r.out = .thrown then
      let rh := close (exec h [])
      ⟨r.trace ++ rh.trace, rh.out, []⟩
    else r
  | .brk, _ => ⟨[], .broke, []⟩
  | .cont, _ => ⟨[], .continued, []⟩
  | .ret, _ => ⟨[], .returned, []⟩
  | .throw, _ => ⟨[], .thrown, []⟩
  | .defer id body, _ => ⟨[.reg id], .normal, [mkDeferred id (exec body [])]⟩
  | .hold pre id body, _ =>
    let r := finish (exec pre [])
    if r.out = .normal then ⟨r.trace ++ [.reg id], .normal, [mkDeferred id (exec body [])]⟩ else r
  | .discard pre id body, _ =>
    let r := finish (exec pre [])
    if r.out = .normal then
      let c := close ⟨[.reg id], .normal, [mkDeferred id (exec body [])]⟩
      ⟨r.trace ++ c.trace, c.out, []⟩
    else r
  | .copy, os =>
    match os with
    | [] => ⟨[], .normal, []⟩
    | o :: _ => ⟨[], .normal, [o]⟩

end Verif.Defer
