import Verif.Defer.Model
/-!
# What deferring means

A trace is well-formed if every deferred function is called exactly once, as the last thing in the scope in which it was deferred, and those of one scope in the
reverse order.  Independent of the interpreter.
-/
namespace Verif.Defer.Spec

/-- What happens in one scope. -/
inductive Proper : List Ev → Prop
  | nil : Proper []
  | act (e : Nat) {w : List Ev} : Proper w → Proper (.act e :: w)
  /-- an inner scope -/
  | scope {v w : List Ev} : Proper v → Proper w → Proper (.enter :: (v ++ .leave :: w))
  /-- something is deferred; the rest `w` of the scope; the deferred function does `v`; the scope ends -/
  | defer (id : Nat) {w v : List Ev} : Proper w → Proper v → Proper (.reg id :: (w ++ .run id :: v))

/-- The program contains no copy of a deferred object. -/
def NoCopy : Stmt → Prop
  | .seq a b => NoCopy a ∧ NoCopy b
  | .scope s => NoCopy s
  | .call s => NoCopy s
  | .loop _ s => NoCopy s
  | .tryCatch s h => NoCopy s ∧ NoCopy h
  | .defer _ b => NoCopy b
  | .hold p _ b => NoCopy p ∧ NoCopy b
  | .discard p _ b => NoCopy p ∧ NoCopy b
  | .copy => False
  | _ => True

end Verif.Defer.Spec
