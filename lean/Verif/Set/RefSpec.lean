import Verif.Set.Spec

/-! Specification of references to elements of a set: what a call may do to them. -/
namespace Verif.Set

open Verif.Map (HashEq)

variable {T : Type _}

/-- The call takes the element `x` out of the set, or replaces the set as a whole. -/
def Op.ends (H : HashEq T) (x : T) : Op T → Prop
  | .remove v => H.eq x v = true
  | .clear => True
  | .copySelf => True
  | _ => False

/-- The call asks for a number of buckets. -/
def Op.asks : Op T → Prop
  | .reserve _ => True
  | _ => False

/-- The call is made on a set with fewer than `n` elements, if it adds one; and if it adds a range, there are no more than `n` afterwards even if all
elements of the range are new. `s` is the content of the set before the call. -/
def Op.fits (n : Nat) (s : List T) : Op T → Prop
  | .add _ => s.length < n
  | .addAll vs => s.length + vs.length ≤ n
  | _ => True

/-- All calls of a history fit. -/
def Fits (H : HashEq T) (n : Nat) : List T → List (Op T) → Prop
  | _, [] => True
  | s, op :: ops => op.fits n s ∧ Fits H n (specStep H s op).1 ops

end Verif.Set
