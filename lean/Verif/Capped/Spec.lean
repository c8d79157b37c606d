import Verif.Capped.Model

/-! Specification: a capped_vector is a list of at most `N` elements. Only the call and observation types are shared. -/
namespace Verif.Capped.Spec
open Verif.Capped

variable {α : Type}

/-- The abstract state of all vectors. -/
abbrev Lists (α : Type) := Nat → List α

/-- All vectors are empty. -/
def init : Lists α := fun _ => []

/-- Replace list `i`. -/
def upd (s : Lists α) (i : Nat) (l : List α) : Lists α := fun j => if j = i then l else s j

/-- The value of an argument. -/
def argVal (l : List α) : Arg α → Option α
  | .val a => some a
  | .elem k => l[k]?

/-- The effect of a call on vectors of capacity `N`, `none` if it is out of contract. A moved-from vector is empty. -/
def step [DecidableEq α] (N : Nat) (s : Lists α) : Op α → Option (Lists α × Obs α)
  | .ctorRange i as => if as.length ≤ N then some (upd s i as, .none) else none
  | .ctorFilled i n a => if n ≤ N then some (upd s i (List.replicate n a), .none) else none
  | .ctorCopy i j => some (upd s i (s j), .none)
  | .ctorMove i j => some (upd (upd s j []) i (s j), .none)
  | .assignCopy i j => some (upd s i (s j), .none)
  | .assignMove i j => some (upd (upd s i (s j)) j [], .none)
  | .pushBack i a => (argVal (s i) a).bind fun a => if (s i).length < N then some (upd s i (s i ++ [a]), .none) else none
  | .popBack i => if s i = [] then none else some (upd s i (s i).dropLast, .none)
  | .clear i => some (upd s i [], .none)
  | .resize i n a => (argVal (s i) a).bind fun a =>
    if n ≤ N then some (upd s i ((s i).take n ++ List.replicate (n - (s i).length) a), .none) else none
  | .removeAt i k => if k < (s i).length then some (upd s i ((s i).eraseIdx k), .none) else none
  | .removeAtUnordered i k =>
    match (s i).getLast? with
    | some z => if k < (s i).length then some (upd s i (((s i).set k z).dropLast), .none) else none
    | none => none
  | .set i k a => if k < (s i).length then some (upd s i ((s i).set k a), .none) else none
  | .front i => (s i).head?.map fun a => (s, .elem a)
  | .back i => (s i).getLast?.map fun a => (s, .elem a)
  | .get i k => (s i)[k]?.map fun a => (s, .elem a)
  | .contains i a => some (s, .bool (decide (a ∈ s i)))
  | .eq i j => some (s, .bool (decide (s i = s j)))
  | .size i => some (s, .nat (s i).length)
  | .empty i => some (s, .bool (decide (s i = [])))
  | .full i => some (s, .bool (decide ((s i).length = N)))

/-- The effect of a history. -/
def run [DecidableEq α] (N : Nat) (s : Lists α) : List (Op α) → Option (Lists α × List (Obs α))
  | [] => some (s, [])
  | op :: ops => do
    let (s, o) ← step N s op
    let (s, os) ← run N s ops
    some (s, o :: os)

/-- The call moves a whole vector. -/
def isMove : Op α → Bool
  | .ctorMove _ _ => true
  | .assignMove _ _ => true
  | _ => false

end Verif.Capped.Spec
