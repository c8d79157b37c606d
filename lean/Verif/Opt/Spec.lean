import Verif.Opt.Model

/-! Specification of `cc::optional`: each variable holds an `Option`. -/
namespace Verif.Opt.Spec

variable {α : Type}

def init : Nat → Option α := fun _ => none

def upd (s : Nat → Option α) (i : Nat) (v : Option α) : Nat → Option α := fun j => if j = i then v else s j

/-- The value of an argument; `none` if `value()` is called on an empty optional. -/
def argVal (v : Option α) : Arg α → Option α
  | .val a => some a
  | .own => v

/-- One call; `none` for a contract violation. A moved-from optional is empty, also after a move onto itself. -/
def step [DecidableEq α] (s : Nat → Option α) : Op α → Option ((Nat → Option α) × Obs α)
  | .ctorEmpty i => some (upd s i none, .none)
  | .ctorVal i a => some (upd s i (some a), .none)
  | .ctorCopy i j => some (upd s i (s j), .none)
  | .ctorMove i j => some (upd (upd s j none) i (s j), .none)
  | .assignNull i => some (upd s i none, .none)
  | .assignCopy i j => some (upd s i (s j), .none)
  | .assignMove i j => some (upd (upd s i (s j)) j none, .none)
  | .assignVal i arg => (argVal (s i) arg).map fun a => (upd s i (some a), .none)
  | .emplace i arg => (argVal (s i) arg).map fun a => (upd s i (some a), .none)
  | .mapTo i j f => some (upd s i ((s j).map f), .none)
  | .transform i f => some (upd s i ((s i).map f), .none)
  | .value i => (s i).map fun a => (s, .elem a)
  | .valueOr i d => some (s, .elem ((s i).getD d))
  | .hasValue i => some (s, .bool (s i).isSome)
  | .eq i j => some (s, .bool (decide (s i = s j)))
  | .eqVal i a => some (s, .bool (decide (s i = some a)))

/-- A history. -/
def run [DecidableEq α] (s : Nat → Option α) : List (Op α) → Option ((Nat → Option α) × List (Obs α))
  | [] => some (s, [])
  | op :: ops =>
    match step s op with
    | none => none
    | some (s, o) =>
      match run s ops with
      | none => none
      | some (s, os) => some (s, o :: os)

/-- The calls excluded: copying an optional onto itself, and giving `emplace` the value it is about to destroy. -/
def Bad : Op α → Prop
  | .assignCopy i j => i = j
  | .emplace _ .own => True
  | _ => False

end Verif.Opt.Spec
