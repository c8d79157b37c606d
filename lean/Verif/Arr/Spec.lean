import Verif.Arr.Model

/-! Specification of the dynamic `cc::array`: each variable holds a list. -/
namespace Verif.Arr.Spec

variable {α : Type}

/-- The list held by each variable. -/
abbrev Lists (α : Type) := Nat → List α

def init : Lists α := fun _ => []

def upd (s : Lists α) (i : Nat) (l : List α) : Lists α := fun j => if j = i then l else s j

/-- The value of an argument; `none` if the subscript is out of range. -/
def argVal (l : List α) : Capped.Arg α → Option α
  | .val a => some a
  | .elem k => l[k]?

/-- One call: the new lists and what is returned; `none` for a contract violation. `resize` throws the old contents away. A moved-from
array is empty, also after a move onto itself (in `ctorMove i i` the new array replaces its own source, so nothing is left to look at
but the new array). -/
def step [DecidableEq α] (s : Lists α) : Op α → Option (Lists α × Obs α)
  | .ctorFilled i n a => some (upd s i (List.replicate n a), .none)
  | .ctorRange i as => some (upd s i as, .none)
  | .ctorCopy i j => some (upd s i (s j), .none)
  | .ctorMove i j => some (upd (upd s j []) i (s j), .none)
  | .assignCopy i j => some (upd s i (s j), .none)
  | .assignMove i j => some (upd (upd s i (s j)) j [], .none)
  | .resize i n a =>
    match argVal (s i) a with
    | some x => some (upd s i (List.replicate n x), .none)
    | none => none
  | .set i k a => if k < (s i).length then some (upd s i ((s i).set k a), .none) else none
  | .get i k =>
    match (s i)[k]? with
    | some a => some (s, .elem a)
    | none => none
  | .eq i j => some (s, .bool (decide (s i = s j)))
  | .size i => some (s, .nat (s i).length)
  | .empty i => some (s, .bool (s i).isEmpty)

/-- A history. -/
def run [DecidableEq α] (s : Lists α) : List (Op α) → Option (Lists α × List (Obs α))
  | [] => some (s, [])
  | op :: ops =>
    match step s op with
    | none => none
    | some (s, o) =>
      match run s ops with
      | none => none
      | some (s, os) => some (s, o :: os)

end Verif.Arr.Spec
