import Verif.CBox.Model

/-! Specification of `cc::capped_box`: a box holds one object of a type derived from the base, or has been moved from. -/
namespace Verif.CBox.Spec

variable {α : Type}

/-- No box, a moved-from box, or a box with an object. -/
abbrev State (α : Type) := Nat → Option (Option (Ty × α))

def upd (s : State α) (i : Nat) (x : Option (Option (Ty × α))) : State α := fun j => if j = i then x else s j

/-- One call; `none` if the program is wrong: constructors need an unused variable, the other calls a box, access an object of the right type.
Moving from a moved-from box is allowed and gives a moved-from box. -/
def step (s : State α) : Op α → Option (State α × Option (Ty × α))
  | .ctorFrom i t a => if s i = none then some (upd s i (some (some (t, a))), none) else none
  | .ctorMove i j =>
    match s i, s j with
    | none, some x => some (upd (upd s j (some none)) i (some x), none)
    | _, _ => none
  | .assignFrom i t a => (s i).map fun _ => (upd s i (some (some (t, a))), none)
  | .assignMove i j =>
    match s i, s j with
    | some _, some x => some (if i = j then upd s i (some none) else upd (upd s j (some none)) i (some x), none)
    | _, _ => none
  | .emplace i t a => (s i).map fun _ => (upd s i (some (some (t, a))), none)
  | .emplaceOwn i t =>
    match s i with
    | some (some (u, _)) => if u = t then some (s, none) else none
    | _ => none
  | .deref i =>
    match s i with
    | some (some x) => some (s, some x)
    | _ => none
  | .destroy i => (s i).map fun _ => (upd s i none, none)

/-- A history. -/
def run (s : State α) : List (Op α) → Option (State α × List (Option (Ty × α)))
  | [] => some (s, [])
  | op :: ops => do
    let (s, o) ← step s op
    let (s, os) ← run s ops
    some (s, o :: os)

/-- The cases left out: a box is not moved into itself, nothing is moved from a moved-from box if the base type has a destructor, `emplace` does not get
the object in the box. -/
def Covered (B : Base) (s : State α) : Op α → Prop
  | .ctorMove _ j => B.dtor = false ∨ s j ≠ some none
  | .assignMove i j => i ≠ j ∧ (B.dtor = false ∨ s j ≠ some none)
  | .emplaceOwn _ _ => False
  | _ => True

/-- All calls of a history are covered. -/
def AllCovered (B : Base) (s : State α) : List (Op α) → Prop
  | [] => True
  | op :: ops => Covered B s op ∧ ∀ s' o, step s op = some (s', o) → AllCovered B s' ops

/-- Move construction. -/
def isCtorMove : Op α → Bool
  | .ctorMove _ _ => true
  | _ => false

end Verif.CBox.Spec
