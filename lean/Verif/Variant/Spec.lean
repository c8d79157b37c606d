import Verif.Variant.Model

/-! Specification of `cc::variant`: each variable holds a type and a value of it; the value is unknown after a move from the variant. -/
namespace Verif.Variant.Spec

variable {α : Type}

/-- Held type and value. -/
abbrev State (α : Type) := Nat → Ty × Option α

def upd (s : State α) (i : Nat) (v : Ty × Option α) : State α := fun j => if j = i then v else s j

/-- Reading a moved-from value is the caller's fault. -/
def known : Option α → R α
  | some a => .ok a
  | none => .error .ub

/-- One call. `get` of another type than the held one is a contract violation. -/
def step (first : Ty) (d : α) (s : State α) : Op α → R (State α × Obs α)
  | .ctorDefault i => .ok (upd s i (first, some d), .none)
  | .ctorFrom i T a => .ok (upd s i (T.decay, some a), .none)
  | .ctorCopy i j => do
    let a ← known (s j).2
    .ok (upd s i ((s j).1, some a), .none)
  | .ctorMove i j => do
    let a ← known (s j).2
    .ok (upd (upd s j ((s j).1, none)) i ((s j).1, some a), .none)
  | .assignFrom i T a => .ok (upd s i (T.decay, some a), .none)
  | .assignOwn i t => do
    ccAssert ((s i).1 == t)
    let _ ← known (s i).2
    .ok (s, .none)
  | .assignCopy i j => do
    let a ← known (s j).2
    .ok (upd s i ((s j).1, some a), .none)
  | .assignMove i j => do
    let a ← known (s j).2
    .ok (if i = j then s else upd (upd s i ((s j).1, some a)) j ((s j).1, none), .none)
  | .is i t => .ok (s, .bool ((s i).1 == t))
  | .get i t => do
    ccAssert ((s i).1 == t)
    let a ← known (s i).2
    .ok (s, .elem a)
  | .getOr i t d' =>
    if (s i).1 = t then do
      let a ← known (s i).2
      .ok (s, .elem a)
    else .ok (s, .elem d')
  | .visit i => do
    let a ← known (s i).2
    .ok (s, .alt (s i).1 a)

/-- A history. -/
def run (first : Ty) (d : α) (s : State α) : List (Op α) → R (State α × List (Obs α))
  | [] => .ok (s, [])
  | op :: ops => do
    let (s, o) ← step first d s op
    let (s, os) ← run first d s ops
    .ok (s, o :: os)

/-- The types mentioned in a call are alternatives (checked at compile time, except in `is`). -/
def Typed (types : List Ty) : Op α → Prop
  | .ctorFrom _ T _ => T.decay ∈ types
  | .assignFrom _ T _ => T.decay ∈ types
  | .assignOwn _ t => t ∈ types
  | .is _ t => t ∈ types
  | .get _ t => t ∈ types
  | .getOr _ t _ => t ∈ types
  | _ => True

/-- The calls excluded: construction from an lvalue, assignment of a variant or its value to itself. -/
def Bad : Op α → Prop
  | .ctorFrom _ (.lref _) _ => True
  | .assignOwn _ _ => True
  | .assignCopy i j => i = j
  | .assignMove i j => i = j
  | _ => False

end Verif.Variant.Spec
