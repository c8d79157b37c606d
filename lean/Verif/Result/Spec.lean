import Verif.Result.Model

/-! Specification of `cc::result`: each variable holds a value or an error; what it is remains known after a move from it, its content
does not (`none`). -/
namespace Verif.Result.Spec

variable {V E : Type}

/-- Value or error, with its content if known. -/
abbrev State (V E : Type) := Nat → Option V ⊕ Option E

def upd (s : State V E) (i : Nat) (x : Option V ⊕ Option E) : State V E := fun j => if j = i then x else s j

/-- The content is known. Reading a moved-from object is the caller's fault. -/
def known : Option V ⊕ Option E → R (Option V ⊕ Option E)
  | .inl (some v) => .ok (.inl (some v))
  | .inr (some e) => .ok (.inr (some e))
  | _ => .error .ub

/-- Same kind, content unknown. -/
def forget : Option V ⊕ Option E → Option V ⊕ Option E
  | .inl _ => .inl none
  | .inr _ => .inr none

def isValue : Option V ⊕ Option E → Bool
  | .inl _ => true
  | .inr _ => false

/-- One call. `value()` of an error and `error()` of a value are contract violations. -/
def step [DecidableEq V] [DecidableEq E] (e0 : E) (s : State V E) : Op V E → R (State V E × Obs V E)
  | .ctorDefault i => .ok (upd s i (.inr (some e0)), .none)
  | .ctorValue i v => .ok (upd s i (.inl (some v)), .none)
  | .ctorError i e => .ok (upd s i (.inr (some e)), .none)
  | .ctorCopy i j => do
    let x ← known (s j)
    .ok (upd s i x, .none)
  | .ctorMove i j => do
    let x ← known (s j)
    .ok (upd (upd s j (forget (s j))) i x, .none)
  | .assignValue i v => .ok (upd s i (.inl (some v)), .none)
  | .assignError i e => .ok (upd s i (.inr (some e)), .none)
  | .assignCopy i j =>
    if i = j then .ok (s, .none)
    else do
      let x ← known (s j)
      .ok (upd s i x, .none)
  | .assignMove i j =>
    if i = j then .ok (upd s i (forget (s i)), .none)
    else do
      let x ← known (s j)
      .ok (upd (upd s i x) j (forget (s j)), .none)
  | .isValue i => .ok (s, .bool (isValue (s i)))
  | .isError i => .ok (s, .bool (!isValue (s i)))
  | .isValueEq i v =>
    match s i with
    | .inl (some x) => .ok (s, .bool (decide (x = v)))
    | .inl none => .error .ub
    | .inr _ => .ok (s, .bool false)
  | .isErrorEq i e =>
    match s i with
    | .inr (some x) => .ok (s, .bool (decide (x = e)))
    | .inr none => .error .ub
    | .inl _ => .ok (s, .bool false)
  | .value i =>
    match s i with
    | .inl (some x) => .ok (s, .value x)
    | .inl none => .error .ub
    | .inr _ => .error .assert
  | .error i =>
    match s i with
    | .inr (some x) => .ok (s, .error x)
    | .inr none => .error .ub
    | .inl _ => .error .assert
  | .valueOr i v =>
    match s i with
    | .inl (some x) => .ok (s, .value x)
    | .inl none => .error .ub
    | .inr _ => .ok (s, .value v)
  | .setValue i v =>
    match s i with
    | .inl _ => .ok (upd s i (.inl (some v)), .none)
    | .inr _ => .error .assert
  | .setError i e =>
    match s i with
    | .inr _ => .ok (upd s i (.inr (some e)), .none)
    | .inl _ => .error .assert

/-- A history. -/
def run [DecidableEq V] [DecidableEq E] (e0 : E) (s : State V E) : List (Op V E) → R (State V E × List (Obs V E))
  | [] => .ok (s, [])
  | op :: ops => do
    let (s, o) ← step e0 s op
    let (s, os) ← run e0 s ops
    .ok (s, o :: os)

/-- `r = cc::move(r)`. -/
def selfMove : Op V E → Bool
  | .assignMove i j => decide (i = j)
  | _ => false

end Verif.Result.Spec
