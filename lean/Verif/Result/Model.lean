import Verif.Mem.Model

/-!
Model of `cc::result<Value, Error>` (/repo/src/clean-core/result.hh). The storage (result.hh:108-116) holds at most one object, which is a
value or an error; treating it as one of the other type is undefined. The constructors from `Value` and `Error` take their argument by
value and move it in; the argument object, moved-from, is destroyed by the caller and left out.
-/
namespace Verif.Result
open Mem

variable {V E : Type}

/-- The members (result.hh:108-117). `objIsValue` is the type of the object in the storage, which outlives a move from it. -/
structure Res (V E : Type) where
  isValue : Bool
  slot : Slot (V ⊕ E)
  objIsValue : Bool

/-- Placement new of a value (result.hh:56, 65, 73, 86, 100). -/
def newValue (s : Slot (V ⊕ E)) (v : V) : R (Res V E) := if s.alive then .error .ub else .ok ⟨true, .live (.inl v), true⟩

/-- Placement new of an error (result.hh:51, 59, 67, 75, 88, 102). -/
def newError (s : Slot (V ⊕ E)) (e : E) : R (Res V E) := if s.alive then .error .ub else .ok ⟨false, .live (.inr e), false⟩

/-- The object seen as a value. -/
def readValue (r : Res V E) : R V :=
  match r.slot with
  | .live (.inl v) => .ok v
  | _ => .error .ub

/-- The object seen as an error. -/
def readError (r : Res V E) : R E :=
  match r.slot with
  | .live (.inr e) => .ok e
  | _ => .error .ub

/-- `impl_dtor` (result.hh:119-125): the storage afterwards. -/
def implDtor (r : Res V E) : R (Slot (V ⊕ E)) :=
  if r.slot.alive = true ∧ r.objIsValue = r.isValue then .ok .raw else .error .ub

/-- Construct into the storage `s` a copy of what `rhs` holds (result.hh:61-68, 84-88; moves 69-76, 98-102 read in the same way). -/
def copyInto (s : Slot (V ⊕ E)) (rhs : Res V E) : R (Res V E) :=
  if rhs.isValue then do
    let v ← readValue rhs
    newValue s v
  else do
    let e ← readError rhs
    newError s e

/-- What is left of a moved-from result. -/
def movedFrom (r : Res V E) : Res V E := { r with slot := .moved }

/-- `value()` (result.hh:26-35). -/
def value (r : Res V E) : R V := do
  ccAssert r.isValue
  readValue r

/-- `error()` (result.hh:38-47). -/
def error (r : Res V E) : R E := do
  ccAssert (!r.isValue)
  readError r

/-- `value_or` (result.hh:36). -/
def valueOr (r : Res V E) (d : V) : R V := if r.isValue then readValue r else .ok d

/-- `is_value(v)` (result.hh:23). -/
def isValueEq [DecidableEq V] (r : Res V E) (x : V) : R Bool :=
  if r.isValue then do
    let v ← readValue r
    .ok (decide (v = x))
  else .ok false

/-- `is_error(e)` (result.hh:24). -/
def isErrorEq [DecidableEq E] (r : Res V E) (x : E) : R Bool :=
  if !r.isValue then do
    let e ← readError r
    .ok (decide (e = x))
  else .ok false

/-- `r.value() = v`: the object may be moved-from. -/
def setValue (r : Res V E) (v : V) : R (Res V E) := do
  ccAssert r.isValue
  if r.slot.alive = true ∧ r.objIsValue = true then .ok { r with slot := .live (.inl v) } else .error .ub

/-- `r.error() = e`. -/
def setError (r : Res V E) (e : E) : R (Res V E) := do
  ccAssert (!r.isValue)
  if r.slot.alive = true ∧ r.objIsValue = false then .ok { r with slot := .live (.inr e) } else .error .ub

/-! ### a program with several results -/

/-- The variables, and the number of objects whose storage ended without their destructor. -/
structure World (V E : Type) where
  vars : Nat → Res V E
  leaked : Nat

/-- All variables default constructed (result.hh:51). -/
def World.init (e0 : E) : R (World V E) := do
  let r ← newError .raw e0
  .ok { vars := fun _ => r, leaked := 0 }

/-- Store a result. -/
def World.put (w : World V E) (i : Nat) (r : Res V E) : World V E := { w with vars := fun j => if j = i then r else w.vars j }

/-- The calls. Constructing calls first end the life of the result that was in the variable. -/
inductive Op (V E : Type) where
  | ctorDefault (i : Nat)
  | ctorValue (i : Nat) (v : V)
  | ctorError (i : Nat) (e : E)
  | ctorCopy (i j : Nat)
  | ctorMove (i j : Nat)
  /-- `r = v`, by way of a temporary -/
  | assignValue (i : Nat) (v : V)
  /-- `r = e`, by way of a temporary -/
  | assignError (i : Nat) (e : E)
  | assignCopy (i j : Nat)
  | assignMove (i j : Nat)
  | isValue (i : Nat)
  | isError (i : Nat)
  | isValueEq (i : Nat) (v : V)
  | isErrorEq (i : Nat) (e : E)
  | value (i : Nat)
  | error (i : Nat)
  | valueOr (i : Nat) (v : V)
  | setValue (i : Nat) (v : V)
  | setError (i : Nat) (e : E)

/-- What a call returns. -/
inductive Obs (V E : Type) where
  | none
  | bool (b : Bool)
  | value (v : V)
  | error (e : E)
deriving DecidableEq

/-- The destructor (result.hh:52); an object that is still there afterwards is lost. -/
def dtor (r : Res V E) : R Nat := do
  let s ← implDtor r
  .ok (if s.alive then 1 else 0)

/-- Replace variable `i` by a new result, destroying the old one. -/
def World.replace (w : World V E) (i : Nat) (r : Res V E) : R (World V E × Obs V E) := do
  let n ← dtor (w.vars i)
  .ok ({ w.put i r with leaked := w.leaked + n }, .none)

/-- Move assignment from a result other than itself (result.hh:93-105): both results afterwards. -/
def moveAssign (r rhs : Res V E) : R (Res V E × Res V E) := do
  let s ← implDtor r
  let r ← copyInto s rhs
  .ok (r, movedFrom rhs)

/-- `r = cc::move(r)` (result.hh:93-105, "no self-check required"): the object is destroyed first. -/
def selfMoveAssign (r : Res V E) : R (Res V E) := do
  let s ← implDtor r
  copyInto s { r with slot := s }

/-- Assignment through a temporary `t`, which is destroyed at the end. -/
def World.assignTemp (w : World V E) (i : Nat) (t : Res V E) : R (World V E × Obs V E) := do
  let (r, t) ← moveAssign (w.vars i) t
  let n ← dtor t
  .ok ({ w.put i r with leaked := w.leaked + n }, .none)

/-- Copy assignment (result.hh:78-92). -/
def World.assignCopy (w : World V E) (i j : Nat) : R (World V E × Obs V E) :=
  if i = j then .ok (w, .none)
  else do
    let s ← implDtor (w.vars i)
    let r ← copyInto s (w.vars j)
    .ok (w.put i r, .none)

/-- Move assignment (result.hh:93-105). -/
def World.assignMove (w : World V E) (i j : Nat) : R (World V E × Obs V E) :=
  if i = j then do
    let r ← selfMoveAssign (w.vars i)
    .ok (w.put i r, .none)
  else do
    let (r, rhs) ← moveAssign (w.vars i) (w.vars j)
    .ok ((w.put i r).put j rhs, .none)

/-- Run one call. -/
def step [DecidableEq V] [DecidableEq E] (e0 : E) (w : World V E) : Op V E → R (World V E × Obs V E)
  | .ctorDefault i => do
    let r ← newError .raw e0
    w.replace i r
  | .ctorValue i v => do
    let r ← newValue .raw v
    w.replace i r
  | .ctorError i e => do
    let r ← newError .raw e
    w.replace i r
  | .ctorCopy i j => do
    let r ← copyInto .raw (w.vars j)
    w.replace i r
  | .ctorMove i j => do
    let r ← copyInto .raw (w.vars j)
    (w.put j (movedFrom (w.vars j))).replace i r
  | .assignValue i v => do
    let t ← newValue .raw v
    w.assignTemp i t
  | .assignError i e => do
    let t ← newError .raw e
    w.assignTemp i t
  | .assignCopy i j => w.assignCopy i j
  | .assignMove i j => w.assignMove i j
  | .isValue i => .ok (w, .bool (w.vars i).isValue)
  | .isError i => .ok (w, .bool (!(w.vars i).isValue))
  | .isValueEq i v => do
    let b ← isValueEq (w.vars i) v
    .ok (w, .bool b)
  | .isErrorEq i e => do
    let b ← isErrorEq (w.vars i) e
    .ok (w, .bool b)
  | .value i => do
    let v ← value (w.vars i)
    .ok (w, .value v)
  | .error i => do
    let e ← error (w.vars i)
    .ok (w, .error e)
  | .valueOr i v => do
    let v ← valueOr (w.vars i) v
    .ok (w, .value v)
  | .setValue i v => do
    let r ← setValue (w.vars i) v
    .ok (w.put i r, .none)
  | .setError i e => do
    let r ← setError (w.vars i) e
    .ok (w.put i r, .none)

/-- Run a history. -/
def run [DecidableEq V] [DecidableEq E] (e0 : E) (w : World V E) : List (Op V E) → R (World V E × List (Obs V E))
  | [] => .ok (w, [])
  | op :: ops => do
    let (w, o) ← step e0 w op
    let (w, os) ← run e0 w ops
    .ok (w, o :: os)

/-- Run a history from default constructed results. -/
def start [DecidableEq V] [DecidableEq E] (e0 : E) (ops : List (Op V E)) : R (World V E × List (Obs V E)) := do
  let w ← World.init e0
  run e0 w ops

end Verif.Result
