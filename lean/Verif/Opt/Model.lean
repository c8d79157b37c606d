import Verif.Mem.Model

/-!
Model of `cc::optional<T>` (/repo/src/clean-core/optional.hh): storage for one object and the flag `_has_value`. The storage follows the
rules of object lifetimes strictly (constructing over a living object, destroying or reading a dead one are undefined), as for a type
with a non-trivial destructor.
-/
namespace Verif.Opt

open Mem

variable {α : Type}

/-- `_data` and `_has_value` (optional.hh:270-271). -/
structure Opt (α : Type) where
  slot : Slot α
  has : Bool

/-- `new (&_data.value) T(a)`. -/
def construct (s : Slot α) (a : α) : R (Slot α) := if s.alive then .error .ub else .ok (.live a)

/-- `_data.value.~T()`. -/
def destroy (s : Slot α) : R (Slot α) := if s.alive then .ok .raw else .error .ub

/-- Read `_data.value`. -/
def read : Slot α → R α
  | .live a => .ok a
  | _ => .error .ub

/-- `T(cc::move(x._data.value))`: the value and the moved-from storage. -/
def take (s : Slot α) : R (α × Slot α) := do
  let a ← read s
  .ok (a, .moved)

/-- `optional()`, `optional(nullopt)` (optional.hh:40-41). -/
def ctorEmpty : Opt α := { slot := .raw, has := false }

/-- `optional(T&&)`, `optional(T const&)` (optional.hh:43-52). -/
def ctorVal (a : α) : R (Opt α) := do
  let s ← construct .raw a
  .ok { slot := s, has := true }

/-- Copy constructor (optional.hh:80-87). -/
def ctorCopy (rhs : Opt α) : R (Opt α) :=
  if rhs.has then do
    let a ← read rhs.slot
    let s ← construct .raw a
    .ok { slot := s, has := true }
  else .ok ctorEmpty

/-- Move constructor (optional.hh:70-79): the new optional and what is left of `rhs`. -/
def ctorMove (rhs : Opt α) : R (Opt α × Opt α) :=
  if rhs.has then do
    let (a, r) ← take rhs.slot
    let s ← construct .raw a
    let r ← destroy r
    .ok ({ slot := s, has := true }, { slot := r, has := false })
  else .ok (ctorEmpty, rhs)

/-- `operator=(nullopt_t)` (optional.hh:89-97), also the first block of copy and move assignment (101-105, 119-123). -/
def reset (o : Opt α) : R (Opt α) :=
  if o.has then do
    let s ← destroy o.slot
    .ok { slot := s, has := false }
  else .ok o

/-- The second block of move assignment between different optionals (optional.hh:107-113). -/
def moveInto (o rhs : Opt α) : R (Opt α × Opt α) :=
  if rhs.has then do
    let (a, r) ← take rhs.slot
    let s ← construct o.slot a
    let r ← destroy r
    .ok ({ slot := s, has := true }, { slot := r, has := false })
  else .ok (o, rhs)

/-- The second block of copy assignment between different optionals (optional.hh:125-129). -/
def copyInto (o rhs : Opt α) : R (Opt α) :=
  if rhs.has then do
    let a ← read rhs.slot
    let s ← construct o.slot a
    .ok { slot := s, has := true }
  else .ok o

/-- Destructor (optional.hh:134-138); the number of objects that are never destroyed. -/
def dtor (o : Opt α) : R Nat :=
  if o.has then do
    let s ← destroy o.slot
    .ok (if s.alive then 1 else 0)
  else .ok (if o.slot.alive then 1 else 0)

/-- The first line of `emplace` and of `operator=(U&&)` (optional.hh:63-64, 187-188). -/
def destroyIf (o : Opt α) : R (Slot α) := if o.has then destroy o.slot else .ok o.slot

/-- An argument of `emplace`: a value from elsewhere or the optional's own value. -/
inductive Arg (α : Type) where
  | val (a : α)
  | own

/-- Read the argument when the storage is `s`. -/
def Arg.get (s : Slot α) : Arg α → R α
  | .val a => .ok a
  | .own => read s

/-- `emplace` (optional.hh:184-192) and `operator=(U&&)` for `U` other than `T` (58-68). -/
def emplace (o : Opt α) (arg : Arg α) : R (Opt α) := do
  let s ← destroyIf o
  let a ← arg.get s
  let s ← construct s a
  .ok { slot := s, has := true }

/-- `value()` (optional.hh:154-173). -/
def value (o : Opt α) : R α := do
  ccAssert o.has
  read o.slot

/-- `value_or` on an lvalue (optional.hh:175-179). -/
def valueOr (o : Opt α) (d : α) : R α := if o.has then read o.slot else .ok d

/-- `map` on an lvalue (optional.hh:214-229). -/
def map (o : Opt α) (f : α → α) : R (Opt α) :=
  if o.has then do
    let a ← read o.slot
    ctorVal (f a)
  else .ok ctorEmpty

/-- `transform` (optional.hh:257-265) with a function that replaces the value. -/
def transform (o : Opt α) (f : α → α) : R (Opt α) :=
  if o.has then do
    let a ← read o.slot
    .ok { slot := .live (f a), has := o.has }
  else .ok o

/-- `operator==(optional, optional)` (optional.hh:307-313). -/
def eq [DecidableEq α] (a b : Opt α) : R Bool :=
  if a.has && b.has then do
    let x ← value a
    let y ← value b
    .ok (decide (x = y))
  else .ok (a.has == b.has)

/-- `operator==(optional, V)` (optional.hh:296-300). -/
def eqVal [DecidableEq α] (a : Opt α) (v : α) : R Bool :=
  if a.has then do
    let x ← value a
    .ok (decide (x = v))
  else .ok false

/-- `less<optional<T>>` (optional.hh:357-371). -/
def less (lt : α → α → Bool) (a b : Opt α) : R Bool :=
  if !a.has && !b.has then .ok false
  else if !a.has then .ok true
  else if !b.has then .ok false
  else do
    let x ← value a
    let y ← value b
    .ok (lt x y)

/-! ### a program with several optionals -/

/-- The optional variables of a program and the number of objects whose destructor will never run. -/
structure World (α : Type) where
  opts : Nat → Opt α
  leaked : Nat

/-- All optionals empty. -/
def World.init : World α := { opts := fun _ => ctorEmpty, leaked := 0 }

/-- Store an optional. -/
def World.put (w : World α) (i : Nat) (o : Opt α) : World α :=
  { opts := fun j => if j = i then o else w.opts j, leaked := w.leaked }

/-- The calls. Constructing calls destroy what was in variable `i` before. -/
inductive Op (α : Type) where
  | ctorEmpty (i : Nat)
  | ctorVal (i : Nat) (a : α)
  | ctorCopy (i j : Nat)
  | ctorMove (i j : Nat)
  | assignNull (i : Nat)
  | assignCopy (i j : Nat)
  | assignMove (i j : Nat)
  /-- `o = t` with a `T`: goes through a temporary optional -/
  | assignVal (i : Nat) (arg : Arg α)
  | emplace (i : Nat) (arg : Arg α)
  | mapTo (i j : Nat) (f : α → α)
  | transform (i : Nat) (f : α → α)
  | value (i : Nat)
  | valueOr (i : Nat) (d : α)
  | hasValue (i : Nat)
  | eq (i j : Nat)
  | eqVal (i : Nat) (a : α)

/-- What a call returns. -/
inductive Obs (α : Type) where
  | none
  | elem (a : α)
  | bool (b : Bool)
deriving DecidableEq

/-- Replace variable `i` by a new optional, destroying the old one. -/
def World.replace (w : World α) (i : Nat) (o : Opt α) : R (World α × Obs α) := do
  let l ← dtor (w.opts i)
  .ok ({ (w.put i o) with leaked := w.leaked + l }, .none)

/-- Copy assignment (optional.hh:117-132): for `&rhs == this` only the first block runs. -/
def assignCopy (w : World α) (i j : Nat) : R (World α × Obs α) := do
  let o ← reset (w.opts i)
  if i ≠ j then do
    let o ← copyInto o (w.opts j)
    .ok (w.put i o, .none)
  else .ok (w.put i o, .none)

/-- Move assignment (optional.hh:98-116): for `&rhs == this` the flag read in the second block is the one the first block has cleared. -/
def assignMove (w : World α) (i j : Nat) : R (World α × Obs α) := do
  let o ← reset (w.opts i)
  if i ≠ j then do
    let (o, r) ← moveInto o (w.opts j)
    .ok ((w.put i o).put j r, .none)
  else if o.has then .error .ub
  else .ok (w.put i o, .none)

/-- `o = t`: the temporary is built from the argument, then move-assigned, then destroyed. -/
def assignVal (w : World α) (i : Nat) (arg : Arg α) : R (World α × Obs α) := do
  let a ← arg.get (w.opts i).slot
  let t ← ctorVal a
  let o ← reset (w.opts i)
  let (o, t) ← moveInto o t
  let l ← dtor t
  .ok ({ (w.put i o) with leaked := w.leaked + l }, .none)

/-- A reference to the optional's own value comes from `value()`. -/
def checkArg (o : Opt α) : Arg α → R Unit
  | .val _ => .ok ()
  | .own => ccAssert o.has

/-- Run one call. -/
def step [DecidableEq α] (w : World α) : Op α → R (World α × Obs α)
  | .ctorEmpty i => w.replace i ctorEmpty
  | .ctorVal i a => do
    let o ← ctorVal a
    w.replace i o
  | .ctorCopy i j => do
    let o ← ctorCopy (w.opts j)
    w.replace i o
  | .ctorMove i j => do
    let (o, r) ← ctorMove (w.opts j)
    (w.put j r).replace i o
  | .assignNull i => do
    let o ← reset (w.opts i)
    .ok (w.put i o, .none)
  | .assignCopy i j => assignCopy w i j
  | .assignMove i j => assignMove w i j
  | .assignVal i arg => do
    checkArg (w.opts i) arg
    assignVal w i arg
  | .emplace i arg => do
    checkArg (w.opts i) arg
    let o ← emplace (w.opts i) arg
    .ok (w.put i o, .none)
  | .mapTo i j f => do
    let o ← map (w.opts j) f
    w.replace i o
  | .transform i f => do
    let o ← transform (w.opts i) f
    .ok (w.put i o, .none)
  | .value i => do
    let a ← value (w.opts i)
    .ok (w, .elem a)
  | .valueOr i d => do
    let a ← valueOr (w.opts i) d
    .ok (w, .elem a)
  | .hasValue i => .ok (w, .bool (w.opts i).has)
  | .eq i j => do
    let b ← eq (w.opts i) (w.opts j)
    .ok (w, .bool b)
  | .eqVal i a => do
    let b ← eqVal (w.opts i) a
    .ok (w, .bool b)

/-- Run a history. -/
def run [DecidableEq α] (w : World α) : List (Op α) → R (World α × List (Obs α))
  | [] => .ok (w, [])
  | op :: ops => do
    let (w, o) ← step w op
    let (w, os) ← run w ops
    .ok (w, o :: os)

end Verif.Opt
