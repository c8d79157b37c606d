import Verif.Mem.Model

/-!
Model of `cc::capped_box<T, MaxSize>` (/repo/src/clean-core/experimental/capped_box.hh). Types derived from `T` are numbers, values of all
types live in one set `α`. The storage holds at most one object, which knows its type; running the destructor or the move function of
another type on it is undefined. Constructing over a living object is allowed by C++, but its destructor never runs: such objects are
counted if `T` has a destructor.

`get()` does not compile (line 199 returns a pointer to const as a pointer to non-const) and is left out, like the conversions between boxes of
different base types (see `Verif/CConv`), and `emplace` for trivially destructible `T`, which does not compile either (173 lacks
`constexpr`). Size and alignment of the storage are not modelled.
-/
namespace Verif.CBox
open Mem

/-- A type derived from `T`. -/
abbrev Ty := Nat

/-- Properties of `T` (and so of the types derived from it, capped_box.hh:219, 224). -/
structure Base where
  /-- not trivially destructible -/
  dtor : Bool
  /-- not trivially move constructible -/
  move : Bool

variable {α : Type}

/-- The members (capped_box.hh:17-44); the functions in `_dtor` and `_move` are given by the type they belong to. `ty` is the type of the
object in the storage, which outlives a move from it. -/
structure Box (α : Type) where
  slot : Slot (Ty × α)
  ty : Ty
  dtor : Option Ty
  move : Option Ty

/-- Fresh storage. -/
def Box.raw : Box α := { slot := .raw, ty := 0, dtor := none, move := none }

/-- Placement new: the storage afterwards and the number of objects lost. -/
def construct (B : Base) (b : Box α) (t : Ty) (a : α) : Box α × Nat :=
  ({ b with slot := .live (t, a), ty := t }, if B.dtor && b.slot.alive then 1 else 0)

/-- `_init_type<U>()` (capped_box.hh:213-225). -/
def initType (B : Base) (b : Box α) (t : Ty) : Box α :=
  { b with dtor := if B.dtor then some t else b.dtor, move := if B.move then some t else b.move }

/-- `if (_dtor) _dtor(_data)` (capped_box.hh:69-71, 102-105, 173-175, 188-190). -/
def callDtor (B : Base) (b : Box α) : R (Box α) :=
  if B.dtor then
    match b.dtor with
    | none => .ok b
    | some t => if b.slot.alive = true ∧ b.ty = t then .ok { b with slot := .raw } else .error .ub
  else .ok b

/-- Take over the object of `src`: with its move function, if it has one, or by copying bytes (capped_box.hh:83-92, 109-118). Both boxes, and the
number of objects lost. -/
def takeOver (B : Base) (b src : Box α) : R (Box α × Box α × Nat) :=
  if B.move then
    match src.move with
    | none => .ok ({ b with move := none }, { src with move := none }, 0)
    | some t =>
      match src.slot with
      | .live (u, a) =>
        if u = t then
          .ok ({ (construct B b t a).1 with move := some t }, { src with slot := .moved, move := none }, (construct B b t a).2)
        else .error .ub
      | _ => .error .ub
  else .ok ({ b with slot := src.slot, ty := src.ty }, src, if B.dtor && b.slot.alive then 1 else 0)

/-- Constructor from a value (capped_box.hh:57-64). -/
def ctorFrom (B : Base) (t : Ty) (a : α) : Box α × Nat :=
  (initType B (construct B Box.raw t a).1 t, (construct B (Box.raw : Box α) t a).2)

/-- Assignment of a value (capped_box.hh:66-79) and `emplace` (167-181). -/
def assignFrom (B : Base) (b : Box α) (t : Ty) (a : α) : R (Box α × Nat) := do
  let b ← callDtor B b
  .ok (initType B (construct B b t a).1 t, (construct B b t a).2)

/-- `emplace<U>` with the object in the box as argument (capped_box.hh:167-181): the argument is read after the destructor ran. -/
def emplaceOwn (B : Base) (b : Box α) (t : Ty) : R (Box α × Nat) := do
  let b ← callDtor B b
  match b.slot with
  | .live (u, a) => if u = t then .ok (initType B { b with slot := .live (t, a) } t, 0) else .error .ub
  | _ => .error .ub

/-- Move constructor (capped_box.hh:81-99). -/
def ctorMove (B : Base) (src : Box α) : R (Box α × Box α × Nat) := do
  let (b, src, l) ← takeOver B Box.raw src
  .ok (if B.dtor then ({ b with dtor := src.dtor }, { src with dtor := none }, l) else (b, src, l))

/-- Move assignment from another box (capped_box.hh:100-121). -/
def assignMove (B : Base) (b src : Box α) : R (Box α × Box α × Nat) := do
  let b ← callDtor B b
  let b := if B.dtor then { b with dtor := src.dtor } else b
  takeOver B b src

/-- `b = cc::move(b)` (capped_box.hh:100-121). -/
def selfAssignMove (B : Base) (b : Box α) : R (Box α × Nat) := do
  let b ← callDtor B b
  if B.move then
    match b.move with
    | none => .ok (b, 0)
    | some t =>
      match b.slot with
      | .live (u, a) => if u = t then .ok ({ (construct B b t a).1 with move := none }, 0) else .error .ub
      | _ => .error .ub
  else .ok (b, 0)

/-- Destructor (capped_box.hh:186-191): the number of objects lost. -/
def dtor (B : Base) (b : Box α) : R Nat := do
  let b ← callDtor B b
  .ok (if B.dtor && b.slot.alive then 1 else 0)

/-- `*b` (capped_box.hh:202-208): the object seen through its virtual functions. -/
def deref (b : Box α) : R (Ty × α) :=
  match b.slot with
  | .live x => .ok x
  | _ => .error .ub

/-! ### a program with several boxes -/

/-- Variables (a box or none) and the number of objects whose destructor never runs. -/
structure World (α : Type) where
  vars : Nat → Option (Box α)
  lost : Nat

/-- No boxes. -/
def World.init : World α := { vars := fun _ => none, lost := 0 }

/-- Store a box. -/
def World.put (w : World α) (i : Nat) (b : Option (Box α)) (l : Nat) : World α :=
  { vars := fun j => if j = i then b else w.vars j, lost := w.lost + l }

/-- The box in variable `i`. -/
def World.get (w : World α) (i : Nat) : R (Box α) :=
  match w.vars i with
  | some b => .ok b
  | none => .error .ub

/-- The calls. -/
inductive Op (α : Type) where
  | ctorFrom (i : Nat) (t : Ty) (a : α)
  | ctorMove (i j : Nat)
  | assignFrom (i : Nat) (t : Ty) (a : α)
  | assignMove (i j : Nat)
  | emplace (i : Nat) (t : Ty) (a : α)
  | emplaceOwn (i : Nat) (t : Ty)
  | deref (i : Nat)
  | destroy (i : Nat)

/-- Run one call; constructors need an unused variable. -/
def step (B : Base) (w : World α) : Op α → R (World α × Option (Ty × α))
  | .ctorFrom i t a => .ok (w.put i (some (ctorFrom B t a).1) (ctorFrom B t a).2, none)
  | .ctorMove i j => do
    let src ← w.get j
    let (b, src, l) ← ctorMove B src
    .ok ((w.put j (some src) 0).put i (some b) l, none)
  | .assignFrom i t a => do
    let b ← w.get i
    let (b, l) ← assignFrom B b t a
    .ok (w.put i (some b) l, none)
  | .assignMove i j => do
    let b ← w.get i
    if i = j then do
      let (b, l) ← selfAssignMove B b
      .ok (w.put i (some b) l, none)
    else do
      let src ← w.get j
      let (b, src, l) ← assignMove B b src
      .ok ((w.put j (some src) 0).put i (some b) l, none)
  | .emplace i t a => do
    let b ← w.get i
    let (b, l) ← assignFrom B b t a
    .ok (w.put i (some b) l, none)
  | .emplaceOwn i t => do
    let b ← w.get i
    let (b, l) ← emplaceOwn B b t
    .ok (w.put i (some b) l, none)
  | .deref i => do
    let b ← w.get i
    let x ← deref b
    .ok (w, some x)
  | .destroy i => do
    let b ← w.get i
    let l ← dtor B b
    .ok (w.put i none l, none)

/-- Run a history. -/
def run (B : Base) (w : World α) : List (Op α) → R (World α × List (Option (Ty × α)))
  | [] => .ok (w, [])
  | op :: ops => do
    let (w, o) ← step B w op
    let (w, os) ← run B w ops
    .ok (w, o :: os)

end Verif.CBox
