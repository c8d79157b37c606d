import Verif.Mem.Model

/-!
Model of the value boxes: `cc::box` (/repo/src/clean-core/experimental/box.hh), `cc::poly_box` (experimental/poly_box.hh) and `cc::fwd_box` (experimental/fwd_box.hh, also
`pimpl`, experimental/pimpl.hh).

An object on the heap has its class and a value; a value that was moved from is `none`, and reading it is undefined. `cc::alloc` and `cc::free` are `new` and `delete` here
(their pool is the subject of C38). Constructors and destructors of the objects do not touch boxes and do not throw.
-/
namespace Verif.VBox
open Mem
variable {α : Type}

/-- A class. -/
abbrev Cls := Nat

/-- What matters about the classes. -/
structure Env (α : Type) where
  /-- has a virtual destructor -/
  virt : Cls → Bool
  /-- moving is copying -/
  triv : Cls → Bool
  /-- the value of a new object of the first class that is constructed from a reference, of the second class, to an object with this class and value -/
  conv : Cls → Cls → Cls × α → α

/-- The three templates. -/
inductive Kind where
  | box
  | poly
  | fwd
deriving DecidableEq, Repr

/-- A box: its template, its class `T`, its pointer (box.hh:86, poly_box.hh:113, fwd_box.hh:80) and, for `fwd_box`, whether the deleter is set (fwd_box.hh:81). -/
structure Box where
  kind : Kind
  ty : Cls
  data : Ptr
  del : Bool
deriving DecidableEq, Repr

/-- An object with its class and value. -/
abbrev Obj (α : Type) := Cls × Option α

/-- `new U(...)`. -/
def newObj (h : Heap (Obj α)) (u : Cls) (a : α) : Ptr × Heap (Obj α) :=
  (some h.next, { (h.set h.next [.live (u, some a)]) with next := h.next + 1 })

/-- `delete p` for a pointer to class `t`, not null: the object must be of that class, or the destructor virtual. -/
def deleteObj (e : Env α) (h : Heap (Obj α)) (t : Cls) (p : Ptr) : R (Heap (Obj α)) := do
  let o ← Mem.read h p 0
  if o.1 = t ∨ e.virt t then do
    let h ← destroy h p 0
    free false h p
  else .error .ub

/-- The destructor and the first lines of move assignment: box.hh:36-37, 47-51 (with the contract of `cc::free`, allocate.hh:146); poly_box.hh:37-38, 75 (`delete` of
null does nothing); fwd_box.hh:25-26, 38-42. -/
def Box.release (e : Env α) (h : Heap (Obj α)) (b : Box) : R (Heap (Obj α)) :=
  match b.kind with
  | .box | .poly => if b.data.isSome then deleteObj e h b.ty b.data else .ok h
  | .fwd => if b.del then do
      ccAssert b.data.isSome
      deleteObj e h b.ty b.data
    else .ok h

/-- `operator->` and `operator*` (box.hh:59-78, poly_box.hh:86-105, fwd_box.hh:50-69): not null, or an assertion. -/
def Box.deref (b : Box) : R Ptr := do
  ccAssert b.data.isSome
  .ok b.data

/-- What an object is constructed from or assigned: some value, or an object through a reference of class `t`, copied or moved. -/
inductive Ref (α : Type) where
  | ext (a : α)
  | copy (t : Cls) (p : Ptr)
  | move (t : Cls) (p : Ptr)

/-- Read the value of an object. -/
def value (h : Heap (Obj α)) (p : Ptr) : R (Cls × α) := do
  match ← Mem.read h p 0 with
  | (c, some a) => .ok (c, a)
  | (_, none) => .error .ub

/-- The value that a constructor of class `u` takes from the reference; a move leaves the source without a value. -/
def Ref.take (e : Env α) (h : Heap (Obj α)) (u : Cls) : Ref α → R (α × Heap (Obj α))
  | .ext a => .ok (a, h)
  | .copy t p => do
    let o ← value h p
    .ok (e.conv u t o, h)
  | .move t p => do
    let o ← value h p
    if e.triv t then .ok (e.conv u t o, h)
    else do
      let h ← put h p 0 (.live (o.1, none))
      .ok (e.conv u t o, h)

/-- The constructors from a value and `make_box`, `make_poly_box`, `make_fwd_box` (box.hh:16-17, 84, 89-93; poly_box.hh:16-20, 111, 116-120; fwd_box.hh:75-78, 84-88): an
object of class `u` in a box for class `t`. -/
def make (e : Env α) (h : Heap (Obj α)) (k : Kind) (t u : Cls) (r : Ref α) : R (Heap (Obj α) × Box) := do
  let (a, h) ← r.take e h u
  let (p, h) := newObj h u a
  .ok (h, { kind := k, ty := t, data := p, del := decide (k = .fwd) })

/-- `poly_box::operator=(U&&)` (poly_box.hh:22-28) and `emplace` (62-70): delete first, then construct. -/
def polyAssign (e : Env α) (h : Heap (Obj α)) (b : Box) (u : Cls) (r : Ref α) : R (Heap (Obj α) × Box) := do
  let h ← (if b.data.isSome then deleteObj e h b.ty b.data else .ok h : R (Heap (Obj α)))
  let (a, h) ← r.take e h u
  let (p, h) := newObj h u a
  .ok (h, { b with data := p })

/-- `box::operator=(T&&)` (box.hh:19-27). Assigning an object to itself by move leaves it without a value, except if moving is copying. -/
def boxAssign (e : Env α) (h : Heap (Obj α)) (b : Box) (r : Ref α) : R (Heap (Obj α) × Box) :=
  if b.data.isSome then
    match r with
    | .move t p =>
      if p = b.data then do
        let o ← Mem.read h p 0
        if e.triv t then .ok (h, b) else do
          let h ← put h p 0 (.live (o.1, none))
          .ok (h, b)
      else do
        let (a, h) ← r.take e h b.ty
        let h ← assign h b.data 0 (b.ty, some a)
        .ok (h, b)
    | r => do
      let (a, h) ← r.take e h b.ty
      let h ← assign h b.data 0 (b.ty, some a)
      .ok (h, b)
  else do
    let (a, h) ← r.take e h b.ty
    let (p, h) := newObj h b.ty a
    .ok (h, { b with data := p })

/-! ### a program with several boxes -/

/-- The heap and the variables; a variable holds a box or is not alive. -/
structure World (α : Type) where
  heap : Heap (Obj α)
  vars : Nat → Option Box

/-- Nothing there. -/
def World.init : World α := { heap := .init, vars := fun _ => none }

/-- Store a box. -/
def World.put (w : World α) (h : Heap (Obj α)) (i : Nat) (s : Option Box) : World α := { heap := h, vars := fun j => if j = i then s else w.vars j }

/-- The box in variable `i`. -/
def World.get (w : World α) (i : Nat) : R Box :=
  match w.vars i with
  | some s => .ok s
  | none => .error .ub

/-- An argument in the program: some value, `*x`, or `cc::move(*x)` of a box `x`. -/
inductive Arg (α : Type) where
  | val (a : α)
  | copy (i : Nat)
  | move (i : Nat)

/-- The calls. -/
inductive Op (α : Type) where
  /-- a new box for class `t` with an object of class `u` -/
  | make (i : Nat) (k : Kind) (t u : Cls) (a : Arg α)
  /-- a new box for class `t`, move-constructed from box `j` -/
  | moveNew (i : Nat) (t : Cls) (j : Nat)
  | moveAssign (i j : Nat)
  | destroy (i : Nat)
  /-- `x = v` with a value of class `u` (`box`, `poly_box`), `x.emplace<u>(v)` (`poly_box`) -/
  | assign (i : Nat) (u : Cls) (a : Arg α)
  /-- read `*x`: class and value -/
  | deref (i : Nat)
  /-- read through `operator T&` -/
  | conv (i : Nat)
  /-- assign to `*x` -/
  | store (i : Nat) (a : α)
  /-- `x.get() == nullptr` -/
  | isNull (i : Nat)

/-- What a call returns. -/
inductive Obs (α : Type) where
  | none
  | obj (c : Cls) (a : α)
  | bool (b : Bool)
deriving DecidableEq, Repr

/-- Evaluate an argument. -/
def World.arg (w : World α) : Arg α → R (Ref α)
  | .val a => .ok (.ext a)
  | .copy i => do
    let b ← w.get i
    let p ← b.deref
    .ok (.copy b.ty p)
  | .move i => do
    let b ← w.get i
    let p ← b.deref
    .ok (.move b.ty p)

/-- Move construction (box.hh:29-33, poly_box.hh:30-34 and 45-50, fwd_box.hh:16-22) and the rest of move assignment (box.hh:38-39, poly_box.hh:39-40 and 56-57,
fwd_box.hh:27-30) from variable `j`, to a box for class `t`. -/
def moveFrom (w : World α) (h : Heap (Obj α)) (i : Nat) (t : Cls) (j : Nat) : R (World α) := do
  let r ← w.get j
  let w := w.put h i (some { r with ty := t })
  let r ← w.get j
  .ok (w.put h j (some { r with data := none, del := false }))

/-- Run one call. -/
def step (e : Env α) (w : World α) : Op α → R (World α × Obs α)
  | .make i k t u a => do
    let r ← w.arg a
    let (h, b) ← make e w.heap k t u r
    .ok (w.put h i (some b), .none)
  | .moveNew i t j => do
    let w ← moveFrom w w.heap i t j
    .ok (w, .none)
  | .moveAssign i j => do
    let b ← w.get i
    let h ← b.release e w.heap
    let w ← moveFrom w h i b.ty j
    .ok (w, .none)
  | .destroy i => do
    let b ← w.get i
    let h ← b.release e w.heap
    .ok (w.put h i none, .none)
  | .assign i u a => do
    let r ← w.arg a
    let b ← w.get i
    let (h, b) ← (match b.kind with
      | .poly => polyAssign e w.heap b u r
      | _ => boxAssign e w.heap b r : R (Heap (Obj α) × Box))
    .ok (w.put h i (some b), .none)
  | .deref i => do
    let b ← w.get i
    let p ← b.deref
    let (c, a) ← value w.heap p
    .ok (w, .obj c a)
  | .conv i => do
    let b ← w.get i
    let (c, a) ← value w.heap b.data
    .ok (w, .obj c a)
  | .store i a => do
    let b ← w.get i
    let p ← b.deref
    let o ← Mem.read w.heap p 0
    let h ← assign w.heap p 0 (o.1, some a)
    .ok (w.put h i (some b), .none)
  | .isNull i => do
    let b ← w.get i
    .ok (w, .bool b.data.isNone)

/-- Run a history. -/
def run (e : Env α) (w : World α) : List (Op α) → R (World α × List (Obs α))
  | [] => .ok (w, [])
  | op :: ops => do
    let (w, o) ← step e w op
    let (w, os) ← run e w ops
    .ok (w, o :: os)

end Verif.VBox
