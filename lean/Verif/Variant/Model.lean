import Verif.Mem.Model

/-!
Model of `cc::variant<Types...>` (/repo/src/clean-core/variant.hh). Types are numbers; the storage holds at most one object, which knows its
type. Treating an object as one of another type (destroying or reading it as such) is undefined.
Values of all types live in one set `α`.
-/
namespace Verif.Variant

open Mem

/-- A type. -/
abbrev Ty := Nat

/-- What a forwarding-reference parameter `T&&` deduces for `T`: a plain type for rvalues, an lvalue reference otherwise (references to
`const` are of the second kind too). -/
inductive Deduced where
  | plain (t : Ty)
  | lref (t : Ty)
deriving DecidableEq

/-- `std::decay_t`. -/
def Deduced.decay : Deduced → Ty
  | .plain t => t
  | .lref t => t

/-- The fold `(++i, is_same_v<T, Types>) || ...` (variant.hh:34). -/
def indexLoop (T : Deduced) (i : Int) : List Ty → Int
  | [] => i
  | t :: ts => if T = .plain t then i + 1 else indexLoop T (i + 1) ts

/-- `index_of_type` (variant.hh:30-36). -/
def indexOfType (T : Deduced) (types : List Ty) : Int :=
  let i := indexLoop T (-1) types
  if i = types.length then -1 else i

/-- The alternative `variant_impl::destroy` ends at (variant.hh:95-101); none if the index is too large. -/
def destroyAlt : List Ty → Nat → Option Ty
  | [], _ => none
  | t :: _, 0 => some t
  | _ :: ts, i + 1 => destroyAlt ts i

/-- The alternative `variant_impl::visit` ends at (variant.hh:103-121). -/
def visitAlt : List Ty → Nat → Option Ty
  | [], _ => none
  | [t], _ => some t
  | t :: _ :: _, 0 => some t
  | _ :: t :: ts, i + 1 => visitAlt (t :: ts) i

variable {α : Type}

/-- Storage and `_idx` (variant.hh:253-254). -/
structure Var (α : Type) where
  idx : Nat
  slot : Slot (Ty × α)
  /-- the type of the object, which outlives a move from it -/
  ty : Ty

/-- `_data.destroy(_idx)` (variant.hh:95-101): the storage afterwards. -/
def destroy (types : List Ty) (v : Var α) : R (Slot (Ty × α)) :=
  match destroyAlt types v.idx with
  | none => .ok v.slot
  | some t => if v.slot.alive = true ∧ v.ty = t then .ok .raw else .error .ub

/-- `_data.emplace<U>(a)` (variant.hh:57-67). -/
def implEmplace (s : Slot (Ty × α)) (t : Ty) (a : α) : R (Slot (Ty × α)) := if s.alive then .error .ub else .ok (.live (t, a))

/-- `variant()` (variant.hh:132-137). -/
def ctorDefault (types : List Ty) (d : α) : R (Var α) :=
  match types with
  | [] => .error .assert
  | t :: _ => do
    let s ← implEmplace .raw t d
    .ok { idx := 0, slot := s, ty := t }

/-- `variant(T&&)` (variant.hh:139-146). -/
def ctorFrom (types : List Ty) (T : Deduced) (a : α) : R (Var α) := do
  let i := indexOfType T types
  let s ← implEmplace .raw T.decay a
  .ok { idx := i.toNat % 256, slot := s, ty := T.decay }

/-- Read the value as type `t`. -/
def readAs (v : Var α) (t : Ty) : R α :=
  match v.slot with
  | .live (u, a) => if u = t then .ok a else .error .ub
  | _ => .error .ub

/-- `visit` with a function that looks at the value (variant.hh:205-214): the alternative and the value seen. -/
def visit (types : List Ty) (v : Var α) : R (Ty × α) :=
  match visitAlt types v.idx with
  | none => .error .ub
  | some t => do
    let a ← readAs v t
    .ok (t, a)

/-- Copy constructor (variant.hh:161-174): `T` is deduced without reference inside the visitor. -/
def ctorCopy (types : List Ty) (rhs : Var α) : R (Var α) := do
  let (t, a) ← visit types rhs
  let s ← implEmplace .raw t a
  .ok { idx := (indexOfType (.plain t) types).toNat % 256, slot := s, ty := t }

/-- Move constructor (variant.hh:147-160): the new variant and the moved-from one. -/
def ctorMove (types : List Ty) (rhs : Var α) : R (Var α × Var α) := do
  let (t, a) ← visit types rhs
  let s ← implEmplace .raw t a
  .ok ({ idx := (indexOfType (.plain t) types).toNat % 256, slot := s, ty := t }, { idx := rhs.idx, slot := .moved, ty := rhs.ty })

/-- `emplace<T>(a)` with a value from elsewhere (variant.hh:195-203). -/
def emplace (types : List Ty) (v : Var α) (t : Ty) (a : α) : R (Var α) := do
  let s ← destroy types v
  let s ← implEmplace s t a
  .ok { idx := (indexOfType (.plain t) types).toNat % 256, slot := s, ty := t }

/-- `emplace<T>` with a reference to the value the variant itself holds: it is destroyed before it is read. -/
def emplaceOwn (types : List Ty) (v : Var α) (t : Ty) : R (Var α) := do
  let s ← destroy types v
  let a ← readAs { idx := v.idx, slot := s, ty := v.ty } t
  let s ← implEmplace s t a
  .ok { idx := (indexOfType (.plain t) types).toNat % 256, slot := s, ty := t }

/-- `is<T>()` (variant.hh:225-229). -/
def is (types : List Ty) (v : Var α) (t : Ty) : Bool := decide ((v.idx : Int) = indexOfType (.plain t) types)

/-- `get<T>()` (variant.hh:231-244). -/
def get (types : List Ty) (v : Var α) (t : Ty) : R α := do
  ccAssert (is types v t)
  readAs v t

/-- `get_or<T>(d)` (variant.hh:246-250). -/
def getOr (types : List Ty) (v : Var α) (t : Ty) (d : α) : R α := if is types v t then get types v t else .ok d

/-- Destructor (variant.hh:193); the number of objects that are never destroyed. -/
def dtor (types : List Ty) (v : Var α) : R Nat := do
  let s ← destroy types v
  .ok (if s.alive then 1 else 0)

/-! ### a program with several variants -/

/-- The variant variables of a program and the number of objects whose destructor will never run. -/
structure World (α : Type) where
  vars : Nat → Var α
  leaked : Nat

/-- All variants default constructed. -/
def World.init (types : List Ty) (d : α) : R (World α) := do
  let v ← ctorDefault types d
  .ok { vars := fun _ => v, leaked := 0 }

/-- Store a variant. -/
def World.put (w : World α) (i : Nat) (v : Var α) (l : Nat := 0) : World α :=
  { vars := fun j => if j = i then v else w.vars j, leaked := w.leaked + l }

/-- The calls. Constructing calls destroy what was in variable `i` before. -/
inductive Op (α : Type) where
  | ctorDefault (i : Nat)
  | ctorFrom (i : Nat) (T : Deduced) (a : α)
  | ctorCopy (i j : Nat)
  | ctorMove (i j : Nat)
  | assignFrom (i : Nat) (T : Deduced) (a : α)
  /-- `v = v.get<T>()` -/
  | assignOwn (i : Nat) (t : Ty)
  | assignCopy (i j : Nat)
  | assignMove (i j : Nat)
  | is (i : Nat) (t : Ty)
  | get (i : Nat) (t : Ty)
  | getOr (i : Nat) (t : Ty) (d : α)
  | visit (i : Nat)

/-- What a call returns. -/
inductive Obs (α : Type) where
  | none
  | bool (b : Bool)
  | elem (a : α)
  | alt (t : Ty) (a : α)
deriving DecidableEq

/-- Replace variable `i` by a new variant, destroying the old one. -/
def World.replace (types : List Ty) (w : World α) (i : Nat) (v : Var α) : R (World α × Obs α) := do
  let l ← dtor types (w.vars i)
  .ok (w.put i v l, .none)

/-- Copy assignment (variant.hh:184-192). -/
def assignCopy (types : List Ty) (w : World α) (i j : Nat) : R (World α × Obs α) := do
  let (t, a) ← visit types (w.vars j)
  if i = j then do
    let v ← emplaceOwn types (w.vars i) t
    .ok (w.put i v, .none)
  else do
    let v ← emplace types (w.vars i) t a
    .ok (w.put i v, .none)

/-- Move assignment (variant.hh:175-183). -/
def assignMove (types : List Ty) (w : World α) (i j : Nat) : R (World α × Obs α) := do
  let (t, a) ← visit types (w.vars j)
  if i = j then do
    let v ← emplaceOwn types (w.vars i) t
    .ok (w.put i v, .none)
  else do
    let v ← emplace types (w.vars i) t a
    .ok ((w.put i v).put j { idx := (w.vars j).idx, slot := .moved, ty := (w.vars j).ty }, .none)

/-- Run one call. -/
def step (types : List Ty) (d : α) (w : World α) : Op α → R (World α × Obs α)
  | .ctorDefault i => do
    let v ← ctorDefault types d
    w.replace types i v
  | .ctorFrom i T a => do
    let v ← ctorFrom types T a
    w.replace types i v
  | .ctorCopy i j => do
    let v ← ctorCopy types (w.vars j)
    w.replace types i v
  | .ctorMove i j => do
    let (v, r) ← ctorMove types (w.vars j)
    (w.put j r).replace types i v
  | .assignFrom i T a => do
    let v ← emplace types (w.vars i) T.decay a
    .ok (w.put i v, .none)
  | .assignOwn i t => do
    let _ ← get types (w.vars i) t
    let v ← emplaceOwn types (w.vars i) t
    .ok (w.put i v, .none)
  | .assignCopy i j => assignCopy types w i j
  | .assignMove i j => assignMove types w i j
  | .is i t => .ok (w, .bool (is types (w.vars i) t))
  | .get i t => do
    let a ← get types (w.vars i) t
    .ok (w, .elem a)
  | .getOr i t d' => do
    let a ← getOr types (w.vars i) t d'
    .ok (w, .elem a)
  | .visit i => do
    let (t, a) ← visit types (w.vars i)
    .ok (w, .alt t a)

/-- Run a history. -/
def run (types : List Ty) (d : α) (w : World α) : List (Op α) → R (World α × List (Obs α))
  | [] => .ok (w, [])
  | op :: ops => do
    let (w, o) ← step types d w op
    let (w, os) ← run types d w ops
    .ok (w, o :: os)

/-- Run a history from default constructed variants. -/
def start (types : List Ty) (d : α) (ops : List (Op α)) : R (World α × List (Obs α)) := do
  let w ← World.init types d
  run types d w ops

end Verif.Variant
