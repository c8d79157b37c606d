import Verif.Common

/-!
Model of `cc::flat_vector_of_vector<T, IndexT>` (/repo/src/clean-core/experimental/flat_vector_of_vector.hh).

The two `cc::vector` members are lists (Verif/Vector shows that `cc::vector` behaves like one). `w` is the number of bits of the
unsigned index type `IndexT` (64 for the default `size_t`).
-/
namespace Verif.Flat

variable {α : Type}

/-- The members (flat_vector_of_vector.hh:101-102). -/
structure Flat (α : Type) where
  elements : List α
  start : List Nat
deriving DecidableEq, Repr

/-- Default constructed. -/
def Flat.empty : Flat α := { elements := [], start := [] }

/-- `size` (flat_vector_of_vector.hh:25). -/
def size (f : Flat α) : Nat := f.start.length

/-- `empty` (flat_vector_of_vector.hh:26). -/
def isEmpty (f : Flat α) : Bool := f.start.isEmpty

/-- The span from `_elements.data() + b` to `_elements.data() + e`; a span that leaves the element array is undefined. -/
def range (f : Flat α) (b e : Nat) : R (List α) :=
  if b ≤ e ∧ e ≤ f.elements.length then .ok ((f.elements.drop b).take (e - b)) else .error .ub

/-- `operator[]` (flat_vector_of_vector.hh:34-47). -/
def get (f : Flat α) (i : Nat) : R (List α) :=
  if h : i < f.start.length then
    if h' : i + 1 < f.start.length then range f f.start[i] f.start[i + 1] else range f f.start[i] f.elements.length
  else .error .assert

/-- `start_new_range` (flat_vector_of_vector.hh:51): the element count is converted to `IndexT`. -/
def startNewRange (w : Nat) (f : Flat α) : Flat α := { f with start := f.start ++ [f.elements.length % 2 ^ w] }

/-- `emplace_back_element` / `push_back_element` (flat_vector_of_vector.hh:54-67). -/
def pushElement (f : Flat α) (a : α) : R (Flat α) := do
  ccAssert (!f.start.isEmpty)
  .ok { f with elements := f.elements ++ [a] }

/-- `push_back_elements` (flat_vector_of_vector.hh:71-76). -/
def pushElements (f : Flat α) (as : List α) : R (Flat α) := do
  ccAssert (!f.start.isEmpty)
  .ok { f with elements := f.elements ++ as }

/-- `clear` (flat_vector_of_vector.hh:78-82). -/
def clear (_ : Flat α) : Flat α := Flat.empty

/-- What the iterator yields (flat_vector_of_vector.hh:107-134): `*it` for each position of `_curr_idx`. -/
def iterFrom (f : Flat α) : List Nat → R (List (List α))
  | [] => .ok []
  | [b] => do
    let x ← range f b f.elements.length
    .ok [x]
  | b :: e :: rest => do
    let x ← range f b e
    let xs ← iterFrom f (e :: rest)
    .ok (x :: xs)

/-- `begin()` .. `end()` (flat_vector_of_vector.hh:88-98). -/
def iter (f : Flat α) : R (List (List α)) := iterFrom f f.start

/-- The calls of a program. -/
inductive Op (α : Type) where
  | startNewRange
  | pushElement (a : α)
  | pushElements (as : List α)
  | clear
  | get (i : Nat)
  | iterate
  | elements
  | size
  | empty

/-- What a call returns. -/
inductive Obs (α : Type) where
  | none
  | list (l : List α)
  | lists (l : List (List α))
  | nat (n : Nat)
  | bool (b : Bool)
deriving DecidableEq, Repr

/-- Run one call. -/
def step (w : Nat) (f : Flat α) : Op α → R (Flat α × Obs α)
  | .startNewRange => .ok (startNewRange w f, .none)
  | .pushElement a => do
    let f ← pushElement f a
    .ok (f, .none)
  | .pushElements as => do
    let f ← pushElements f as
    .ok (f, .none)
  | .clear => .ok (clear f, .none)
  | .get i => do
    let l ← get f i
    .ok (f, .list l)
  | .iterate => do
    let l ← iter f
    .ok (f, .lists l)
  | .elements => .ok (f, .list f.elements)
  | .size => .ok (f, .nat (size f))
  | .empty => .ok (f, .bool (isEmpty f))

/-- Run a history. -/
def run (w : Nat) (f : Flat α) : List (Op α) → R (Flat α × List (Obs α))
  | [] => .ok (f, [])
  | op :: ops => do
    let (f, o) ← step w f op
    let (f, os) ← run w f ops
    .ok (f, o :: os)

end Verif.Flat
