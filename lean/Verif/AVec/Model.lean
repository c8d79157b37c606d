import Verif.Vector.Model

/-!
Model of `cc::alloc_vector` (/repo/src/clean-core/alloc_vector.hh): `vector_base` (modelled in `Vector.Model`) with a pointer to the
`cc::allocator` its memory comes from (detail/vector_base.hh:27-39).

Every allocator has its own heap (`Mem.Model`); number 0 is `cc::system_allocator`. Allocators are assumed to keep the promises of
`cc::allocator` for every size (fresh memory, `free` accepts `nullptr`, `realloc` behaves like `std::realloc`); the allocators of the
library are modelled in `Alloc`, `LPool`, `APool` and `Tlsf`. A null allocator pointer is `none`.
`uninitialized` (33-40) is left out, as its elements have no value.
-/
namespace Verif.AVec
open Verif.Mem Verif.Vector

variable {α : Type}

/-- `cc::system_allocator`. -/
def system : Nat := 0

/-- The members of `alloc_vector`: the allocator and those of `vector_base` (vector_base.hh:37, 488-490). -/
structure AV where
  al : Nat
  v : Vec
deriving DecidableEq, Repr

/-- Default constructed, also moved from (alloc_vector.hh:15, 79-82). -/
def AV.empty : AV := { al := system, v := Vec.empty }

/-- The heaps of all allocators and the vector variables of a program. -/
structure World (α : Type) where
  heaps : Nat → Heap α
  vecs : Nat → AV

/-- Nothing allocated, all vectors default constructed. -/
def World.init : World α := { heaps := fun _ => Heap.init, vecs := fun _ => AV.empty }

/-- Change the heap of allocator `a`. -/
def World.setHeap (w : World α) (a : Nat) (h : Heap α) : World α :=
  { w with heaps := fun x => if x = a then h else w.heaps x }

/-- Store a vector variable. -/
def World.setVec (w : World α) (i : Nat) (x : AV) : World α :=
  { w with vecs := fun j => if j = i then x else w.vecs j }

/-- The part of the program that lives in the heap of allocator `a`. -/
def World.sub (w : World α) (a : Nat) : Vector.World α :=
  { heap := w.heaps a, vecs := fun i => if (w.vecs i).al = a then (w.vecs i).v else Vec.empty }

/-- The calls of `vector_base` that concern one vector and values from outside. -/
inductive Call (α : Type) where
  | pushBack (a : α)
  | pushRange (contiguous sized : Bool) (l : List α)
  | insertRange (idx : Nat) (l : List α)
  | popBack
  | getAndPopBack
  | reserve (n : Nat)
  | resize (n : Nat)
  | resizeWith (n : Nat) (a : α)
  | clear
  | shrinkToFit
  | removeAll (pred : α → Bool)
  | removeFirst (pred : α → Bool)
  | removeFirstUnordered (pred : α → Bool)
  | removeValue (a : α)
  | removeRange (idx cnt : Nat)
  | removeAt (idx : Nat)
  | removeAtUnordered (idx : Nat)
  | get (k : Nat)
  | set (k : Nat) (a : α)
  | front
  | back
  | size
  | contains (a : α)

/-- The call on vector `i`. -/
def Call.on (i : Nat) : Call α → Vector.Op α
  | .pushBack a => .pushBack i (.val a)
  | .pushRange c s l => .pushRange i c s l
  | .insertRange idx l => .insertRange i idx l
  | .popBack => .popBack i
  | .getAndPopBack => .getAndPopBack i
  | .reserve n => .reserve i n
  | .resize n => .resize i n
  | .resizeWith n a => .resizeWith i n a
  | .clear => .clear i
  | .shrinkToFit => .shrinkToFit i
  | .removeAll p => .removeAll i p
  | .removeFirst p => .removeFirst i p
  | .removeFirstUnordered p => .removeFirstUnordered i p
  | .removeValue a => .removeValue i a
  | .removeRange idx cnt => .removeRange i idx cnt
  | .removeAt idx => .removeAt i idx
  | .removeAtUnordered idx => .removeAtUnordered i idx
  | .get k => .get i k
  | .set k a => .set i k a
  | .front => .front i
  | .back => .back i
  | .size => .size i
  | .contains a => .contains i a

/-- Arguments of the constructors with an allocator. -/
inductive Ctor (α : Type) where
  /-- only the allocator -/
  | dflt
  | sized (n : Nat)
  | filled (n : Nat) (a : α)
  /-- pointer and length, span or initializer_list -/
  | range (l : List α)
  /-- any other range -/
  | each (l : List α)
  /-- the elements of another vector, as a span -/
  | copyOf (j : Nat)

/-- The calls a program can make. -/
inductive Op (α : Type) where
  | call (i : Nat) (c : Call α)
  | pushElem (i j k : Nat)
  | eq (i j : Nat)
  | allocator (i : Nat)
  | moveAssign (i j : Nat)
  | moveCtor (i j : Nat)
  | assignNew (i : Nat) (a : Option Nat) (c : Ctor α)
  | resetReserve (i : Nat) (a : Option Nat) (n : Nat)

/-- A call of `vector_base` on vector `i` runs on the heap of its allocator (`_alloc`, `_realloc` and `_free` of
vector_base.hh:30-36) and leaves the other vectors alone. -/
def onHeap (T : Ty α) (w : World α) (i : Nat) (op : Vector.Op α) : R (World α × Obs α) := do
  let a := (w.vecs i).al
  let (s, o) ← Vector.step T (w.sub a) op
  .ok ((w.setHeap a s.heap).setVec i { al := a, v := s.vecs i }, o)

/-- `vecs[i].push_back(vecs[j][k])` (vector_base.hh:112-156). In a vector with another allocator the element is not affected by what
`push_back` does before it copies the element. -/
def pushElem (T : Ty α) (w : World α) (i j k : Nat) : R (World α × Obs α) :=
  if (w.vecs j).al = (w.vecs i).al then onHeap T w i (.pushBack i (.elem j k))
  else do
    let a ← at_ (w.heaps (w.vecs j).al) (w.vecs j).v k
    onHeap T w i (.pushBack i (.val a))

/-- The loop of `operator==` (vector_base.hh:437-445) with elements of two heaps. -/
def eqLoop (T : Ty α) (h h' : Heap α) (p q : Ptr) (i : Nat) : Nat → R Bool
  | 0 => .ok true
  | k + 1 => do
    let x ← read h p i
    let y ← read h' q i
    if !T.eqv x y then .ok false else eqLoop T h h' p q (i + 1) k

/-- `operator==` (vector_base.hh:437-445, 457). -/
def eq (T : Ty α) (w : World α) (i j : Nat) : R Bool :=
  let x := w.vecs i
  let y := w.vecs j
  if x.v.size ≠ y.v.size then .ok false
  else eqLoop T (w.heaps x.al) (w.heaps y.al) x.v.data y.v.data 0 x.v.size

/-- Destructor (alloc_vector.hh:67-72); the variable itself is dead afterwards. -/
def dtor (T : Ty α) (w : World α) (x : AV) : R (World α) := do
  let h ← Vector.dtor T (w.heaps x.al) x.v
  .ok (w.setHeap x.al h)

/-- Move assignment (alloc_vector.hh:84-97); `i = j` is self-assignment. -/
def moveAssign (T : Ty α) (w : World α) (i j : Nat) : R (World α) := do
  let w ← dtor T w (w.vecs i)
  let w := w.setVec i (w.vecs j)
  .ok (w.setVec j AV.empty)

/-- `alloc_vector tmp(cc::move(vecs[j])); vecs[i] = cc::move(tmp);` with the move constructor (alloc_vector.hh:74-83); the
temporary is destroyed at the end. -/
def moveCtor (T : Ty α) (w : World α) (i j : Nat) : R (World α) := do
  let t := w.vecs j
  let w := w.setVec j AV.empty
  let w ← dtor T w (w.vecs i)
  let w := w.setVec i t
  dtor T w AV.empty

/-- Read the elements of a vector, as `container_copy_construct_range` does with a source in another heap
(container_impl_util.hh:31-46). -/
def readAll (h : Heap α) (p : Ptr) (i : Nat) : Nat → R (List α)
  | 0 => .ok []
  | k + 1 => do
    let x ← read h p i
    let xs ← readAll h p (i + 1) k
    .ok (x :: xs)

/-- The constructors (alloc_vector.hh:17-65), with a valid allocator `a`. -/
def construct (T : Ty α) (w : World α) (a : Nat) : Ctor α → R (Heap α × Vec)
  | .dflt => .ok (w.heaps a, Vec.empty)
  | .sized n => mkSized T (w.heaps a) n
  | .filled n x => mkFilled T (w.heaps a) n x
  | .range l => mkRange T (w.heaps a) (.ext l) l.length
  | .each l => pushEach T (w.heaps a) Vec.empty l
  | .copyOf j =>
    let y := w.vecs j
    if y.al = a then mkCopy T (w.heaps a) y.v
    else do
      let l ← readAll (w.heaps y.al) y.v.data 0 y.v.size
      mkRange T (w.heaps a) (.ext l) y.v.size

/-- `vecs[i] = alloc_vector(..., a)`: construct a temporary (the contract that the allocator is not null, 17), move assign it, destroy
the temporary. -/
def assignNew (T : Ty α) (w : World α) (i : Nat) (a : Option Nat) (c : Ctor α) : R (World α) :=
  match a with
  | none => .error .assert
  | some a => do
    let (h, t) ← construct T w a c
    let w := w.setHeap a h
    let w ← dtor T w (w.vecs i)
    let w := w.setVec i { al := a, v := t }
    dtor T w AV.empty

/-- The first part of `reset_reserve` (alloc_vector.hh:106-113). -/
def destroyContents (T : Ty α) (w : World α) (i : Nat) : R (World α) :=
  let x := w.vecs i
  if x.v.data ≠ none then do
    let w ← dtor T w x
    .ok (w.setVec i { x with v := Vec.empty })
  else .ok w

/-- `reset_reserve` (alloc_vector.hh:103-120). -/
def resetReserve (T : Ty α) (w : World α) (i : Nat) (a : Option Nat) (n : Nat) : R (World α) := do
  let w ← destroyContents T w i
  match a with
  | none => .error .assert
  | some a =>
    let (h, v) ← reserve T (w.heaps a) (w.vecs i).v n
    .ok ((w.setHeap a h).setVec i { al := a, v := v })

/-- Run one call. -/
def step (T : Ty α) (w : World α) : Op α → R (World α × Obs α)
  | .call i c => onHeap T w i (c.on i)
  | .pushElem i j k => pushElem T w i j k
  | .eq i j => do
    let b ← eq T w i j
    .ok (w, .bool b)
  | .allocator i => .ok (w, .nat (w.vecs i).al)
  | .moveAssign i j => do
    let w ← moveAssign T w i j
    .ok (w, .none)
  | .moveCtor i j => do
    let w ← moveCtor T w i j
    .ok (w, .none)
  | .assignNew i a c => do
    let w ← assignNew T w i a c
    .ok (w, .none)
  | .resetReserve i a n => do
    let w ← resetReserve T w i a n
    .ok (w, .none)

/-- Run a history. -/
def run (T : Ty α) (w : World α) : List (Op α) → R (World α × List (Obs α))
  | [] => .ok (w, [])
  | op :: ops => do
    let (w, o) ← step T w op
    let (w, os) ← run T w ops
    .ok (w, o :: os)

/-- The end of the program: destroy vectors `n-1`, ..., `0`. -/
def destroyUpto (T : Ty α) (w : World α) : Nat → R (World α)
  | 0 => .ok w
  | n + 1 => do
    let w ← dtor T w (w.vecs n)
    destroyUpto T (w.setVec n AV.empty) n

end Verif.AVec
