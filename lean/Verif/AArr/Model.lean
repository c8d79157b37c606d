import Verif.AVec.Model

/-!
Model of `cc::alloc_array` (/repo/src/clean-core/alloc_array.hh). Heaps and allocators are those of `AVec.Model`. The members `_data`,
`_size` and `_allocator` (206-208) are those of `AVec.AV`; its field `cap`, which the class does not have, is always the size and is never
used. Destructor (91-95, 199-203), move constructor (67-75), move assignment (76-86) and comparison (170-192) do the same as those of
`alloc_vector`, so their model is shared. `uninitialized` (37-43) is left out, as its elements have no value. The product
`size * sizeof(T)` (196) is assumed not to wrap around.
-/
namespace Verif.AArr
open Verif.Mem
open Verif.Vector hiding World run step dtor moveAssign Op
open Verif.AVec (AV World dtor moveAssign moveCtor readAll)

variable {α : Type}

/-- The element type: `T` as in `Vector.Model`, and whether it is trivially constructible (so that the code leaves it uninitialised). -/
structure Elem (α : Type) extends Ty α where
  tc : Bool

/-- Allocate and fill (alloc_array.hh:47-51, 131-133, 145-147, and with `T()` 25-32, 107-113). -/
def fillNew (T : Ty α) (h : Heap α) (n : Nat) (x : α) : R (Heap α × Vec) := do
  let (d, h) := alloc h n
  let h ← fillLoop T.triv h d x 0 n
  .ok (h, { data := d, size := n, cap := n })

/-- Allocate and default construct, except that a trivially constructible type is left as it is (alloc_array.hh:25-32, 107-113). -/
def defaultNew (E : Elem α) (h : Heap α) (n : Nat) : R (Heap α × Vec) :=
  if !E.tc then fillNew E.toTy h n E.dflt
  else
    let (d, h) := alloc h n
    .ok (h, { data := d, size := n, cap := n })

/-- Allocate and copy (alloc_array.hh:55-60). -/
def copyNew (T : Ty α) (h : Heap α) (src : Src α) (n : Nat) : R (Heap α × Vec) := do
  let (d, h) := alloc h n
  let h ← copyConstructRange T.triv h src n d 0
  .ok (h, { data := d, size := n, cap := n })

/-- Arguments of the constructors with an allocator. -/
inductive Ctor (α : Type) where
  /-- only the allocator -/
  | dflt
  | sized (n : Nat)
  | filled (n : Nat) (a : α)
  /-- span or initializer_list -/
  | range (l : List α)
  /-- the elements of another array, as a span -/
  | copyOf (j : Nat)

/-- A `T const&` argument: a value outside, or an element of an array. -/
inductive Arg (α : Type) where
  | val (a : α)
  | elem (j k : Nat)

/-- The calls a program can make. -/
inductive Op (α : Type) where
  | assignNew (i : Nat) (a : Option Nat) (c : Ctor α)
  | moveAssign (i j : Nat)
  | moveCtor (i j : Nat)
  | reset (i : Nat) (a : Option Nat) (n : Nat)
  | resetWith (i : Nat) (a : Option Nat) (n : Nat) (x : Arg α)
  | resize (i n : Nat) (x : Arg α)
  | get (i k : Nat)
  | set (i k : Nat) (a : α)
  | eq (i j : Nat)
  | size (i : Nat)
  | empty (i : Nat)
  | allocator (i : Nat)

/-- The constructors (alloc_array.hh:21-65), with a valid allocator `a`. -/
def construct (E : Elem α) (w : World α) (a : Nat) : Ctor α → R (Heap α × Vec)
  | .dflt => .ok (w.heaps a, Vec.empty)
  | .sized n => defaultNew E (w.heaps a) n
  | .filled n x => fillNew E.toTy (w.heaps a) n x
  | .range l => copyNew E.toTy (w.heaps a) (.ext l) l.length
  | .copyOf j =>
    let y := w.vecs j
    if y.al = a then copyNew E.toTy (w.heaps a) (.mem y.v.data 0) y.v.size
    else do
      let l ← readAll (w.heaps y.al) y.v.data 0 y.v.size
      copyNew E.toTy (w.heaps a) (.ext l) y.v.size

/-- `arrs[i] = alloc_array(..., a)`: construct a temporary (the contract that the allocator is not null, 21), move assign it, destroy the
temporary. -/
def assignNew (E : Elem α) (w : World α) (i : Nat) (a : Option Nat) (c : Ctor α) : R (World α) :=
  match a with
  | none => .error .assert
  | some a => do
    let (h, t) ← construct E w a c
    let w := w.setHeap a h
    let w ← dtor E.toTy w (w.vecs i)
    let w := w.setVec i { al := a, v := t }
    dtor E.toTy w AV.empty

/-- Where an argument lives when the call begins: a value, or heap, block and index. -/
inductive Loc (α : Type) where
  | val (a : α)
  | mem (al : Nat) (p : Ptr) (k : Nat)

/-- Evaluate a `T const&` argument to a reference; `arrs[j][k]` has the contract of `operator[]` (alloc_array.hh:160-169). -/
def evalArg (w : World α) : Arg α → R (Loc α)
  | .val a => .ok (.val a)
  | .elem j k => do
    ccAssert (k < (w.vecs j).v.size)
    .ok (.mem (w.vecs j).al (w.vecs j).v.data k)

/-- Read through the reference. -/
def readLoc (w : World α) : Loc α → R α
  | .val a => .ok a
  | .mem al p k => read (w.heaps al) p k

/-- Allocate `n` elements and copy the argument into each of them; the argument is read only if there is an element. The reads of the
loop all see the same memory, so one read stands for all of them. -/
def fillFrom (T : Ty α) (w : World α) (a n : Nat) (x : Loc α) : R (Heap α × Vec) :=
  if n = 0 then
    let (d, h) := alloc (w.heaps a) 0
    .ok (h, { data := d, size := 0, cap := 0 })
  else do
    let v ← readLoc w x
    fillNew T (w.heaps a) n v

/-- `reset(new_allocator, new_size)` (alloc_array.hh:97-119). -/
def reset (E : Elem α) (w : World α) (i : Nat) (a : Option Nat) (n : Nat) : R (World α) := do
  let w ← dtor E.toTy w (w.vecs i)
  match a with
  | none => .error .assert
  | some a =>
    if n > 0 then do
      let (h, v) ← defaultNew E (w.heaps a) n
      .ok ((w.setHeap a h).setVec i { al := a, v := v })
    else .ok (w.setVec i { al := a, v := Vec.empty })

/-- `reset(new_allocator, new_size, new_value)` (alloc_array.hh:121-139). -/
def resetWith (T : Ty α) (w : World α) (i : Nat) (a : Option Nat) (n : Nat) (x : Arg α) : R (World α) := do
  let x ← evalArg w x
  let w ← dtor T w (w.vecs i)
  match a with
  | none => .error .assert
  | some a =>
    if n > 0 then do
      let (h, v) ← fillFrom T w a n x
      .ok ((w.setHeap a h).setVec i { al := a, v := v })
    else .ok (w.setVec i { al := a, v := Vec.empty })

/-- `resize(new_size, value)` (alloc_array.hh:141-148); the allocator stays. -/
def resize (T : Ty α) (w : World α) (i n : Nat) (x : Arg α) : R (World α) := do
  let x ← evalArg w x
  let a := (w.vecs i).al
  let w ← dtor T w (w.vecs i)
  let (h, v) ← fillFrom T w a n x
  .ok ((w.setHeap a h).setVec i { al := a, v := v })

/-- `arrs[i][k]` (alloc_array.hh:160-169). -/
def get (w : World α) (i k : Nat) : R α := do
  ccAssert (k < (w.vecs i).v.size)
  read (w.heaps (w.vecs i).al) (w.vecs i).v.data k

/-- `arrs[i][k] = x` (alloc_array.hh:160-164); an object of a trivially constructible type need not have been initialised. -/
def set (E : Elem α) (w : World α) (i k : Nat) (x : α) : R (World α) := do
  ccAssert (k < (w.vecs i).v.size)
  let a := (w.vecs i).al
  let h ← (if E.tc then put (w.heaps a) (w.vecs i).v.data k (.live x) else assign (w.heaps a) (w.vecs i).v.data k x : R (Heap α))
  .ok (w.setHeap a h)

/-- Run one call. -/
def step (E : Elem α) (w : World α) : Op α → R (World α × Obs α)
  | .assignNew i a c => do
    let w ← assignNew E w i a c
    .ok (w, .none)
  | .moveAssign i j => do
    let w ← moveAssign E.toTy w i j
    .ok (w, .none)
  | .moveCtor i j => do
    let w ← moveCtor E.toTy w i j
    .ok (w, .none)
  | .reset i a n => do
    let w ← reset E w i a n
    .ok (w, .none)
  | .resetWith i a n x => do
    let w ← resetWith E.toTy w i a n x
    .ok (w, .none)
  | .resize i n x => do
    let w ← resize E.toTy w i n x
    .ok (w, .none)
  | .get i k => do
    let a ← get w i k
    .ok (w, .elem a)
  | .set i k a => do
    let w ← set E w i k a
    .ok (w, .none)
  | .eq i j => do
    let b ← AVec.eq E.toTy w i j
    .ok (w, .bool b)
  | .size i => .ok (w, .nat (w.vecs i).v.size)
  | .empty i => .ok (w, .bool ((w.vecs i).v.size == 0))
  | .allocator i => .ok (w, .nat (w.vecs i).al)

/-- Run a history. -/
def run (E : Elem α) (w : World α) : List (Op α) → R (World α × List (Obs α))
  | [] => .ok (w, [])
  | op :: ops => do
    let (w, o) ← step E w op
    let (w, os) ← run E w ops
    .ok (w, o :: os)

end Verif.AArr
