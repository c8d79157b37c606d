import Verif.Common

/-!
Model of the owning pointers: `cc::shared_ptr` (/repo/src/clean-core/shared_ptr.hh), and `cc::unique_ptr` (unique_ptr.hh),
`cc::poly_unique_ptr` (poly_unique_ptr.hh), `cc::box` (experimental/box.hh) and `cc::unique_function` (unique_function.hh), which handle
their pointer in the same way.

An object may itself contain owning pointers (members), so a program builds a graph of objects. A pointer lives in a variable or in
a member of an object; touching a member of a freed object is undefined. Values other than pointers are left out. Reference
counts are unbounded (the code has an `int`), addresses are never reused.
-/
namespace Verif.Own

/-- Where an owning pointer is stored: variable `i`, or member `k` of object `o`. -/
inductive Loc where
  | var (i : Nat)
  | field (o k : Nat)
deriving DecidableEq

/-- An object on the heap. `rc` is the reference count of `control_t` (shared_ptr.hh:20-33); for uniquely owned objects it is not in the
code, and here 1 means living and 0 that the destructor is running. -/
structure Block where
  rc : Int
  fields : List (Option Nat)
  freed : Bool
deriving DecidableEq

/-- Variables, objects and the destructor calls so far. -/
structure World where
  vars : List (Option Nat)
  heap : List Block
  log : List Nat
deriving DecidableEq

/-- `n` null pointers. -/
def World.init (n : Nat) : World := { vars := List.replicate n none, heap := [], log := [] }

/-- An object that may be touched. -/
def World.block (w : World) (o : Nat) : R Block :=
  match w.heap[o]? with
  | none => .error .ub
  | some b => if b.freed then .error .ub else .ok b

/-- Read a pointer. -/
def World.read (w : World) : Loc → R (Option Nat)
  | .var i =>
    match w.vars[i]? with
    | some p => .ok p
    | none => .error .ub
  | .field o k => do
    let b ← w.block o
    match b.fields[k]? with
    | some p => .ok p
    | none => .error .ub

/-- Replace an object. -/
def World.setBlock (w : World) (o : Nat) (b : Block) : World := { w with heap := w.heap.set o b }

/-- Write a pointer. -/
def World.write (w : World) (l : Loc) (p : Option Nat) : R World :=
  match l with
  | .var i => if i < w.vars.length then .ok { w with vars := w.vars.set i p } else .error .ub
  | .field o k => do
    let b ← w.block o
    if k < b.fields.length then .ok (w.setBlock o { b with fields := b.fields.set k p }) else .error .ub

/-- Destroy the members of an object, given in order of destruction. -/
def releaseAll (rel : World → Nat → R World) : World → List (Option Nat) → R World
  | w, [] => .ok w
  | w, none :: ps => releaseAll rel w ps
  | w, some p :: ps => do
    let w ← rel w p
    releaseAll rel w ps

/-- `cc::free` after the destructor of the object and its members: mark it as freed. -/
def World.free (w : World) (o : Nat) : R World := do
  let b ← w.block o
  .ok { (w.setBlock o { b with freed := true }) with log := w.log ++ [o] }

/-- `--_control->refcount == 0`, and `cc::free(_control)` if so (shared_ptr.hh:152-156). The destructors of the members do the same
(shared_ptr.hh:117-121), in reverse order. The depth bound of the recursion is never reached (`Own.release_ok`). -/
def release : Nat → World → Nat → R World
  | 0, _, _ => .error .ub
  | n + 1, w, o => do
    let b ← w.block o
    let w := w.setBlock o { b with rc := b.rc - 1 }
    if b.rc - 1 = 0 then do
      let w ← releaseAll (release n) w b.fields.reverse
      w.free o
    else .ok w

/-- More nesting than objects is impossible. -/
def World.depth (w : World) : Nat := w.heap.length + 1

/-! ### shared_ptr -/

/-- Will the next decrement reach zero? -/
def World.last (w : World) (o : Nat) : R Bool := do
  let b ← w.block o
  .ok (decide (b.rc - 1 = 0))

/-- `dec_refcount` on the pointer at `l`, which is `o` (shared_ptr.hh:150-158): at zero the member `_control` is cleared. -/
def decRefcount (w : World) (l : Loc) (o : Nat) : R World := do
  let z ← w.last o
  let w ← release w.depth w o
  if z then w.write l none else .ok w

/-- `if (_control) dec_refcount();`. -/
def decIf (w : World) (l : Loc) : R World := do
  match ← w.read l with
  | none => .ok w
  | some o => decRefcount w l o

/-- `_control->refcount++`. -/
def World.inc (w : World) (o : Nat) : R World := do
  let b ← w.block o
  .ok (w.setBlock o { b with rc := b.rc + 1 })

/-- `if (_control) _control->refcount++;`. -/
def incIf (w : World) : Option Nat → R World
  | none => .ok w
  | some o => w.inc o

/-- `reset()` and `operator=(nullptr)` (shared_ptr.hh:74-81, 126-132). -/
def sharedReset (w : World) (l : Loc) : R World := do
  match ← w.read l with
  | none => .ok w
  | some o => do
    let w ← decRefcount w l o
    w.write l none

/-- Copy assignment (shared_ptr.hh:101-116). Copy construction into a null pointer does the same (89-95). -/
def sharedCopy (w : World) (dst src : Loc) : R World :=
  if dst = src then .ok w
  else do
    let w ← decIf w dst
    let p ← w.read src
    let w ← w.write dst p
    incIf w p

/-- Move assignment (shared_ptr.hh:96-105). Move construction into a null pointer does the same (84-88). -/
def sharedMove (w : World) (dst src : Loc) : R World := do
  let w ← decIf w dst
  let p ← w.read src
  let w ← w.write dst p
  w.write src none

/-- `dst = make_shared<T>(...)` where `T` has `n` null pointers as members (shared_ptr.hh:172-178, 96-105). The temporary is null at the end. -/
def sharedMake (w : World) (dst : Loc) (n : Nat) : R World := do
  let o := w.heap.length
  let w := { w with heap := w.heap ++ [{ rc := 1, fields := List.replicate n none, freed := false }] }
  let w ← decIf w dst
  w.write dst (some o)

/-- `*p` (shared_ptr.hh:54-64): the object. -/
def deref (w : World) (l : Loc) : R Nat := do
  match ← w.read l with
  | none => .error .assert
  | some o => do
    let _ ← w.block o
    .ok o

/-- `refcount()` (shared_ptr.hh:73). -/
def refcount (w : World) (l : Loc) : R Int := do
  match ← w.read l with
  | none => .ok 0
  | some o => do
    let b ← w.block o
    .ok b.rc

/-! ### unique ownership -/

/-- `cc::free(p)` or `delete p` of a uniquely owned object with members of the same kind: destroying an object twice is undefined. -/
def destroyObj : Nat → World → Nat → R World
  | 0, _, _ => .error .ub
  | n + 1, w, o => do
    let b ← w.block o
    if b.rc = 1 then do
      let w := w.setBlock o { b with rc := 0 }
      let w ← releaseAll (destroyObj n) w b.fields.reverse
      w.free o
    else .error .ub

/-- `if (_ptr) cc::free(_ptr);` resp. `delete _ptr;`. -/
def destroyIf (w : World) (l : Loc) : R World := do
  match ← w.read l with
  | none => .ok w
  | some o => destroyObj w.depth w o

/-- Move assignment (unique_ptr.hh:42-51, poly_unique_ptr.hh:41-49 and 57-65, experimental/box.hh:34-42, unique_function.hh:63-72). Move
construction into a null pointer does the same. -/
def uniqueMove (w : World) (dst src : Loc) : R World := do
  let w ← destroyIf w dst
  let p ← w.read src
  let w ← w.write dst p
  w.write src none

/-- `dst = make_unique<T>(...)` (unique_ptr.hh:95-101; poly_unique_ptr.hh:124-130; box.hh:88-92; unique_function.hh:34-45). -/
def uniqueMake (w : World) (dst : Loc) (n : Nat) : R World := do
  let o := w.heap.length
  let w := { w with heap := w.heap ++ [{ rc := 1, fields := List.replicate n none, freed := false }] }
  let w ← destroyIf w dst
  w.write dst (some o)

/-- Destruction of a variable, `reset()` and assignment of a null pointer: `delete _ptr; _ptr = nullptr;`. -/
def uniqueReset (w : World) (l : Loc) : R World := do
  let w ← destroyIf w l
  w.write l none

/-- `dst.reset(src.release())` (poly_unique_ptr.hh:73-79, 83-88): the pointer has left `src` before `dst` is touched. -/
def uniqueResetFrom (w : World) (dst src : Loc) : R World := do
  let p ← w.read src
  let w ← w.write src none
  let q ← w.read dst
  ccAssert (p == none || p != q)
  let w ← destroyIf w dst
  w.write dst p

/-! ### programs -/

/-- The calls. -/
inductive Op where
  | make (dst : Loc) (n : Nat)
  | copy (dst src : Loc)
  | move (dst src : Loc)
  | reset (l : Loc)
  | resetFrom (dst src : Loc)
  | deref (l : Loc)

/-- One call on shared pointers; `resetFrom` does not exist there. -/
def sharedStep (w : World) : Op → R (World × Option Nat)
  | .make dst n => do
    let w ← sharedMake w dst n
    .ok (w, none)
  | .copy dst src => do
    let w ← sharedCopy w dst src
    .ok (w, none)
  | .move dst src => do
    let w ← sharedMove w dst src
    .ok (w, none)
  | .reset l => do
    let w ← sharedReset w l
    .ok (w, none)
  | .resetFrom _ _ => .error .assert
  | .deref l => do
    let o ← deref w l
    .ok (w, some o)

/-- One call on unique pointers; `copy` does not exist there. -/
def uniqueStep (w : World) : Op → R (World × Option Nat)
  | .make dst n => do
    let w ← uniqueMake w dst n
    .ok (w, none)
  | .copy _ _ => .error .assert
  | .move dst src => do
    let w ← uniqueMove w dst src
    .ok (w, none)
  | .reset l => do
    let w ← uniqueReset w l
    .ok (w, none)
  | .resetFrom dst src => do
    let w ← uniqueResetFrom w dst src
    .ok (w, none)
  | .deref l => do
    let o ← deref w l
    .ok (w, some o)

/-- A history. -/
def run (stp : World → Op → R (World × Option Nat)) (w : World) : List Op → R (World × List (Option Nat))
  | [] => .ok (w, [])
  | op :: ops => do
    let (w, o) ← stp w op
    let (w, os) ← run stp w ops
    .ok (w, o :: os)

end Verif.Own
