import Verif.Capped.Model

/-!
Model of `cc::array<T, N>` and `cc::array<T>` (/repo/src/clean-core/array.hh). The element loops are those of
detail/container_impl_util.hh, already modelled in `Capped.Model`. A dynamic array owns one block that has exactly `size` slots, so it is
a buffer together with `_size`; `uninitialized` (117-123) is left out, as its elements have no value.
-/
namespace Verif.Arr

open Mem
open Capped (CV fillLoop copyLoop destroyDown dtor)

variable {α : Type}

/-! ### array<T, N> -/

/-- `array<T, N>::empty` (array.hh:34). -/
def fixedEmpty (N : Nat) : Bool := decide (N > 0)

/-- `array<T, N>::size` (array.hh:36). -/
def fixedSize (N : Nat) : Nat := N

/-- `array<T, N>::operator[]` (array.hh:42-51). -/
def fixedGet (N : Nat) (values : List α) (i : Nat) : R α := do
  ccAssert (i < N)
  match values[i]? with
  | some a => .ok a
  | none => .error .ub

/-- The loop of `operator==` (array.hh:70-72, 220-222). -/
def eqLoop [DecidableEq α] (xs ys : List α) (i : Nat) : Nat → R Bool
  | 0 => .ok true
  | n + 1 =>
    match xs[i]?, ys[i]? with
    | some x, some y => if !(decide (x = y)) then .ok false else eqLoop xs ys (i + 1) n
    | _, _ => .error .ub

/-- `array<T, N>::operator==(span)` (array.hh:66-74). -/
def fixedEq [DecidableEq α] (N : Nat) (values rhs : List α) : R Bool :=
  if N ≠ rhs.length then .ok false else eqLoop values rhs 0 N

/-! ### array<T> -/

/-- A dynamic array: block and size (array.hh:250-251). -/
abbrev Arr (α : Type) := CV α

/-- Null pointer and size 0. -/
def Arr.null : Arr α := { size := 0, buf := [] }

/-- `array(size)`, `defaulted`, `filled` (array.hh:97-115, 125-132); for the first two, `a` is `T()` or the zeroed value. -/
def filled (triv : Bool) (n : Nat) (a : α) : R (Arr α × Nat) := do
  let (b, l) ← fillLoop triv (.val a) (Buf.mk n) 0 n
  .ok ({ size := n, buf := b }, l)

/-- Constructors from an initializer list or a span of other memory (array.hh:142-154). -/
def fromRange (triv : Bool) (as : List α) : R (Arr α × Nat) := do
  let (b, l) ← copyLoop triv (as.map .live) (Buf.mk as.length) 0 as.length
  .ok ({ size := as.length, buf := b }, l)

/-- Copy constructor (array.hh:156-161). -/
def copyCtor (triv : Bool) (src : Arr α) : R (Arr α × Nat) := do
  let (b, l) ← copyLoop triv src.buf (Buf.mk src.size) 0 src.size
  .ok ({ size := src.size, buf := b }, l)

/-- The `value` argument of `resize` read after `_destroy` (array.hh:134-140): an element of the array itself lies in freed memory. -/
def resizeFrom (triv : Bool) (n : Nat) : Capped.Arg α → R (Arr α × Nat)
  | .val a => filled triv n a
  | .elem _ => if n = 0 then .ok ({ size := 0, buf := [] }, 0) else .error .ub

/-- `resize` (array.hh:134-140). -/
def resize (triv : Bool) (v : Arr α) (n : Nat) (a : Capped.Arg α) : R (Arr α × Nat) := do
  let l ← dtor triv v
  let (v, l') ← resizeFrom triv n a
  .ok (v, l + l')

/-- `operator[]` (array.hh:205-214). -/
def get (v : Arr α) (i : Nat) : R α := do
  ccAssert (i < v.size)
  v.buf.read i

/-- `a[i] = x`. -/
def set (v : Arr α) (i : Nat) (x : α) : R (Arr α) := do
  ccAssert (i < v.size)
  let b ← v.buf.assign i x
  .ok { size := v.size, buf := b }

/-- `operator==` between arrays (array.hh:216-224, 236). -/
def eqDynLoop [DecidableEq α] (v w : Arr α) (i : Nat) : Nat → R Bool
  | 0 => .ok true
  | n + 1 => do
    let x ← v.buf.read i
    let y ← w.buf.read i
    if !(decide (x = y)) then .ok false else eqDynLoop v w (i + 1) n

/-- `operator==` between arrays (array.hh:216-224, 236). -/
def eq [DecidableEq α] (v w : Arr α) : R Bool := if v.size ≠ w.size then .ok false else eqDynLoop v w 0 v.size

/-- `empty` (array.hh:203). -/
def empty (v : Arr α) : Bool := v.size == 0

/-! ### a program with several arrays -/

/-- The array variables of a program (initially default constructed) and the number of objects whose destructor will never run. -/
structure World (α : Type) where
  arrs : Nat → Arr α
  leaked : Nat

/-- All arrays default constructed. -/
def World.init : World α := { arrs := fun _ => Arr.null, leaked := 0 }

/-- Store an array variable and count leaks. -/
def World.put (w : World α) (i : Nat) (v : Arr α) (leak : Nat := 0) : World α :=
  { arrs := fun j => if j = i then v else w.arrs j, leaked := w.leaked + leak }

/-- The calls a program can make. In the constructing calls the new array replaces the old one in variable `i`, which is destroyed. -/
inductive Op (α : Type) where
  | ctorFilled (i n : Nat) (a : α)
  | ctorRange (i : Nat) (as : List α)
  | ctorCopy (i j : Nat)
  | ctorMove (i j : Nat)
  | assignCopy (i j : Nat)
  | assignMove (i j : Nat)
  | resize (i n : Nat) (a : Capped.Arg α)
  | set (i k : Nat) (a : α)
  | get (i k : Nat)
  | eq (i j : Nat)
  | size (i : Nat)
  | empty (i : Nat)

/-- What a call returns. -/
inductive Obs (α : Type) where
  | none
  | elem (a : α)
  | nat (n : Nat)
  | bool (b : Bool)
deriving DecidableEq, Repr

/-- Replace variable `i` by a new array, destroying the old one. -/
def World.replace (triv : Bool) (w : World α) (i : Nat) (v : Arr α) (l : Nat) : R (World α × Obs α) := do
  let l' ← dtor triv (w.arrs i)
  .ok (w.put i v (l + l'), .none)

/-- `a[k]` as an argument is checked by the subscript operator. -/
def checkArg (v : Arr α) : Capped.Arg α → R Unit
  | .val _ => .ok ()
  | .elem k => ccAssert (k < v.size)

/-- Copy assignment (array.hh:169-179): nothing happens on self-assignment. -/
def assignCopy (triv : Bool) (w : World α) (i j : Nat) : R (World α × Obs α) :=
  if j ≠ i then do
    let l ← dtor triv (w.arrs i)
    let (v, l') ← copyCtor triv (w.arrs j)
    .ok (w.put i v (l + l'), .none)
  else .ok (w, .none)

/-- Run one call. Move construction and assignment (array.hh:162-168, 180-188) take over the block; the order of the member
assignments makes a self-move end with an empty array. -/
def step [DecidableEq α] (triv : Bool) (w : World α) : Op α → R (World α × Obs α)
  | .ctorFilled i n a => do
    let (v, l) ← filled triv n a
    w.replace triv i v l
  | .ctorRange i as => do
    let (v, l) ← fromRange triv as
    w.replace triv i v l
  | .ctorCopy i j => do
    let (v, l) ← copyCtor triv (w.arrs j)
    w.replace triv i v l
  | .ctorMove i j => (w.put j Arr.null).replace triv i (w.arrs j) 0
  | .assignCopy i j => assignCopy triv w i j
  | .assignMove i j => do
    let l ← dtor triv (w.arrs i)
    .ok ((w.put i (w.arrs j) l).put j Arr.null, .none)
  | .resize i n a => do
    checkArg (w.arrs i) a
    let (v, l) ← resize triv (w.arrs i) n a
    .ok (w.put i v l, .none)
  | .set i k a => do
    let v ← set (w.arrs i) k a
    .ok (w.put i v, .none)
  | .get i k => do
    let a ← get (w.arrs i) k
    .ok (w, .elem a)
  | .eq i j => do
    let b ← eq (w.arrs i) (w.arrs j)
    .ok (w, .bool b)
  | .size i => .ok (w, .nat (w.arrs i).size)
  | .empty i => .ok (w, .bool (empty (w.arrs i)))

/-- Run a history. -/
def run [DecidableEq α] (triv : Bool) (w : World α) : List (Op α) → R (World α × List (Obs α))
  | [] => .ok (w, [])
  | op :: ops => do
    let (w, o) ← step triv w op
    let (w, os) ← run triv w ops
    .ok (w, o :: os)

end Verif.Arr
