import Verif.Capped.Model

/-!
Model of `cc::capped_array<T, N>` for `N > 0` (/repo/src/clean-core/capped_array.hh) and of the type of its size member
(/repo/src/clean-core/detail/compact_size_t.hh).

The inline storage is a `Mem.Buf` of `N` slots as in `Capped.Model`, whose loops are used here: they are the same loops over the same
helpers of detail/container_impl_util.hh. As there, an object that is overwritten or whose storage ends while it is alive is counted, because
its destructor never runs. `triv` says that `T` is trivially copyable and destructible. `uninitialized` (78-85) is left out: its elements
have no value. The comparison operators (165-189) are left out: they are templates over an `int M` for a parameter of type `size_t`, so
they can never be deduced and no program can call them. Elements that throw are not modelled.
-/
namespace Verif.CArr
open Verif.Mem
open Verif.Capped (CV World construct copyLoop moveLoop copyAssignLoop moveAssignLoop selfMoveLoop destroyDown destroyExtra fillLoop Arg)

variable {α : Type}

/-- Number of bits of `compact_size_t_for<N, Alignment>` (detail/compact_size_t.hh:10-24). -/
def sizeBits (N al : Nat) : Nat :=
  if N < 1 <<< 8 ∧ al ≤ 1 then 8
  else if N < 1 <<< 16 ∧ al ≤ 2 then 16
  else if N < 1 <<< 32 ∧ al ≤ 4 then 32
  else 64

/-- The template arguments: alignment of `T`, and whether it is trivial, and `N`. -/
structure Ty where
  al : Nat
  triv : Bool
  N : Nat

/-- `compact_size_t(n)`. -/
def Ty.cast (t : Ty) (n : Nat) : Nat := n % 2 ^ sizeBits t.N t.al

/-- `capped_array()` (capped_array.hh:52, 193-194). -/
def empty (t : Ty) : CV α := { size := 0, buf := Buf.mk t.N }

/-- `capped_array(size)` and `defaulted(size)` (capped_array.hh:54-66, 76); `d` is `T()`. The member initialiser casts before the contract is
checked. -/
def sized (t : Ty) (n : Nat) (d : α) : R (CV α × Nat) := do
  let s := t.cast n
  ccAssert (decide (n ≤ t.N))
  let (b, l) ← fillLoop t.triv (.val d) (Buf.mk t.N) 0 s
  .ok ({ size := s, buf := b }, l)

/-- `capped_array(initializer_list)` (capped_array.hh:68-74). -/
def ofList (t : Ty) (as : List α) : R (CV α × Nat) := do
  ccAssert (decide (as.length ≤ t.N))
  let s := t.cast as.length
  let (b, l) ← copyLoop t.triv (as.map .live) (Buf.mk t.N) 0 s
  .ok ({ size := s, buf := b }, l)

/-- `filled(size, value)` (capped_array.hh:87-95). The loop runs to `size`, not to `_size`; its counter has the size type, and if that type
could not hold `size` the loop would not end: an outcome the model shows as undefined. -/
def filled (t : Ty) (n : Nat) (a : α) : R (CV α × Nat) := do
  ccAssert (decide (n ≤ t.N))
  let s := t.cast n
  if s = n then do
    let (b, l) ← fillLoop t.triv (.val a) (Buf.mk t.N) 0 n
    .ok ({ size := s, buf := b }, l)
  else .error .ub

/-- `container_destroy_reverse` (detail/container_impl_util.hh:91-100): nothing for a trivially destructible type. -/
def destroyReverse (triv : Bool) (b : Buf α) (size to : Nat) : R (Buf α) := if triv then .ok b else destroyDown b size to

/-- `emplace(new_size, arg)` (capped_array.hh:97-108) with one argument of type `T const&`. For a trivial `T`, an argument that is an element
of the array stays readable. -/
def emplace (t : Ty) (v : CV α) (n : Nat) (arg : Arg α) : R (CV α × Nat) := do
  ccAssert (decide (n ≤ t.N))
  let b ← destroyReverse t.triv v.buf v.size 0
  let s := t.cast n
  let (b, l) ← fillLoop t.triv arg b 0 s
  .ok ({ size := s, buf := b }, l)

/-- Copy constructor (capped_array.hh:110-113). -/
def copyCtor (t : Ty) (src : CV α) : R (CV α × Nat) := do
  let (b, l) ← copyLoop t.triv src.buf (Buf.mk t.N) 0 src.size
  .ok ({ size := src.size, buf := b }, l)

/-- Move constructor (capped_array.hh:114-118): source, new array, leaks. -/
def moveCtor (t : Ty) (src : CV α) : R (CV α × CV α × Nat) := do
  let (s, b, l) ← moveLoop t.triv src.buf (Buf.mk t.N) 0 src.size
  .ok ({ size := 0, buf := s }, { size := src.size, buf := b }, l)

/-- Copy assignment (capped_array.hh:120-138); `none` is self assignment. -/
def copyAssign (t : Ty) (v : CV α) (src : Option (CV α)) : R (CV α × Nat) := do
  let rs := (src.getD v).size
  let common := if v.size < rs then v.size else rs
  let b ← destroyReverse t.triv v.buf v.size rs
  let b ← copyAssignLoop (src.map (·.buf)) b 0 common
  let (b, l) ← copyLoop t.triv ((src.map (·.buf)).getD b) b common (rs - common)
  .ok ({ size := rs, buf := b }, l)

/-- Move assignment from another array (capped_array.hh:139-159): source, target, leaks. -/
def moveAssign (t : Ty) (v src : CV α) : R (CV α × CV α × Nat) := do
  let rs := src.size
  let common := if v.size < rs then v.size else rs
  let b ← destroyReverse t.triv v.buf v.size rs
  let (s, b) ← moveAssignLoop t.triv src.buf b 0 common
  let (s, b, l) ← moveLoop t.triv s b common (rs - common)
  .ok ({ size := 0, buf := s }, { size := rs, buf := b }, l)

/-- Move assignment of an array to itself (capped_array.hh:139-159): nothing is destroyed or constructed, every element is assigned to itself,
and `rhs._size = 0` is the own size. -/
def selfMove (t : Ty) (v : CV α) : R (CV α) := do
  let b ← selfMoveLoop t.triv v.buf 0 v.size
  .ok { size := 0, buf := b }

/-- Destructor (capped_array.hh:161) and the end of the storage: the number of objects left undestroyed. -/
def dtor (t : Ty) (v : CV α) : R Nat := do
  let b ← destroyReverse t.triv v.buf v.size 0
  .ok (b.leak t.triv)

/-- `operator[]` (capped_array.hh:37-47), read. -/
def get (v : CV α) (i : Nat) : R α := do
  ccAssert (decide (i < v.size))
  v.buf.read i

/-- `a[i] = x` (capped_array.hh:43-47). -/
def set (v : CV α) (i : Nat) (x : α) : R (CV α) := do
  ccAssert (decide (i < v.size))
  let b ← v.buf.assign i x
  .ok { v with buf := b }

/-- A loop from `begin()` to `end()` (capped_array.hh:24-27) that reads each element: `n` elements from `i` on. -/
def readFrom (b : Buf α) (i : Nat) : Nat → R (List α)
  | 0 => .ok []
  | n + 1 => do
    let a ← b.read i
    let l ← readFrom b (i + 1) n
    .ok (a :: l)

/-- The calls a program can make on its arrays. Where a new array is made, variable `i` names an array on the heap: the new one is made first,
then the old one is destroyed. -/
inductive Op (α : Type) where
  | new (i : Nat)
  | sized (i n : Nat)
  | ofList (i : Nat) (as : List α)
  | filled (i n : Nat) (a : α)
  | copy (i j : Nat)
  | move (i j : Nat)
  | assign (i j : Nat)
  | moveAssign (i j : Nat)
  | emplace (i n : Nat) (a : Arg α)
  | set (i k : Nat) (a : α)
  | get (i k : Nat)
  | each (i : Nat)
  | size (i : Nat)
  | empty (i : Nat)
  | maxSize (i : Nat)

/-- What a call returns. -/
inductive Obs (α : Type) where
  | none
  | elem (a : α)
  | list (l : List α)
  | nat (n : Nat)
  | bool (b : Bool)
deriving DecidableEq, Repr

/-- Replace array `i` by a new one, destroying the old one. -/
def replace (t : Ty) (w : World α) (i : Nat) (v : CV α) (l : Nat) : R (World α × Obs α) := do
  let l' ← dtor t (w.vecs i)
  .ok (w.put i v (l + l'), .none)

/-- An argument written `a[k]` is checked by the subscript operator. -/
def checkArg (v : CV α) : Arg α → R Unit
  | .val _ => .ok ()
  | .elem k => ccAssert (decide (k < v.size))

/-- Run one call; `d` is the value of `T()`. -/
def step (t : Ty) (d : α) (w : World α) : Op α → R (World α × Obs α)
  | .new i => replace t w i (CArr.empty t) 0
  | .sized i n => do
    let (v, l) ← CArr.sized t n d
    replace t w i v l
  | .ofList i as => do
    let (v, l) ← CArr.ofList t as
    replace t w i v l
  | .filled i n a => do
    let (v, l) ← CArr.filled t n a
    replace t w i v l
  | .copy i j => do
    let (v, l) ← copyCtor t (w.vecs j)
    replace t w i v l
  | .move i j => do
    let (s, v, l) ← moveCtor t (w.vecs j)
    replace t (w.put j s) i v l
  | .assign i j => do
    let (v, l) ← copyAssign t (w.vecs i) (if i = j then none else some (w.vecs j))
    .ok (w.put i v l, .none)
  | .moveAssign i j =>
    if i = j then do
      let v ← selfMove t (w.vecs i)
      .ok (w.put i v, .none)
    else do
      let (s, v, l) ← CArr.moveAssign t (w.vecs i) (w.vecs j)
      .ok ((w.put j s).put i v l, .none)
  | .emplace i n a => do
    checkArg (w.vecs i) a
    let (v, l) ← CArr.emplace t (w.vecs i) n a
    .ok (w.put i v l, .none)
  | .set i k a => do
    let v ← CArr.set (w.vecs i) k a
    .ok (w.put i v, .none)
  | .get i k => do
    let a ← CArr.get (w.vecs i) k
    .ok (w, .elem a)
  | .each i => do
    let l ← readFrom (w.vecs i).buf 0 (w.vecs i).size
    .ok (w, .list l)
  | .size i => .ok (w, .nat (w.vecs i).size)
  | .empty i => .ok (w, .bool ((w.vecs i).size == 0))
  | .maxSize _ => .ok (w, .nat t.N)

/-- All arrays default constructed. -/
def init (t : Ty) : World α := { vecs := fun _ => CArr.empty t, leaked := 0 }

/-- Run a history. -/
def run (t : Ty) (d : α) (w : World α) : List (Op α) → R (World α × List (Obs α))
  | [] => .ok (w, [])
  | op :: ops => do
    let (w, o) ← step t d w op
    let (w, os) ← run t d w ops
    .ok (w, o :: os)

end Verif.CArr
