import Verif.Mem.Buf

/-!
Model of `cc::capped_vector<T, N>` (/repo/src/clean-core/capped_vector.hh).

The inline storage is a `Mem.Buf` of `N` slots. `_size` has a type that can hold `N` (detail/compact_size_t.hh), so it is a natural
number here. `triv` says that `T` is trivially copyable and destructible. Constructing over an object that is still alive is allowed
by C++ (the old object's destructor just never runs), so the construction used here counts such objects: the second component of the
results is the number of objects whose destructor never runs. `uninitialized` is not modelled. The `N = 0` specialisation (no
operations) is not modelled either.
-/
namespace Verif.Capped
open Verif.Mem

variable {α : Type}

/-- The members (capped_vector.hh:282-283). -/
structure CV (α : Type) where
  size : Nat
  buf : Buf α

/-- A default constructed capped_vector (capped_vector.hh:75). -/
def CV.empty (N : Nat) : CV α := { size := 0, buf := Buf.mk N }

/-- Placement new on slot `i`, counting a living object that is overwritten. -/
def construct (triv : Bool) (b : Buf α) (i : Nat) (a : α) : R (Buf α × Nat) := do
  let s ← b.slot i
  .ok (b.set i (.live a), if !triv && s.alive then 1 else 0)

/-- `capacity` (capped_vector.hh:31). -/
def cap (v : CV α) : Nat := v.buf.length

/-- `front` (capped_vector.hh:38-47). -/
def front (v : CV α) : R α := do
  ccAssert (v.size > 0)
  v.buf.read 0

/-- `back` (capped_vector.hh:49-58). -/
def back (v : CV α) : R α := do
  ccAssert (v.size > 0)
  v.buf.read (v.size - 1)

/-- `operator[]` (capped_vector.hh:60-70). -/
def get (v : CV α) (i : Nat) : R α := do
  ccAssert (i < v.size)
  v.buf.read i

/-- `v[i] = a` (capped_vector.hh:66-70). -/
def set (v : CV α) (i : Nat) (a : α) : R (CV α) := do
  ccAssert (i < v.size)
  let b ← v.buf.assign i a
  .ok { v with buf := b }

/-- A `T const&` argument: a value from elsewhere or element `k` of the vector itself. -/
inductive Arg (α : Type) where
  | val (a : α)
  | elem (k : Nat)

/-- Read the argument when the copy constructor runs. -/
def evalArg (b : Buf α) : Arg α → R α
  | .val a => .ok a
  | .elem k => b.read k

/-- `push_back` / `emplace_back` (capped_vector.hh:170-184, 193-200). -/
def pushBack (triv : Bool) (v : CV α) (arg : Arg α) : R (CV α × Nat) := do
  ccAssert (v.size < cap v)
  let a ← evalArg v.buf arg
  let (b, l) ← construct triv v.buf v.size a
  .ok ({ size := v.size + 1, buf := b }, l)

/-- `pop_back` (capped_vector.hh:186-191). -/
def popBack (v : CV α) : R (CV α) := do
  ccAssert (v.size > 0)
  let b ← v.buf.destroy (v.size - 1)
  .ok { size := v.size - 1, buf := b }

/-- Destroy slots `n - 1` down to `m` (capped_vector.hh:205-206, 215-216, 225-226; detail/container_impl_util.hh:87-96). -/
def destroyDown (b : Buf α) : Nat → Nat → R (Buf α)
  | 0, _ => .ok b
  | n + 1, m =>
    if n + 1 > m then do
      let b ← b.destroy n
      destroyDown b n m
    else .ok b

/-- `clear` (capped_vector.hh:202-208). -/
def clear (v : CV α) : R (CV α) := do
  let b ← destroyDown v.buf v.size 0
  .ok { size := 0, buf := b }

/-- The construction loop of `resize` (capped_vector.hh:213-214, 223-224): slots `i`, `i + 1`, ..., `n` of them. -/
def fillLoop (triv : Bool) (arg : Arg α) (b : Buf α) (i : Nat) : Nat → R (Buf α × Nat)
  | 0 => .ok (b, 0)
  | n + 1 => do
    let a ← evalArg b arg
    let (b, l) ← construct triv b i a
    let (b, l') ← fillLoop triv arg b (i + 1) n
    .ok (b, l + l')

/-- `resize(n)` / `resize(n, value)` (capped_vector.hh:210-228). -/
def resize (triv : Bool) (v : CV α) (n : Nat) (arg : Arg α) : R (CV α × Nat) := do
  ccAssert (n ≤ cap v)
  let (b, l) ← fillLoop triv arg v.buf v.size (n - v.size)
  let b ← destroyDown b v.size n
  .ok ({ size := n, buf := b }, l)

/-- The shifting loop of `remove_at` (capped_vector.hh:234-235): `n` steps starting with `i`. -/
def shiftLoop (triv : Bool) (b : Buf α) (i : Nat) : Nat → R (Buf α)
  | 0 => .ok b
  | n + 1 => do
    let (a, b) ← b.take triv i
    let b ← b.assign (i - 1) a
    shiftLoop triv b (i + 1) n

/-- `remove_at` (capped_vector.hh:231-238). -/
def removeAt (triv : Bool) (v : CV α) (i : Nat) : R (CV α) := do
  ccAssert (i < v.size)
  let b ← shiftLoop triv v.buf (i + 1) (v.size - (i + 1))
  let b ← b.destroy (v.size - 1)
  .ok { size := v.size - 1, buf := b }

/-- `a = cc::move(b)` for slots `p`, `q`: both must be alive; a moved-from source leaves a moved-from target. -/
def moveAssign (triv : Bool) (b : Buf α) (p q : Nat) : R (Buf α) := do
  let x ← b.slot q
  let y ← b.slot p
  if x.alive && y.alive then
    let b := b.set p x
    .ok (if triv || p = q then b else b.set q .moved)
  else .error .ub

/-- `cc::swap` of two slots (utility.hh:10-15), also for the same slot twice. -/
def swap (triv : Bool) (b : Buf α) (p q : Nat) : R (Buf α) := do
  let (tmp, b) ← b.take triv p
  let b ← moveAssign triv b p q
  b.assign q tmp

/-- `remove_at_unordered` (capped_vector.hh:241-246). -/
def removeAtUnordered (triv : Bool) (v : CV α) (i : Nat) : R (CV α) := do
  ccAssert (i < v.size)
  ccAssert (v.size > 0)
  let b ← swap triv v.buf i (v.size - 1)
  popBack { v with buf := b }

/-- The loop of `contains` (capped_vector.hh:252-255). -/
def containsLoop [DecidableEq α] (b : Buf α) (a : α) (i : Nat) : Nat → R Bool
  | 0 => .ok false
  | n + 1 => do
    let x ← b.read i
    if x = a then .ok true else containsLoop b a (i + 1) n

/-- `contains` (capped_vector.hh:250-256). -/
def contains [DecidableEq α] (v : CV α) (a : α) : R Bool := containsLoop v.buf a 0 v.size

/-- The loop of `operator==` (capped_vector.hh:262-265). -/
def eqLoop [DecidableEq α] (v w : CV α) (i : Nat) : Nat → R Bool
  | 0 => .ok true
  | n + 1 => do
    let x ← get v i
    let y ← get w i
    if !(decide (x = y)) then .ok false else eqLoop v w (i + 1) n

/-- `operator==` (capped_vector.hh:258-266, 278). -/
def eq [DecidableEq α] (v w : CV α) : R Bool := if v.size ≠ w.size then .ok false else eqLoop v w 0 v.size

/-- Copy constructing slots `i`, `i + 1`, ..., `n` of them, from another buffer (capped_vector.hh:109, 139-140;
detail/container_impl_util.hh:32-46). -/
def copyLoop (triv : Bool) (src : Buf α) (dst : Buf α) (i : Nat) : Nat → R (Buf α × Nat)
  | 0 => .ok (dst, 0)
  | n + 1 => do
    let a ← src.read i
    let (dst, l) ← construct triv dst i a
    let (dst, l') ← copyLoop triv src dst (i + 1) n
    .ok (dst, l + l')

/-- Copy constructor (capped_vector.hh:107-110). -/
def copyCtor (triv : Bool) (src : CV α) : R (CV α × Nat) := do
  let (b, l) ← copyLoop triv src.buf (Buf.mk (cap src)) 0 src.size
  .ok ({ size := src.size, buf := b }, l)

/-- Move constructing slots `i`, ... from another buffer (capped_vector.hh:113, 158-159;
detail/container_impl_util.hh:15-30). -/
def moveLoop (triv : Bool) (src dst : Buf α) (i : Nat) : Nat → R (Buf α × Buf α × Nat)
  | 0 => .ok (src, dst, 0)
  | n + 1 => do
    let (a, src) ← src.take triv i
    let (dst, l) ← construct triv dst i a
    let (src, dst, l') ← moveLoop triv src dst (i + 1) n
    .ok (src, dst, l + l')

/-- Move constructor (capped_vector.hh:111-115): (source, new vector, leaks). The moved-from elements stay in the source's storage
but `_size` becomes 0, so nobody destroys them. -/
def moveCtor (triv : Bool) (src : CV α) : R (CV α × CV α × Nat) := do
  let (s, b, l) ← moveLoop triv src.buf (Buf.mk (cap src)) 0 src.size
  .ok ({ size := 0, buf := s }, { size := src.size, buf := b }, l)

/-- Constructor from pointer and count, initializer list, span (capped_vector.hh:116-123). -/
def rangeCtor (triv : Bool) (N : Nat) (as : List α) : R (CV α × Nat) := do
  ccAssert (as.length ≤ N)
  let (b, l) ← copyLoop triv (as.map .live) (Buf.mk N) 0 as.length
  .ok ({ size := as.length, buf := b }, l)

/-- `capped_vector(n)` / `defaulted` / `filled` (capped_vector.hh:77-89, 99-105); for the first two, `a` is `T()`. -/
def filledCtor (triv : Bool) (N : Nat) (n : Nat) (a : α) : R (CV α × Nat) := do
  ccAssert (n ≤ N)
  resize triv (CV.empty N) n (.val a)

/-- Copy assigning slots `i`, ...; no source buffer means self-assignment (capped_vector.hh:135-136). -/
def copyAssignLoop (src : Option (Buf α)) (dst : Buf α) (i : Nat) : Nat → R (Buf α)
  | 0 => .ok dst
  | n + 1 => do
    let a ← (src.getD dst).read i
    let dst ← dst.assign i a
    copyAssignLoop src dst (i + 1) n

/-- Destroy the elements the assigned-to vector will not have any more (capped_vector.hh:130, 149). -/
def destroyExtra (triv : Bool) (v : CV α) (rs : Nat) : R (Buf α) :=
  if triv then .ok v.buf else destroyDown v.buf v.size rs

/-- Copy assignment (capped_vector.hh:125-143); `src = none` is self-assignment. -/
def copyAssign (triv : Bool) (v : CV α) (src : Option (CV α)) : R (CV α × Nat) := do
  let rs := (src.getD v).size
  let common := if v.size < rs then v.size else rs
  let b ← destroyExtra triv v rs
  let b ← copyAssignLoop (src.map (·.buf)) b 0 common
  let (b, l) ← copyLoop triv ((src.map (·.buf)).getD b) b common (rs - common)
  .ok ({ size := rs, buf := b }, l)

/-- Move assigning slots `i`, ... from another buffer (capped_vector.hh:154-155). -/
def moveAssignLoop (triv : Bool) (src dst : Buf α) (i : Nat) : Nat → R (Buf α × Buf α)
  | 0 => .ok (src, dst)
  | n + 1 => do
    let (a, src) ← src.take triv i
    let dst ← dst.assign i a
    moveAssignLoop triv src dst (i + 1) n

/-- Move assignment from another vector (capped_vector.hh:144-164): (source, target, leaks). -/
def moveAssignFrom (triv : Bool) (v src : CV α) : R (CV α × CV α × Nat) := do
  let rs := src.size
  let common := if v.size < rs then v.size else rs
  let b ← destroyExtra triv v rs
  let (s, b) ← moveAssignLoop triv src.buf b 0 common
  let (s, b, l) ← moveLoop triv s b common (rs - common)
  .ok ({ size := 0, buf := s }, { size := rs, buf := b }, l)

/-- The loop of a self-move-assignment: every element is move-assigned to itself. -/
def selfMoveLoop (triv : Bool) (b : Buf α) (i : Nat) : Nat → R (Buf α)
  | 0 => .ok b
  | n + 1 => do
    let b ← moveAssign triv b i i
    selfMoveLoop triv b (i + 1) n

/-- Self-move-assignment (capped_vector.hh:144-164 with `&rhs == this`): nothing is destroyed or constructed, then `_size = 0`. -/
def selfMoveAssign (triv : Bool) (v : CV α) : R (CV α) := do
  let b ← selfMoveLoop triv v.buf 0 v.size
  .ok { size := 0, buf := b }

/-- Destructor (capped_vector.hh:166) followed by the end of the storage: returns the number of objects left undestroyed. -/
def dtor (triv : Bool) (v : CV α) : R Nat :=
  if triv then .ok 0
  else do
    let b ← destroyDown v.buf v.size 0
    .ok (b.leak triv)

/-! ### a program with several vectors -/

/-- The vector variables of a program and the number of objects whose destructor will never run. -/
structure World (α : Type) where
  vecs : Nat → CV α
  leaked : Nat

/-- All vectors default constructed. -/
def World.init (N : Nat) : World α := { vecs := fun _ => CV.empty N, leaked := 0 }

/-- Store a vector variable and count leaks. -/
def World.put (w : World α) (i : Nat) (v : CV α) (leak : Nat := 0) : World α :=
  { vecs := fun j => if j = i then v else w.vecs j, leaked := w.leaked + leak }

/-- The calls a program can make. In the constructing calls, variable `i` names a vector on the heap: the new vector is constructed
and then replaces the old one, which is destroyed. -/
inductive Op (α : Type) where
  | ctorRange (i : Nat) (as : List α)
  | ctorFilled (i n : Nat) (a : α)
  | ctorCopy (i j : Nat)
  | ctorMove (i j : Nat)
  | assignCopy (i j : Nat)
  | assignMove (i j : Nat)
  | pushBack (i : Nat) (a : Arg α)
  | popBack (i : Nat)
  | clear (i : Nat)
  | resize (i n : Nat) (a : Arg α)
  | removeAt (i k : Nat)
  | removeAtUnordered (i k : Nat)
  | set (i k : Nat) (a : α)
  | front (i : Nat)
  | back (i : Nat)
  | get (i k : Nat)
  | contains (i : Nat) (a : α)
  | eq (i j : Nat)
  | size (i : Nat)
  | empty (i : Nat)
  | full (i : Nat)

/-- What a call returns. -/
inductive Obs (α : Type) where
  | none
  | elem (a : α)
  | nat (n : Nat)
  | bool (b : Bool)
deriving DecidableEq, Repr

/-- Replace variable `i` by a new vector, destroying the old one. -/
def World.replace (triv : Bool) (w : World α) (i : Nat) (v : CV α) (l : Nat) : R (World α × Obs α) := do
  let l' ← dtor triv (w.vecs i)
  .ok (w.put i v (l + l'), .none)

/-- `Arg.elem k` written as `v[k]` is checked by the subscript operator. -/
def checkArg (v : CV α) : Arg α → R Unit
  | .val _ => .ok ()
  | .elem k => ccAssert (k < v.size)

/-- Run one call. -/
def step [DecidableEq α] (triv : Bool) (N : Nat) (w : World α) : Op α → R (World α × Obs α)
  | .ctorRange i as => do
    let (v, l) ← rangeCtor triv N as
    w.replace triv i v l
  | .ctorFilled i n a => do
    let (v, l) ← filledCtor triv N n a
    w.replace triv i v l
  | .ctorCopy i j => do
    let (v, l) ← copyCtor triv (w.vecs j)
    w.replace triv i v l
  | .ctorMove i j => do
    let (s, v, l) ← moveCtor triv (w.vecs j)
    (w.put j s).replace triv i v l
  | .assignCopy i j => do
    let (v, l) ← copyAssign triv (w.vecs i) (if i = j then none else some (w.vecs j))
    .ok (w.put i v l, .none)
  | .assignMove i j =>
    if i = j then do
      let v ← selfMoveAssign triv (w.vecs i)
      .ok (w.put i v, .none)
    else do
      let (s, v, l) ← moveAssignFrom triv (w.vecs i) (w.vecs j)
      .ok ((w.put j s).put i v l, .none)
  | .pushBack i a => do
    checkArg (w.vecs i) a
    let (v, l) ← pushBack triv (w.vecs i) a
    .ok (w.put i v l, .none)
  | .popBack i => do
    let v ← popBack (w.vecs i)
    .ok (w.put i v, .none)
  | .clear i => do
    let v ← clear (w.vecs i)
    .ok (w.put i v, .none)
  | .resize i n a => do
    checkArg (w.vecs i) a
    let (v, l) ← resize triv (w.vecs i) n a
    .ok (w.put i v l, .none)
  | .removeAt i k => do
    let v ← removeAt triv (w.vecs i) k
    .ok (w.put i v, .none)
  | .removeAtUnordered i k => do
    let v ← removeAtUnordered triv (w.vecs i) k
    .ok (w.put i v, .none)
  | .set i k a => do
    let v ← set (w.vecs i) k a
    .ok (w.put i v, .none)
  | .front i => do
    let a ← front (w.vecs i)
    .ok (w, .elem a)
  | .back i => do
    let a ← back (w.vecs i)
    .ok (w, .elem a)
  | .get i k => do
    let a ← get (w.vecs i) k
    .ok (w, .elem a)
  | .contains i a => do
    let b ← contains (w.vecs i) a
    .ok (w, .bool b)
  | .eq i j => do
    let b ← eq (w.vecs i) (w.vecs j)
    .ok (w, .bool b)
  | .size i => .ok (w, .nat (w.vecs i).size)
  | .empty i => .ok (w, .bool ((w.vecs i).size == 0))
  | .full i => .ok (w, .bool ((w.vecs i).size == cap (w.vecs i)))

/-- Run a history. -/
def run [DecidableEq α] (triv : Bool) (N : Nat) (w : World α) : List (Op α) → R (World α × List (Obs α))
  | [] => .ok (w, [])
  | op :: ops => do
    let (w, o) ← step triv N w op
    let (w, os) ← run triv N w ops
    .ok (w, o :: os)

end Verif.Capped
