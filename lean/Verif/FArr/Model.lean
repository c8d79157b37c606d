import Verif.Mem.Model

/-!
Model of `cc::fwd_array` (/repo/src/clean-core/fwd_array.hh).

Arrays are blocks of the heap of `Mem.Model`. An object of a type whose default constructor does nothing is alive after `new T[n]`, but has no value: it is in the state
`moved` of `Mem.Model`, and reading it is undefined. Constructing an object over one that is still alive is not undefined in C++ as such, but the destructor of
the latter never runs; such objects are counted in `leaked`. Allocation never fails (`new T[n]` throws for an `n` that is too large, which is not modelled).
-/
namespace Verif.FArr
open Mem
variable {α : Type}

/-- What matters about the element type. -/
structure E (α : Type) where
  /-- trivially copyable (hence trivially destructible) -/
  triv : Bool
  /-- trivially destructible -/
  tdtor : Bool
  /-- the default constructor does nothing -/
  tctor : Bool
  /-- value of `T()` -/
  dflt : α

/-- The members (fwd_array.hh:117-130); `op` says whether `delete_data` is set. -/
structure FA where
  data : Ptr
  size : Nat
  op : Bool
deriving DecidableEq, Repr

/-- The default constructor (fwd_array.hh:22, 117-122). -/
def FA.new : FA := { data := none, size := 0, op := false }

/-- `new T[n]` and `new T[n]()`, where each element starts as `x`. -/
def newArr (h : Heap α) (n : Nat) (x : Slot α) : Ptr × Heap α :=
  (some h.next, { (h.set h.next (List.replicate n x)) with next := h.next + 1 })

/-- What an element of `new T[n]` is. -/
def E.blank (e : E α) : Slot α := if e.tctor then .moved else .live e.dflt

/-- `delete[] p`: the destructors of all elements in reverse order, then the memory. -/
def deleteArr (e : E α) (h : Heap α) (p : Ptr) : R (Heap α) :=
  match p with
  | none => .ok h
  | some _ => do
    let s ← slots h p
    let h ← destroyReverse e.tdtor h p s.length
    free e.tdtor h p

/-- The constructor with a size (fwd_array.hh:24-29, also `defaulted`, 31). -/
def sized (e : E α) (h : Heap α) (n : Nat) : Heap α × FA :=
  let (p, h) := newArr h n (.live e.dflt)
  (h, { data := p, size := n, op := true })

/-- `uninitialized` (fwd_array.hh:33-40); the returned array is not copied (or it is moved, which is the same as far as one can see). -/
def uninitialized (e : E α) (h : Heap α) (n : Nat) : Heap α × FA :=
  let (p, h) := newArr h n e.blank
  (h, { data := p, size := n, op := true })

/-- A reference to a value: outside of all arrays, or element `i` of a block. -/
inductive Val (α : Type) where
  | ext (a : α)
  | elem (p : Ptr) (i : Nat)

/-- Read through the reference. -/
def Val.read (h : Heap α) : Val α → R α
  | .ext a => .ok a
  | .elem p i => Mem.read h p i

/-- `cc::fill` (algorithms.hh:21-30), `k` elements from `i` on. -/
def fill (h : Heap α) (p : Ptr) (v : Val α) (i : Nat) : Nat → R (Heap α)
  | 0 => .ok h
  | k + 1 => do
    let a ← v.read h
    let h ← assign h p i a
    fill h p v (i + 1) k

/-- `filled` (fwd_array.hh:42-50). -/
def filled (e : E α) (h : Heap α) (n : Nat) (v : Val α) : R (Heap α × FA) := do
  let (p, h) := newArr h n e.blank
  let h ← fill h p v 0 n
  .ok (h, { data := p, size := n, op := true })

/-- An object is gone without its destructor. -/
def bump (h : Heap α) (n : Nat) : Heap α := { h with leaked := h.leaked + n }

/-- The loop of `container_copy_construct_range` (container_impl_util.hh:41-42) over objects that are alive. -/
def overLoop (e : E α) (h : Heap α) (src : Src α) (p : Ptr) (i : Nat) : Nat → R (Heap α)
  | 0 => .ok h
  | k + 1 => do
    let a ← readSrc h src i
    let s ← get h p i
    let h ← put h p i (.live a)
    overLoop e (bump h (if s.alive && !e.tdtor then 1 else 0)) src p (i + 1) k

/-- The constructors from an `initializer_list` and from a `span` (fwd_array.hh:52-66): `new T[n]`, then `container_copy_construct_range`
(container_impl_util.hh:31-44). -/
def copied (e : E α) (h : Heap α) (src : Src α) (n : Nat) : R (Heap α × FA) := do
  let (p, h) := newArr h n e.blank
  let h ← (if e.triv then copyConstructRange true h src n p 0 else overLoop e h src p 0 n : R (Heap α))
  .ok (h, { data := p, size := n, op := true })

/-- The destructor (fwd_array.hh:87-91) and the first lines of move assignment (78-79); calling the null pointer `delete_data` is undefined. -/
def FA.release (e : E α) (h : Heap α) (s : FA) : R (Heap α) :=
  if s.data.isSome then (if s.op then deleteArr e h s.data else .error .ub) else .ok h

/-- `operator[]` (fwd_array.hh:105-114): the contract, then the element. -/
def FA.index (s : FA) (i : Nat) : R (Ptr × Nat) := do
  ccAssert (decide (i < s.size))
  .ok (s.data, i)

/-- A loop over `begin()` to `end()` (fwd_array.hh:96-99) that reads each element: `k` elements from `i` on. -/
def readAll (h : Heap α) (p : Ptr) (i : Nat) : Nat → R (List α)
  | 0 => .ok []
  | k + 1 => do
    let a ← Mem.read h p i
    let l ← readAll h p (i + 1) k
    .ok (a :: l)

/-! ### a program with several arrays -/

/-- The heap and the variables; a variable holds an array or is not alive. -/
structure World (α : Type) where
  heap : Heap α
  vars : Nat → Option FA

/-- Nothing there. -/
def World.init : World α := { heap := .init, vars := fun _ => none }

/-- Store an array. -/
def World.put (w : World α) (h : Heap α) (i : Nat) (s : Option FA) : World α := { heap := h, vars := fun j => if j = i then s else w.vars j }

/-- The array in variable `i`. -/
def World.get (w : World α) (i : Nat) : R FA :=
  match w.vars i with
  | some s => .ok s
  | none => .error .ub

/-- A value in the program: some value, or an element of an array. -/
inductive Arg (α : Type) where
  | val (a : α)
  | elem (i k : Nat)

/-- A span in the program: some values, or part of an array. -/
inductive Spn (α : Type) where
  | vals (l : List α)
  | part (i off len : Nat)

/-- The calls. -/
inductive Op (α : Type) where
  | make (i : Nat)
  | sized (i n : Nat)
  | uninitialized (i n : Nat)
  | filled (i n : Nat) (a : Arg α)
  | list (i : Nat) (l : List α)
  | span (i : Nat) (s : Spn α)
  | moveNew (i j : Nat)
  | moveAssign (i j : Nat)
  | destroy (i : Nat)
  | set (i k : Nat) (a : Arg α)
  | get (i k : Nat)
  | size (i : Nat)
  | empty (i : Nat)
  | all (i : Nat)

/-- What a call returns. -/
inductive Obs (α : Type) where
  | none
  | val (a : α)
  | size (n : Nat)
  | bool (b : Bool)
  | list (l : List α)
deriving DecidableEq, Repr

/-- Evaluate an argument (`a[k]` checks its contract). -/
def World.arg (w : World α) : Arg α → R (Val α)
  | .val a => .ok (.ext a)
  | .elem i k => do
    let s ← w.get i
    let (p, k) ← s.index k
    .ok (.elem p k)

/-- Evaluate a span: `span(a.data() + off, len)`. -/
def World.spn (w : World α) : Spn α → R (Src α × Nat)
  | .vals l => .ok (.ext l, l.length)
  | .part i off len => do
    let s ← w.get i
    .ok (.mem s.data off, len)

/-- Move construction (fwd_array.hh:68-75) and the rest of move assignment (80-84), from variable `j`. -/
def moveFrom (w : World α) (h : Heap α) (i j : Nat) : R (World α) := do
  let r ← w.get j
  let w := w.put h i (some r)
  let r ← w.get j
  .ok (w.put h j (some { r with data := none, size := 0 }))

/-- Run one call. -/
def step (e : E α) (w : World α) : Op α → R (World α × Obs α)
  | .make i => .ok (w.put w.heap i (some FA.new), .none)
  | .sized i n => let (h, s) := sized e w.heap n; .ok (w.put h i (some s), .none)
  | .uninitialized i n => let (h, s) := uninitialized e w.heap n; .ok (w.put h i (some s), .none)
  | .filled i n a => do
    let v ← w.arg a
    let (h, s) ← filled e w.heap n v
    .ok (w.put h i (some s), .none)
  | .list i l => do
    let (h, s) ← copied e w.heap (.ext l) l.length
    .ok (w.put h i (some s), .none)
  | .span i sp => do
    let (src, n) ← w.spn sp
    let (h, s) ← copied e w.heap src n
    .ok (w.put h i (some s), .none)
  | .moveNew i j => do
    let w ← moveFrom w w.heap i j
    .ok (w, .none)
  | .moveAssign i j => do
    let s ← w.get i
    let h ← s.release e w.heap
    let w ← moveFrom w h i j
    .ok (w, .none)
  | .destroy i => do
    let s ← w.get i
    let h ← s.release e w.heap
    .ok (w.put h i none, .none)
  | .set i k a => do
    let v ← w.arg a
    let s ← w.get i
    let (p, k) ← s.index k
    let x ← v.read w.heap
    let h ← assign w.heap p k x
    .ok (w.put h i (some s), .none)
  | .get i k => do
    let s ← w.get i
    let (p, k) ← s.index k
    let x ← Mem.read w.heap p k
    .ok (w, .val x)
  | .size i => do
    let s ← w.get i
    .ok (w, .size s.size)
  | .empty i => do
    let s ← w.get i
    .ok (w, .bool (decide (s.size = 0)))
  | .all i => do
    let s ← w.get i
    let l ← readAll w.heap s.data 0 s.size
    .ok (w, .list l)

/-- Run a history. -/
def run (e : E α) (w : World α) : List (Op α) → R (World α × List (Obs α))
  | [] => .ok (w, [])
  | op :: ops => do
    let (w, o) ← step e w op
    let (w, os) ← run e w ops
    .ok (w, o :: os)

end Verif.FArr
