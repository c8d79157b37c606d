import Verif.Common

/-!
The life of `cc::tlsf_allocator` (`/repo/src/clean-core/allocators/tlsf_allocator.hh` and `.cc`): which object uses which heap. What
happens in a heap is the subject of `Verif/Tlsf`.

Simplifications:
* a heap is known by the address of its control structure, that is of the buffer it was created in; null is 0. `controlSize` is
  `tlsf_size()` (detail/lib/tlsf.cc:910).
* of the calls that use a heap the model only tells which heap they use; whether there is room in it is left out, the assertions about
  it (tlsf_allocator.cc:29, 36, 64) hold.
* a call on an object that does not exist is undefined. So is every access to a heap at null.
-/
namespace Verif.Life.Tlsf

/-- `tlsf_size()`, the size of `control_t` (detail/lib/tlsf.cc:910, 272-284), as in `Verif.Tlsf`. -/
def controlSize : Nat := 6536

/-- The objects that exist and their member `_tlsf` (tlsf_allocator.hh:44). -/
abbrev World := Nat → Option Nat

/-- Nothing there. -/
def start : World := fun _ => none

def World.put (w : World) (i : Nat) (o : Option Nat) : World := fun j => if j = i then o else w j

/-- An object that does not exist can not be used. -/
def World.get (w : World) (i : Nat) : R Nat :=
  match w i with
  | some h => .ok h
  | none => .error .ub

/-- The calls. -/
inductive Op where
  /-- the default constructor -/
  | make (i : Nat)
  /-- the constructor with a buffer at `a` of `n` bytes -/
  | makeWith (i a n : Nat)
  /-- the move constructor: `j` from `i` -/
  | makeMoved (j i : Nat)
  | setup (i a n : Nat)
  | destroy (i : Nat)
  /-- the destructor -/
  | drop (i : Nat)
  /-- `i == std::move(j)` -/
  | equalMoved (i j : Nat)
  | addPool (i a n : Nat)
  | alloc (i size : Nat)
  | free (i ptr : Nat)
  | validate (i : Nat)
deriving DecidableEq

/-- `tlsf_create_with_pool` (detail/lib/tlsf.cc:1020-1045): null if the memory is not aligned. -/
def create (a : Nat) : Nat := if a % 8 = 0 then a else 0

/-- `initialize` (tlsf_allocator.cc:7-14). -/
def init (w : World) (i a n : Nat) : R World := do
  let h ← w.get i
  ccAssert (decide (h = 0))
  ccAssert (decide (n > controlSize))
  let h := create a
  let w := w.put i (some h)
  ccAssert (decide (h ≠ 0))
  pure w

/-- `destroy` (tlsf_allocator.cc:16-23); `tlsf_destroy` does nothing (detail/lib/tlsf.cc:1047-1051). -/
def destroy (w : World) (i : Nat) : R World := do
  let h ← w.get i
  if h ≠ 0 then pure (w.put i (some 0)) else pure w

/-- The storage of an object that exists is not used for another. -/
def fresh (w : World) (i : Nat) : R Unit :=
  match w i with
  | none => .ok ()
  | some _ => .error .ub

/-- Use the heap at `h`. -/
def use (h : Nat) : R Unit := if h = 0 then .error .ub else .ok ()

/-- One call; the number is the heap it has used, 0 if none. -/
def step (w : World) : Op → R (World × Nat)
  -- tlsf_allocator.hh:12
  | .make i => do
    fresh w i
    pure (w.put i (some 0), 0)
  -- tlsf_allocator.hh:13
  | .makeWith i a n => do
    fresh w i
    let w ← init (w.put i (some 0)) i a n
    pure (w, 0)
  -- tlsf_allocator.hh:34
  | .makeMoved j i => do
    fresh w j
    let h ← w.get i
    pure ((w.put j (some h)).put i (some 0), 0)
  | .setup i a n => do
    let w ← init w i a n
    pure (w, 0)
  | .destroy i => do
    let w ← destroy w i
    pure (w, 0)
  -- tlsf_allocator.hh:14
  | .drop i => do
    let w ← destroy w i
    pure (w.put i none, 0)
  -- tlsf_allocator.hh:35-41
  | .equalMoved i j => do
    let w ← destroy w i
    let h ← w.get j
    pure ((w.put i (some h)).put j (some 0), 0)
  -- tlsf_allocator.cc:25-30
  | .addPool i _ _ => do
    let h ← w.get i
    ccAssert (decide (h ≠ 0))
    pure (w, h)
  -- tlsf_allocator.cc:32-38
  | .alloc i size => do
    let h ← w.get i
    ccAssert (decide (size > 0))
    use h
    pure (w, h)
  -- tlsf_allocator.cc:40 with detail/lib/tlsf.cc:1117-1130
  | .free i ptr => do
    let h ← w.get i
    if ptr ≠ 0 then do
      use h
      pure (w, h)
    else pure (w, 0)
  -- tlsf_allocator.cc:60-67
  | .validate i => do
    let h ← w.get i
    ccAssert (decide (h ≠ 0))
    pure (w, h)

/-- A history and the heaps its calls have used. -/
def run (w : World) : List Op → R (World × List Nat)
  | [] => .ok (w, [])
  | op :: ops => do
    let (w, n) ← step w op
    let (w, ns) ← run w ops
    pure (w, n :: ns)

end Verif.Life.Tlsf
