import Verif.Mem.Model

/-!
A single buffer with object lifetimes, for containers that own exactly one block (or have inline storage) and never
share it: the same slots and rules as `Mem.Model`, but the block is a value and not an entry of a heap.
-/
namespace Verif.Mem

/-- The slots of one buffer. -/
abbrev Buf (α : Type) := List (Slot α)

variable {α : Type}

namespace Buf

/-- Uninitialised storage for `n` elements. -/
def mk (n : Nat) : Buf α := List.replicate n .raw

/-- Look at slot `i`; out of bounds is undefined. -/
def slot (b : Buf α) (i : Nat) : R (Slot α) :=
  match b[i]? with
  | some x => .ok x
  | none => .error .ub

/-- `new (&b[i]) T(a)`. -/
def construct (triv : Bool) (b : Buf α) (i : Nat) (a : α) : R (Buf α) := do
  let s ← b.slot i
  if triv || !s.alive then .ok (b.set i (.live a)) else .error .ub

/-- `b[i].~T()`. -/
def destroy (b : Buf α) (i : Nat) : R (Buf α) := do
  let s ← b.slot i
  if s.alive then .ok (b.set i .raw) else .error .ub

/-- Read `b[i]`. -/
def read (b : Buf α) (i : Nat) : R α := do
  match ← b.slot i with
  | .live a => .ok a
  | _ => .error .ub

/-- `cc::move(b[i])` consumed by a constructor or assignment. -/
def take (triv : Bool) (b : Buf α) (i : Nat) : R (α × Buf α) := do
  let a ← b.read i
  .ok (a, if triv then b else b.set i .moved)

/-- `b[i] = a`. -/
def assign (b : Buf α) (i : Nat) (a : α) : R (Buf α) := do
  let s ← b.slot i
  if s.alive then .ok (b.set i (.live a)) else .error .ub

/-- Number of objects that are still alive when the storage goes away and whose destructor therefore never runs. -/
def leak (triv : Bool) (b : Buf α) : Nat := if triv then 0 else b.countP Slot.alive

/-! Lemmas, in terms of `b[i]?`. -/

theorem slot_ok {b : Buf α} {i : Nat} {x : Slot α} (h : b[i]? = some x) : b.slot i = .ok x := by
  unfold slot; rw [h]

theorem construct_ok {triv : Bool} {b : Buf α} {i : Nat} {a : α} {x : Slot α} (h : b[i]? = some x)
    (hx : x = .raw ∨ triv = true) : b.construct triv i a = .ok (b.set i (.live a)) := by
  unfold construct; rw [slot_ok h]
  rcases hx with rfl | rfl <;> simp [Slot.alive]

theorem destroy_ok {b : Buf α} {i : Nat} {x : Slot α} (h : b[i]? = some x) (hx : x.alive = true) :
    b.destroy i = .ok (b.set i .raw) := by
  unfold destroy; rw [slot_ok h]; simp [hx]

theorem read_ok {b : Buf α} {i : Nat} {a : α} (h : b[i]? = some (.live a)) : b.read i = .ok a := by
  unfold read; rw [slot_ok h]; rfl

theorem take_ok {triv : Bool} {b : Buf α} {i : Nat} {a : α} (h : b[i]? = some (.live a)) :
    b.take triv i = .ok (a, if triv then b else b.set i .moved) := by
  unfold take; rw [read_ok h]; rfl

theorem assign_ok {b : Buf α} {i : Nat} {a : α} {x : Slot α} (h : b[i]? = some x) (hx : x.alive = true) :
    b.assign i a = .ok (b.set i (.live a)) := by
  unfold assign; rw [slot_ok h]; simp [hx]

end Buf
end Verif.Mem
