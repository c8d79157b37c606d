import Verif.Ring.Model

/-! Specification: a ringbuffer is a list with a capacity. Only the call and observation types are shared with the model. -/
namespace Verif.Ring.Spec
open Verif.Ring

variable {α : Type}

/-- The abstract state of one ringbuffer: its elements and the number of elements it can hold without growing. -/
structure Q (α : Type) where
  elems : List α
  cap : Nat

/-- The abstract state of all ringbuffers. -/
abbrev Lists (α : Type) := Nat → Q α

/-- All ringbuffers are empty. -/
def init : Lists α := fun _ => { elems := [], cap := 0 }

/-- Replace state `i`. -/
def upd (s : Lists α) (i : Nat) (q : Q α) : Lists α := fun j => if j = i then q else s j

/-- The pushed value, `none` if the index is out of range. -/
def argVal (l : List α) : PushArg α → Option α
  | .val a => some a
  | .elem k => l[k]?

/-- The capacity after adding one element: a full ringbuffer of capacity 0 grows to 3, one of capacity c to 2c+1. -/
def capAfterPush (q : Q α) : Nat :=
  if q.elems.length < q.cap then q.cap else if q.cap = 0 then 3 else 2 * q.cap + 1

/-- The effect of a call, `none` if it is out of contract. -/
def step (s : Lists α) : Op α → Option (Lists α × Obs α)
  | .pushBack i a =>
    (argVal (s i).elems a).map fun a => (upd s i ⟨(s i).elems ++ [a], capAfterPush (s i)⟩, .none)
  | .pushBackStable i a =>
    if (s i).elems.length < (s i).cap then
      (argVal (s i).elems a).map fun a => (upd s i ⟨(s i).elems ++ [a], (s i).cap⟩, .none)
    else none
  | .pushFront i a =>
    (argVal (s i).elems a).map fun a => (upd s i ⟨a :: (s i).elems, capAfterPush (s i)⟩, .none)
  | .pushFrontStable i a =>
    if (s i).elems.length < (s i).cap then
      (argVal (s i).elems a).map fun a => (upd s i ⟨a :: (s i).elems, (s i).cap⟩, .none)
    else none
  | .popBack i => (s i).elems.getLast?.map fun a => (upd s i ⟨(s i).elems.dropLast, (s i).cap⟩, .elem a)
  | .popFront i => (s i).elems.head?.map fun a => (upd s i ⟨(s i).elems.tail, (s i).cap⟩, .elem a)
  | .clear i => some (upd s i ⟨[], (s i).cap⟩, .none)
  | .front i => (s i).elems.head?.map fun a => (s, .elem a)
  | .back i => (s i).elems.getLast?.map fun a => (s, .elem a)
  | .get i k => (s i).elems[k]?.map fun a => (s, .elem a)
  | .set i k a =>
    if k < (s i).elems.length then some (upd s i ⟨(s i).elems.set k a, (s i).cap⟩, .none) else none
  | .size i => some (s, .nat (s i).elems.length)
  | .empty i => some (s, .bool (s i).elems.isEmpty)
  | .assignCopy i j => some (upd s i (s j), .none)
  | .assignMove i j => some (upd (upd s i (s j)) j ⟨[], 0⟩, .none)

/-- The effect of a history. -/
def run (s : Lists α) : List (Op α) → Option (Lists α × List (Obs α))
  | [] => some (s, [])
  | op :: ops => do
    let (s, o) ← step s op
    let (s, os) ← run s ops
    some (s, o :: os)

end Verif.Ring.Spec
