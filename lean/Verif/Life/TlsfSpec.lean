import Verif.Life.Tlsf

/-!
What a user expects of the objects and heaps: who has which heap.
-/
namespace Verif.Life.Tlsf

/-- Object `i` has the heap `h`. -/
def Has (w : World) (i h : Nat) : Prop := w i = some h ∧ h ≠ 0

/-- Object `i` exists and has no heap. -/
def Empty (w : World) (i : Nat) : Prop := w i = some 0

/-- The memory at which a call creates a heap. -/
def Op.creates : Op → Option Nat
  | .makeWith _ a _ => some a
  | .setup _ a _ => some a
  | _ => none

/-- The rule for buffers: no heap is created where an object has one. -/
def Legal (w : World) (op : Op) : Prop := ∀ a, op.creates = some a → ∀ i, ¬ Has w i a

/-- The calls of a history keep to it. -/
def LegalRun (w : World) : List Op → Prop
  | [] => True
  | op :: ops => Legal w op ∧ ∀ w' n, step w op = .ok (w', n) → LegalRun w' ops

/-- The object whose heap a call gives up. -/
def Op.ends : Op → Option Nat
  | .destroy i => some i
  | .drop i => some i
  | .equalMoved i _ => some i
  | _ => none

end Verif.Life.Tlsf
