import Verif.Mpmc.Size
import Verif.Mpmc.Spec

/-! What the reported size should be: the number of stored values, `Mpmc.Spec.content`. -/
namespace Verif.Mpmc.Size.Spec
open Verif.Mpmc.Size

variable {α : Type}

/-- No call is running. -/
def Quiescent (s : State α) : Prop := Mpmc.Spec.Quiescent s.q ∧ s.owed = []

/-- Positions stay so small that their difference fits into `intptr_t`. -/
def Fits (n : Nat) (d0 : α) (size : BitVec 64) (sched : List (Nat × Act α)) : Prop :=
  ∀ pre s, pre <+: sched → start n d0 size pre = .ok s → s.q.enqLog.length + n < 2 ^ 63

/-- `enqueue` is only called by threads of `P`, `dequeue` only by threads of `C`. -/
def Uses (P C : List Nat) (sched : List (Nat × Act α)) : Prop :=
  (∀ t v, (t, Act.enqueue v) ∈ sched → t ∈ P) ∧ (∀ t, (t, Act.dequeue) ∈ sched → t ∈ C)

end Verif.Mpmc.Size.Spec
