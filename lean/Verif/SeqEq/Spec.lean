import Verif.SeqEq.Model

/-! When two sequences are equal. -/
namespace Verif.SeqEq.Spec
open Verif.SeqEq

variable {α : Type}

/-- As many elements, and the elements at the same place are related. -/
def Pointwise (P : α → α → Prop) (a b : List α) : Prop :=
  a.length = b.length ∧ ∀ (i : Nat) (x y : α), a[i]? = some x → b[i]? = some y → P x y

/-- `!=` is the opposite of `==`. -/
def Opposite (E : Ops α) : Prop := ∀ x y, E.ne x y = !(E.eq x y)

/-- `==` is an equivalence relation. -/
structure Equivalence (E : Ops α) : Prop where
  refl : ∀ x, E.eq x x = true
  symm : ∀ x y, E.eq x y = true → E.eq y x = true
  trans : ∀ x y z, E.eq x y = true → E.eq y z = true → E.eq x z = true

end Verif.SeqEq.Spec
