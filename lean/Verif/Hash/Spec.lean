import Verif.Hash.Model

/-! What `==` means for the hashable types. -/
namespace Verif.Hash.Spec

/-- IEEE 754 equality of floats: sign, exponent and fraction. NaN is equal to nothing and the two zeros are equal. -/
def f32Eq (a b : BitVec 32) : Prop :=
  let nan := fun (v : BitVec 32) => v.toNat / 2 ^ 23 % 2 ^ 8 = 255 ∧ v.toNat % 2 ^ 23 ≠ 0
  let zero := fun (v : BitVec 32) => v.toNat % 2 ^ 31 = 0
  ¬ nan a ∧ ¬ nan b ∧ (a = b ∨ (zero a ∧ zero b))

/-- IEEE 754 equality of doubles. -/
def f64Eq (a b : BitVec 64) : Prop :=
  let nan := fun (v : BitVec 64) => v.toNat / 2 ^ 52 % 2 ^ 11 = 2047 ∧ v.toNat % 2 ^ 52 ≠ 0
  let zero := fun (v : BitVec 64) => v.toNat % 2 ^ 63 = 0
  ¬ nan a ∧ ¬ nan b ∧ (a = b ∨ (zero a ∧ zero b))

/-- Two lists of the same length with related elements. -/
inductive Rel2 {α : Type} (R : α → α → Prop) : List α → List α → Prop
  | nil : Rel2 R [] []
  | cons {a b l m} : R a b → Rel2 R l m → Rel2 R (a :: l) (b :: m)

/-- Two optionals with related contents. -/
def OptRel {α : Type} (R : α → α → Prop) : Option α → Option α → Prop
  | none, none => True
  | some a, some b => R a b
  | _, _ => False

mutual
/-- `a == b`. -/
def eq : (t : Ty) → t.Val → t.Val → Prop
  | .scalar _, a, b => a.val = b.val
  | .plain _, a, b => a.val = b.val
  | .float, a, b => f32Eq a b
  | .double, a, b => f64Eq a b
  | .string, a, b => Rel2 (· = ·) a b
  | .stringView, a, b => a.chars = b.chars
  | .vector t, a, b => Rel2 (eq t) a b
  | .array t, a, b => Rel2 (eq t) a b
  | .pair s t, a, b => eq s a.1 b.1 ∧ eq t a.2 b.2
  | .optional t, a, b => OptRel (eq t) a b
  | .tuple ts, a, b => eqs ts a b
/-- Equality of tuples. -/
def eqs : (ts : Tys) → ts.Vals → ts.Vals → Prop
  | .nil, _, _ => True
  | .cons t ts, a, b => eq t a.1 b.1 ∧ eqs ts a.2 b.2
end

mutual
/-- No `string_view` occurs in the type. -/
def noView : Ty → Prop
  | .stringView => False
  | .vector t => noView t
  | .array t => noView t
  | .pair s t => noView s ∧ noView t
  | .optional t => noView t
  | .tuple ts => noViews ts
  | _ => True
/-- No `string_view` occurs in the types. -/
def noViews : Tys → Prop
  | .nil => True
  | .cons t ts => noView t ∧ noViews ts
end

end Verif.Hash.Spec
