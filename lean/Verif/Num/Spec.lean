import Verif.Common
/-!
# What numerals denote

Decimal numerals, independent of the code.
-/
namespace Verif.Num.Spec

/-- A character. -/
abbrev Chr := BitVec 8

/-- The characters `0` to `9`. -/
def IsDigit (c : Chr) : Prop := 48 ≤ c.toNat ∧ c.toNat ≤ 57

instance (c : Chr) : Decidable (IsDigit c) := by unfold IsDigit; infer_instance

/-- The value of a sequence of digits read from the left, after `acc`. -/
def value (acc : Nat) (l : List Chr) : Nat := l.foldl (fun a c => 10 * a + (c.toNat - 48)) acc

/-- `l` is the usual decimal numeral of `n`: digits, the first of them not `0` unless it is the only one. -/
def IsNumeral (l : List Chr) (n : Nat) : Prop :=
  l ≠ [] ∧ (∀ c ∈ l, IsDigit c) ∧ (l.head? = some 48#8 → l.length = 1) ∧ value 0 l = n

/-- `l` is the usual decimal form of `x`: a minus sign and the numeral for negative numbers. -/
def IsDecimal (l : List Chr) (x : Int) : Prop :=
  (0 ≤ x ∧ IsNumeral l x.natAbs) ∨ (x < 0 ∧ ∃ m, l = 45#8 :: m ∧ IsNumeral m x.natAbs)

/-- White space characters. -/
def IsSpace (c : Chr) : Prop := c = 32#8 ∨ (9 ≤ c.toNat ∧ c.toNat ≤ 13)

/-- `l` is an optional sign and at least one digit, with value `-n` (if `neg`) or `n`. -/
def Denotes (l : List Chr) (neg : Bool) (n : Nat) : Prop :=
  ∃ sg ds, l = sg ++ ds ∧ ((sg = [] ∧ neg = false) ∨ (sg = [43#8] ∧ neg = false) ∨ (sg = [45#8] ∧ neg = true)) ∧
    ds ≠ [] ∧ (∀ c ∈ ds, IsDigit c) ∧ value 0 ds = n

/-- The same after white space. -/
def DenotesWs (l : List Chr) (neg : Bool) (n : Nat) : Prop :=
  ∃ ws m, l = ws ++ m ∧ (∀ c ∈ ws, IsSpace c) ∧ Denotes m neg n

/-- The number with a sign and an absolute value. -/
def signed (neg : Bool) (n : Nat) : Int := if neg then -(n : Int) else n

/-- `c` is a hexadecimal digit, in capital or small letters, of value `d`. -/
def HexDigit (c : Chr) (d : Nat) : Prop :=
  (d < 10 ∧ c.toNat = 48 + d) ∨ (10 ≤ d ∧ d < 16 ∧ (c.toNat = 65 + (d - 10) ∨ c.toNat = 97 + (d - 10)))

/-- `c` is not a small letter. -/
def NotSmall (c : Chr) : Prop := ¬ (97 ≤ c.toNat ∧ c.toNat ≤ 122)

end Verif.Num.Spec
