import Verif.Rsqrt.Model
import Mathlib.Data.Real.Sqrt

/-! Specification: what `_mm_rsqrt_ss` is documented to give, and how far a result is from the inverse square root. -/
namespace Verif.Rsqrt.Spec

/-- The documentation of the instruction. -/
structure Documented (hw : Fl → Fl) : Prop where
  /-- positive normal numbers: relative error at most 1.5 * 2^-12 -/
  normal : ∀ q : ℚ, 2 ^ (-126 : ℤ) ≤ q → q < 2 ^ 128 → ∃ r : ℚ, hw (.fin q) = .fin r ∧ |(r : ℝ) * √(q : ℝ) - 1| ≤ 3 / 8192
  /-- zero and denormal numbers: infinity -/
  small : ∀ q : ℚ, 0 ≤ q → q < 2 ^ (-126 : ℤ) → hw (.fin q) = .inf false
  infinity : hw (.inf false) = .fin 0
  /-- negative normal numbers -/
  negative : ∀ q : ℚ, q ≤ -2 ^ (-126 : ℤ) → hw (.fin q) = .nan
  nan : hw .nan = .nan

/-- `f` is a finite number whose relative error, as an approximation of the inverse square root of `q`, is less than `e`. -/
def Approximates (f : Fl) (q : ℚ) (e : ℝ) : Prop := ∃ r : ℚ, f = .fin r ∧ |(r : ℝ) - 1 / √(q : ℝ)| < e * (1 / √(q : ℝ))

end Verif.Rsqrt.Spec
