import Verif.Rsqrt.Lemmas

namespace Verif.Rsqrt
open Spec

theorem crude {v q : ℝ} (h : |v - q| ≤ |q| / 2 ^ 24 + 1 / 2 ^ 150) : |v| ≤ 2 * |q| + 1 := by
  have h1 := abs_sub_abs_le_abs_sub v q
  have h2 : |q| / 2 ^ 24 ≤ |q| := div_le_self (abs_nonneg _) (by norm_num)
  have h3 : (1 : ℝ) / 2 ^ 150 ≤ 1 := by norm_num
  linarith

/-- An iteration gives a number, and its error in terms of the one before. -/
theorem step_ok {x h x0 : ℚ} {D a w : ℝ} (h1 : (1 : ℝ) / 2 ^ 126 ≤ x) (h2 : (x : ℝ) < 2 ^ 128) (hx0 : |(x0 : ℝ) * √(x : ℝ) - 1| ≤ D) (hD : D ≤ 1 / 2000)
    (hh : |(h : ℝ) / x - 1 / 2| ≤ a) (ha : a ≤ 1 / 2 ^ 23) (hxw : (x : ℝ) / 2 ^ 150 ≤ w) (hw : w ≤ 1 / 2 ^ 22) :
    ∃ r : ℚ, step (.fin h) (.fin x0) = .fin r ∧ |(r : ℝ) * √(x : ℝ) - 1| ≤ 1.501 * D ^ 2 + 1.002 * (a + w / 2) + 2.1 / 2 ^ 24 := by
  have hx : (0 : ℝ) < x := lt_of_lt_of_le (by norm_num) h1
  obtain ⟨s, hs, hs0, hsx⟩ : ∃ s : ℝ, s = √(x : ℝ) ∧ 0 < s ∧ s ^ 2 = x := ⟨_, rfl, Real.sqrt_pos.2 hx, Real.sq_sqrt hx.le⟩
  rw [← hs] at hx0 ⊢
  have hsu : s < 2 ^ 64 := by nlinarith
  have hsl : 1 / 2 ^ 63 ≤ s := by
    by_contra hc
    rw [not_le] at hc
    have : s ^ 2 < (1 / 2 ^ 63) ^ 2 := by gcongr
    norm_num at this h1
    linarith
  have hz' := abs_le.1 hx0
  have hzu : |(x0 : ℝ) * s| ≤ 2 := by
    rw [abs_le]
    constructor <;> linarith
  have hx0u : |(x0 : ℝ)| ≤ 2 ^ 64 := by
    have : |(x0 : ℝ)| * s ≤ 2 := by rwa [abs_mul, abs_of_pos hs0] at hzu
    have h3 : |(x0 : ℝ)| * (1 / 2 ^ 63) ≤ |(x0 : ℝ)| * s := by gcongr
    have h4 : |(x0 : ℝ)| * (1 / 2 ^ 63) ≤ 2 := by linarith
    norm_num at h4 ⊢
    linarith
  -- the square
  obtain ⟨t, et, ht⟩ := round_err_real (x0 * x0) (by
    push_cast
    rw [abs_mul]
    have e : |(x0 : ℝ)| * |(x0 : ℝ)| = (x0 * s) ^ 2 / x := by
      rw [← hsx, ← abs_mul, abs_mul_self]
      field_simp
    rw [e, div_le_iff₀ hx]
    have h3 : ((x0 : ℝ) * s) ^ 2 ≤ 1.9 := by nlinarith
    have h4 : (2 : ℝ) ^ 127 * (1 / 2 ^ 126) ≤ 2 ^ 127 * x := by gcongr
    norm_num at h4 ⊢
    linarith)
  push_cast at ht
  have hT : |(t : ℝ) * x - (x0 * s) ^ 2| ≤ (x0 * s) ^ 2 / 2 ^ 24 + w := by
    have e : (t : ℝ) * x - (x0 * s) ^ 2 = (t - x0 * x0) * x := by rw [← hsx]; ring
    rw [e, abs_mul, abs_of_pos hx]
    have h3 : |(t : ℝ) - x0 * x0| * x ≤ (|(x0 : ℝ) * x0| / 2 ^ 24 + 1 / 2 ^ 150) * x := by gcongr
    have e2 : (|(x0 : ℝ) * x0| / 2 ^ 24 + 1 / 2 ^ 150) * x = (x0 * s) ^ 2 / 2 ^ 24 + x / 2 ^ 150 := by
      rw [abs_mul_self, ← hsx]
      ring
    linarith
  have hTu : |(t : ℝ) * x| ≤ 4 := by
    have h3 : ((x0 : ℝ) * s) ^ 2 ≤ 1.9 := by nlinarith
    have h4 : (0 : ℝ) ≤ (x0 * s) ^ 2 := sq_nonneg _
    have h5 := abs_sub_abs_le_abs_sub ((t : ℝ) * x) ((x0 * s) ^ 2)
    rw [abs_of_nonneg h4] at h5
    have h6 : ((x0 : ℝ) * s) ^ 2 / 2 ^ 24 ≤ 1.9 := le_trans (div_le_self h4 (by norm_num)) h3
    have h7 : (1 : ℝ) / 2 ^ 22 ≤ 0.1 := by norm_num
    linarith
  have hHu : |(h : ℝ) / x| ≤ 1 := by
    have h3 := abs_le.1 hh
    have h7 : (1 : ℝ) / 2 ^ 23 ≤ 0.1 := by norm_num
    rw [abs_le]
    constructor <;> linarith
  have eHT : (h : ℝ) * t = (h / x) * (t * x) := by field_simp
  have hHT : |(h : ℝ) * t| ≤ 4 := by
    rw [eHT, abs_mul]
    calc |(h : ℝ) / x| * |(t : ℝ) * x| ≤ 1 * 4 := by gcongr
      _ = 4 := by norm_num
  -- its product with half the number
  obtain ⟨p, ep, hp⟩ := round_err_real (h * t) (by push_cast; exact le_trans hHT (by norm_num))
  push_cast at hp
  have hpu := crude hp
  -- the difference from a half
  have hdq : |(1 / 2 : ℝ) - p| ≤ 10 := by
    have := abs_sub (1 / 2 : ℝ) p
    rw [abs_of_pos (show (0 : ℝ) < 1 / 2 by norm_num)] at this
    linarith
  obtain ⟨d, ed, hd⟩ := round_err_real (1 / 2 + -p) (by push_cast; rw [← sub_eq_add_neg]; exact le_trans hdq (by norm_num))
  push_cast at hd
  rw [← sub_eq_add_neg] at hd
  have hdu := crude hd
  have hd30 : |(d : ℝ)| ≤ 21 := by linarith
  -- the correction
  have hmq : |(x0 : ℝ) * d| ≤ 2 ^ 64 * 21 := by
    rw [abs_mul]
    gcongr
  obtain ⟨m, em, hm⟩ := round_err_real (x0 * d) (by push_cast; exact le_trans hmq (by norm_num))
  push_cast at hm
  have hmu := crude hm
  -- the sum
  have hrq : |(x0 : ℝ) + m| ≤ 2 ^ 127 := by
    have h3 := abs_add_le (x0 : ℝ) m
    have h4 : (2 : ℝ) ^ 64 + (2 * (2 ^ 64 * 21) + 1) ≤ 2 ^ 127 := by norm_num
    linarith
  obtain ⟨r, er, hr⟩ := round_err_real (x0 + m) (by push_cast; exact hrq)
  push_cast at hr
  have hs150 : 1 / 2 ^ 150 * s ≤ 1 / 2 ^ 80 := by
    have : 1 / 2 ^ 150 * s ≤ 1 / 2 ^ 150 * 2 ^ 64 := by gcongr
    have h3 : (1 : ℝ) / 2 ^ 150 * 2 ^ 64 ≤ 1 / 2 ^ 80 := by norm_num
    linarith
  have scale : ∀ v q : ℝ, |v - q| ≤ |q| / 2 ^ 24 + 1 / 2 ^ 150 → |v * s - q * s| ≤ |q * s| / 2 ^ 24 + 1 / 2 ^ 80 := by
    intro v q hv
    rw [← sub_mul, abs_mul, abs_mul, abs_of_pos hs0]
    have : |v - q| * s ≤ (|q| / 2 ^ 24 + 1 / 2 ^ 150) * s := by gcongr
    have e : (|q| / 2 ^ 24 + 1 / 2 ^ 150) * s = |q| * s / 2 ^ 24 + 1 / 2 ^ 150 * s := by ring
    linarith
  have hM := scale _ _ hm
  have hS := scale _ _ hr
  rw [show (x0 : ℝ) * d * s = x0 * s * d by ring] at hM
  rw [show ((x0 : ℝ) + m) * s = x0 * s + m * s by ring] at hS
  rw [eHT] at hp
  refine ⟨r, ?_, iteration hx0 hD hh ha hT hw hp hd hM hS⟩
  simp only [step, mul, sub, neg, add, et, ep, ed, em, er]

/-- Half the number. -/
theorem half_ok {x : ℚ} (h1 : (1 : ℝ) / 2 ^ 126 ≤ x) (h2 : (x : ℝ) < 2 ^ 128) :
    ∃ h : ℚ, mul (.fin x) (.fin (1 / 2)) = .fin h ∧ |(h : ℝ) / x - 1 / 2| ≤ 1 / 2 ^ 25 + 1 / 2 ^ 150 / x := by
  have hx : (0 : ℝ) < x := lt_of_lt_of_le (by norm_num) h1
  obtain ⟨h, e, hh⟩ := round_err_real (x * (1 / 2)) (by
    push_cast
    rw [abs_of_pos (by positivity)]
    norm_num at h2 ⊢
    linarith)
  refine ⟨h, e, ?_⟩
  push_cast at hh
  rw [abs_of_pos (show (0 : ℝ) < x * (1 / 2) by positivity)] at hh
  have e1 : (h : ℝ) / x - 1 / 2 = (h - x * (1 / 2)) / x := by field_simp
  rw [e1, abs_div, abs_of_pos hx, div_le_iff₀ hx]
  have e2 : (1 / 2 ^ 25 + 1 / 2 ^ 150 / (x : ℝ)) * x = x * (1 / 2) / 2 ^ 24 + 1 / 2 ^ 150 := by
    field_simp
  linarith

theorem range {q : ℚ} (h1 : 2 ^ (-126 : ℤ) ≤ q) (h2 : q < 2 ^ 128) : (1 : ℝ) / 2 ^ 126 ≤ q ∧ (q : ℝ) < 2 ^ 128 := by
  constructor
  · have h3 := (Rat.cast_le (K := ℝ)).2 h1
    have e : (2 : ℝ) ^ (-126 : ℤ) = 1 / 2 ^ 126 := by norm_num
    push_cast at h3
    rw [e] at h3
    exact h3
  · exact_mod_cast h2

/-- Both functions, in terms of the bounds of the errors that depend on the size of the number. -/
theorem nr_ok {hw : Fl → Fl} (doc : Documented hw) {q : ℚ} (h1 : 2 ^ (-126 : ℤ) ≤ q) (h2 : q < 2 ^ 128) {a w : ℝ} (hqa : 1 / 2 ^ 25 + 1 / 2 ^ 150 / (q : ℝ) ≤ a)
    (ha : a ≤ 1 / 2 ^ 23) (hqw : (q : ℝ) / 2 ^ 150 ≤ w) (hw' : w ≤ 1 / 2 ^ 22) :
    ∃ r1 r2 : ℚ, rsqrt_nr1 hw (.fin q) = .fin r1 ∧ rsqrt_nr2 hw (.fin q) = .fin r2 ∧
      |(r1 : ℝ) * √(q : ℝ) - 1| ≤ 1.501 * (3 / 8192) ^ 2 + 1.002 * (a + w / 2) + 2.1 / 2 ^ 24 ∧
      |(r2 : ℝ) * √(q : ℝ) - 1| ≤ 1.501 * (1 / 2 ^ 20) ^ 2 + 1.002 * (a + w / 2) + 2.1 / 2 ^ 24 := by
  obtain ⟨k1, k2⟩ := range h1 h2
  obtain ⟨h, eh, hh⟩ := half_ok k1 k2
  obtain ⟨r0, e0, hr0⟩ := doc.normal q h1 h2
  obtain ⟨r1, e1, hr1⟩ := step_ok k1 k2 hr0 (by norm_num) (le_trans hh hqa) ha hqw hw'
  have hr1' : |(r1 : ℝ) * √(q : ℝ) - 1| ≤ 1 / 2 ^ 20 := by
    have : (1.501 : ℝ) * (3 / 8192) ^ 2 + 1.002 * (1 / 2 ^ 23 + 1 / 2 ^ 22 / 2) + 2.1 / 2 ^ 24 ≤ 1 / 2 ^ 20 := by norm_num
    linarith
  obtain ⟨r2, e2, hr2⟩ := step_ok k1 k2 hr1' (by norm_num) (le_trans hh hqa) ha hqw hw'
  exact ⟨r1, r2, by simp only [rsqrt_nr1, eh, e0, e1], by simp only [rsqrt_nr2, eh, e0, e1, e2], hr1, hr2⟩

theorem approximates_of {f : Fl} {q r : ℚ} {e : ℝ} (hq : (0 : ℝ) < q) (hf : f = .fin r) (h : |(r : ℝ) * √(q : ℝ) - 1| < e) : Approximates f q e := by
  have hs : 0 < √(q : ℝ) := Real.sqrt_pos.2 hq
  refine ⟨r, hf, ?_⟩
  have e1 : (r : ℝ) - 1 / √(q : ℝ) = (r * √(q : ℝ) - 1) * (1 / √(q : ℝ)) := by field_simp
  rw [e1, abs_mul, abs_of_pos (show 0 < 1 / √(q : ℝ) by positivity)]
  have : 0 < 1 / √(q : ℝ) := by positivity
  gcongr

end Verif.Rsqrt
