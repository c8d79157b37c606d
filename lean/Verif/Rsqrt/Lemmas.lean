import Verif.Rsqrt.Spec
import Mathlib.Tactic.Linarith
import Mathlib.Tactic.Positivity
import Mathlib.Tactic.NormNum
import Mathlib.Tactic.FieldSimp
import Mathlib.Tactic.Ring

namespace Verif.Rsqrt
open Spec

theorem halfEven_err (s : ℚ) : |(halfEven s : ℚ) - s| ≤ 1 / 2 := by
  have h1 := Int.floor_le s
  have h2 := Int.lt_floor_add_one s
  unfold halfEven
  rw [abs_le]
  split_ifs <;> push_cast <;> constructor <;> linarith

theorem place_err (q : ℚ) : (2 : ℚ) ^ place q / 2 ≤ |q| / 2 ^ 24 + 1 / 2 ^ 150 ∨ q = 0 := by
  by_cases hq : q = 0
  · exact .inr hq
  refine .inl ?_
  have hpos : 0 < |q| := abs_pos.2 hq
  have hlog := Int.zpow_log_le_self (R := ℚ) (b := 2) (by norm_num) hpos
  unfold place
  rcases max_choice (Int.log 2 |q|) (-126) with h | h <;> rw [h]
  · rw [zpow_sub₀ (by norm_num)]
    have : (2 : ℚ) ^ Int.log 2 |q| ≤ |q| := by exact_mod_cast hlog
    have h0 : (0 : ℚ) ≤ 1 / 2 ^ 150 := by positivity
    have : (2 : ℚ) ^ Int.log 2 |q| / 2 ^ (23 : ℤ) / 2 ≤ |q| / 2 ^ 24 := by
      have e : (2 : ℚ) ^ Int.log 2 |q| / 2 ^ (23 : ℤ) / 2 = (2 : ℚ) ^ Int.log 2 |q| / 2 ^ 24 := by
        norm_num
        ring
      rw [e]
      gcongr
    linarith
  · have h0 : (0 : ℚ) ≤ |q| / 2 ^ 24 := by positivity
    have : (2 : ℚ) ^ ((-126 : ℤ) - 23) / 2 = 1 / 2 ^ 150 := by norm_num
    linarith

/-- Rounding: a relative error of `2^-24`, or an absolute one of `2^-150`. -/
theorem round_err (q : ℚ) (hq : |q| ≤ 2 ^ 127) : ∃ v : ℚ, round q = .fin v ∧ |v - q| ≤ |q| / 2 ^ 24 + 1 / 2 ^ 150 := by
  have hp : (0 : ℚ) < (2 : ℚ) ^ place q := zpow_pos (by norm_num) _
  have hv : |(halfEven (q / 2 ^ place q) * 2 ^ place q : ℚ) - q| ≤ |q| / 2 ^ 24 + 1 / 2 ^ 150 := by
    have e : (halfEven (q / 2 ^ place q) * 2 ^ place q : ℚ) - q = ((halfEven (q / 2 ^ place q) : ℚ) - q / 2 ^ place q) * 2 ^ place q := by
      field_simp
    rw [e, abs_mul, abs_of_pos hp]
    rcases place_err q with h | rfl
    · have := halfEven_err (q / 2 ^ place q)
      calc _ ≤ 1 / 2 * (2 : ℚ) ^ place q := by gcongr
        _ = (2 : ℚ) ^ place q / 2 := by ring
        _ ≤ _ := h
    · have : halfEven (0 / 2 ^ place 0) = 0 := by simp [halfEven]
      rw [this]
      simp
  refine ⟨_, ?_, hv⟩
  unfold round
  rw [if_neg]
  rw [not_le]
  have : |(halfEven (q / 2 ^ place q) * 2 ^ place q : ℚ)| ≤ |q| + (|q| / 2 ^ 24 + 1 / 2 ^ 150) := by
    have := abs_sub_abs_le_abs_sub (halfEven (q / 2 ^ place q) * 2 ^ place q : ℚ) q
    linarith
  have h2 : (2 : ℚ) ^ 127 + (2 ^ 127 / 2 ^ 24 + 1 / 2 ^ 150) < 2 ^ 128 := by norm_num
  have h3 : |q| / 2 ^ 24 ≤ (2 : ℚ) ^ 127 / 2 ^ 24 := by gcongr
  linarith

/-- The same, in the real numbers. -/
theorem round_err_real (q : ℚ) (hq : |(q : ℝ)| ≤ 2 ^ 127) : ∃ v : ℚ, round q = .fin v ∧ |(v : ℝ) - q| ≤ |(q : ℝ)| / 2 ^ 24 + 1 / 2 ^ 150 := by
  obtain ⟨v, h1, h2⟩ := round_err q (by exact_mod_cast hq)
  refine ⟨v, h1, ?_⟩
  have h3 : ((|v - q| : ℚ) : ℝ) ≤ ((|q| / 2 ^ 24 + 1 / 2 ^ 150 : ℚ) : ℝ) := Rat.cast_le.2 h2
  push_cast at h3
  exact h3

set_option maxHeartbeats 1000000 in
/-- The error of one iteration, without units: `z` is the old approximation times the root, `H` half the number over the number, and so on. -/
theorem iteration {z H T p d M S D a w : ℝ} (hz : |z - 1| ≤ D) (hD : D ≤ 1 / 2000) (hH : |H - 1 / 2| ≤ a) (ha : a ≤ 1 / 2 ^ 23) (hT : |T - z ^ 2| ≤ z ^ 2 / 2 ^ 24 + w)
    (hw : w ≤ 1 / 2 ^ 22) (hp : |p - H * T| ≤ |H * T| / 2 ^ 24 + 1 / 2 ^ 150) (hd : |d - (1 / 2 - p)| ≤ |1 / 2 - p| / 2 ^ 24 + 1 / 2 ^ 150)
    (hM : |M - z * d| ≤ |z * d| / 2 ^ 24 + 1 / 2 ^ 80) (hS : |S - (z + M)| ≤ |z + M| / 2 ^ 24 + 1 / 2 ^ 80) :
    |S - 1| ≤ 1.501 * D ^ 2 + 1.002 * (a + w / 2) + 2.1 / 2 ^ 24 := by
  have hz' := abs_le.1 hz
  have hH' := abs_le.1 hH
  have hD0 : 0 ≤ D := le_trans (abs_nonneg _) hz
  have ha0 : 0 ≤ a := le_trans (abs_nonneg _) hH
  have hz2 : z ^ 2 ≤ 1.0011 := by nlinarith
  have hz2' : 0.998 ≤ z ^ 2 := by nlinarith
  have hw0 : -(1 / 2 ^ 23) ≤ w := by
    have := le_trans (abs_nonneg _) hT
    have h2 : z ^ 2 / 2 ^ 24 ≤ 1.0011 / 2 ^ 24 := by gcongr
    have : (1.0011 : ℝ) / 2 ^ 24 ≤ 1 / 2 ^ 23 := by norm_num
    linarith
  have hT' := abs_le.1 hT
  have hTu : |T| ≤ 1.0012 := by
    rw [abs_le]
    have h2 : z ^ 2 / 2 ^ 24 ≤ 1.0011 / 2 ^ 24 := by gcongr
    have h3 : (1.0011 : ℝ) / 2 ^ 24 + 1 / 2 ^ 22 ≤ 0.0001 := by norm_num
    constructor <;> linarith
  have hHu : |H| ≤ 0.5001 := by
    rw [abs_le]
    have h3 : (1 : ℝ) / 2 ^ 23 ≤ 0.0001 := by norm_num
    constructor <;> linarith
  have hHT : |H * T| ≤ 0.501 := by
    rw [abs_mul]
    calc |H| * |T| ≤ 0.5001 * 1.0012 := by gcongr
      _ ≤ 0.501 := by norm_num
  -- the error of `p`
  have hP : |p - z ^ 2 / 2| ≤ 1.0012 * a + w / 2 + 1.01 / 2 ^ 24 := by
    have e : p - z ^ 2 / 2 = (p - H * T) + ((H - 1 / 2) * T + (T - z ^ 2) / 2) := by ring
    have h1 : |(H - 1 / 2) * T| ≤ 1.0012 * a := by
      rw [abs_mul]
      calc |H - 1 / 2| * |T| ≤ a * 1.0012 := by gcongr
        _ = _ := by ring
    have h2 : |(T - z ^ 2) / 2| ≤ (1.0011 / 2 ^ 24 + w) / 2 := by
      rw [abs_div, abs_of_pos (show (0 : ℝ) < 2 by norm_num)]
      have h2 : z ^ 2 / 2 ^ 24 ≤ 1.0011 / 2 ^ 24 := by gcongr
      linarith
    have h3 : |p - H * T| ≤ 0.501 / 2 ^ 24 + 1 / 2 ^ 150 := le_trans hp (by gcongr)
    rw [e]
    have h4 := abs_add_le (p - H * T) ((H - 1 / 2) * T + (T - z ^ 2) / 2)
    have h5 := abs_add_le ((H - 1 / 2) * T) ((T - z ^ 2) / 2)
    have h6 : (0.501 : ℝ) / 2 ^ 24 + 1 / 2 ^ 150 + 1.0011 / 2 ^ 24 / 2 ≤ 1.01 / 2 ^ 24 := by norm_num
    linarith
  have hPs : |p - z ^ 2 / 2| ≤ 0.000001 := by
    have : (1.0012 : ℝ) * (1 / 2 ^ 23) + 1 / 2 ^ 22 / 2 + 1.01 / 2 ^ 24 ≤ 0.000001 := by norm_num
    linarith
  have hhalf : |1 / 2 - z ^ 2 / 2| ≤ 0.00051 := by
    rw [abs_le]
    constructor <;> nlinarith
  have hdp : |1 / 2 - p| ≤ 0.00052 := by
    have e : 1 / 2 - p = (1 / 2 - z ^ 2 / 2) - (p - z ^ 2 / 2) := by ring
    rw [e]
    have := abs_sub (1 / 2 - z ^ 2 / 2) (p - z ^ 2 / 2)
    linarith
  have hde : |d - (1 / 2 - p)| ≤ 0.00053 / 2 ^ 24 := by
    have h1 : |1 / 2 - p| / 2 ^ 24 ≤ 0.00052 / 2 ^ 24 := by gcongr
    have h2 : (0.00052 : ℝ) / 2 ^ 24 + 1 / 2 ^ 150 ≤ 0.00053 / 2 ^ 24 := by norm_num
    linarith
  have hzu : |z| ≤ 1.0005 := by
    rw [abs_le]
    constructor <;> linarith
  have hdu : |d| ≤ 0.00053 := by
    have e : d = (d - (1 / 2 - p)) + (1 / 2 - p) := by ring
    rw [e]
    have := abs_add_le (d - (1 / 2 - p)) (1 / 2 - p)
    have h2 : (0.00053 : ℝ) / 2 ^ 24 ≤ 0.00001 := by norm_num
    linarith
  have hzd : |z * d| ≤ 0.00054 := by
    rw [abs_mul]
    calc |z| * |d| ≤ 1.0005 * 0.00053 := by gcongr
      _ ≤ _ := by norm_num
  have hMe : |M - z * d| ≤ 0.00055 / 2 ^ 24 := by
    have h1 : |z * d| / 2 ^ 24 ≤ 0.00054 / 2 ^ 24 := by gcongr
    have h2 : (0.00054 : ℝ) / 2 ^ 24 + 1 / 2 ^ 80 ≤ 0.00055 / 2 ^ 24 := by norm_num
    linarith
  have hzM : |z + M| ≤ 1.0012 := by
    have e : z + M = z + ((M - z * d) + z * d) := by ring
    rw [e]
    have h1 := abs_add_le z ((M - z * d) + z * d)
    have h2 := abs_add_le (M - z * d) (z * d)
    have h3 : (0.00055 : ℝ) / 2 ^ 24 ≤ 0.0001 := by norm_num
    linarith
  have hSe : |S - (z + M)| ≤ 1.0013 / 2 ^ 24 := by
    have h1 : |z + M| / 2 ^ 24 ≤ 1.0012 / 2 ^ 24 := by gcongr
    have h2 : (1.0012 : ℝ) / 2 ^ 24 + 1 / 2 ^ 80 ≤ 1.0013 / 2 ^ 24 := by norm_num
    linarith
  have e : S - 1 = (S - (z + M)) + (M - z * d) + z * (d - (1 / 2 - p)) + (-(z * (p - z ^ 2 / 2))) + (z * (3 - z ^ 2) / 2 - 1) := by ring
  have h1 : |z * (d - (1 / 2 - p))| ≤ 1.0005 * (0.00053 / 2 ^ 24) := by
    rw [abs_mul]
    gcongr
  have h2 : |-(z * (p - z ^ 2 / 2))| ≤ 1.0005 * (1.0012 * a + w / 2 + 1.01 / 2 ^ 24) := by
    rw [abs_neg, abs_mul]
    gcongr
  have h3 : |z * (3 - z ^ 2) / 2 - 1| ≤ 1.501 * D ^ 2 := by
    have e : z * (3 - z ^ 2) / 2 - 1 = -((z - 1) ^ 2 * ((z + 2) / 2)) := by ring
    rw [e, abs_neg, abs_mul, abs_of_nonneg (sq_nonneg _)]
    have h4 : (z - 1) ^ 2 ≤ D ^ 2 := sq_le_sq.2 (by rwa [abs_of_nonneg hD0])
    have h5 : |(z + 2) / 2| ≤ 1.501 := by
      rw [abs_le]
      constructor <;> linarith
    calc (z - 1) ^ 2 * |(z + 2) / 2| ≤ D ^ 2 * 1.501 := by gcongr
      _ = _ := by ring
  rw [e]
  have k1 := abs_add_le ((S - (z + M)) + (M - z * d) + z * (d - (1 / 2 - p)) + (-(z * (p - z ^ 2 / 2)))) (z * (3 - z ^ 2) / 2 - 1)
  have k2 := abs_add_le ((S - (z + M)) + (M - z * d) + z * (d - (1 / 2 - p))) (-(z * (p - z ^ 2 / 2)))
  have k3 := abs_add_le ((S - (z + M)) + (M - z * d)) (z * (d - (1 / 2 - p)))
  have k4 := abs_add_le (S - (z + M)) (M - z * d)
  have hnum : (1.0013 : ℝ) / 2 ^ 24 + 0.00055 / 2 ^ 24 + 1.0005 * (0.00053 / 2 ^ 24) + 1.0005 * (1.01 / 2 ^ 24) + 0.001 / 2 ^ 23 ≤ 2.1 / 2 ^ 24 := by norm_num
  have hwa : 1.0005 * (1.0012 * a + w / 2) ≤ 1.002 * (a + w / 2) + 0.001 / 2 ^ 23 := by linarith
  linarith

end Verif.Rsqrt
