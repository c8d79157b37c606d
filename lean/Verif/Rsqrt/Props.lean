import Verif.Rsqrt.Steps

/-! Property theorems for the approximate inverse square roots: C93. -/
namespace Verif.Rsqrt
open Spec

/-- **C93.** For every positive normal number, `intrin_rsqrt` is within 0.000367 of the inverse square root, `intrin_rsqrt_nr1` within `2^-20` and `intrin_rsqrt_nr2`
within `2^-21`, relatively. -/
theorem C93_error_partial (hw : Fl → Fl) (doc : Documented hw) (q : ℚ) (h1 : 2 ^ (-126 : ℤ) ≤ q) (h2 : q < 2 ^ 128) :
    Approximates (rsqrt hw (.fin q)) q 0.000367 ∧ Approximates (rsqrt_nr1 hw (.fin q)) q (1 / 2 ^ 20) ∧
      Approximates (rsqrt_nr2 hw (.fin q)) q (1 / 2 ^ 21) := by
  obtain ⟨k1, k2⟩ := range h1 h2
  have hq : (0 : ℝ) < q := lt_of_lt_of_le (by norm_num) k1
  obtain ⟨r0, e0, hr0⟩ := doc.normal q h1 h2
  have ka : 1 / 2 ^ 25 + 1 / 2 ^ 150 / (q : ℝ) ≤ 1 / 2 ^ 25 + 1 / 2 ^ 24 := by
    have : 1 / 2 ^ 150 / (q : ℝ) ≤ 1 / 2 ^ 150 / (1 / 2 ^ 126) := by gcongr
    norm_num at this ⊢
    linarith
  have kw : (q : ℝ) / 2 ^ 150 ≤ 1 / 2 ^ 22 := by
    have : (q : ℝ) / 2 ^ 150 ≤ 2 ^ 128 / 2 ^ 150 := by gcongr
    norm_num at this ⊢
    linarith
  obtain ⟨r1, r2, e1, e2, hr1, hr2⟩ := nr_ok doc h1 h2 ka (by norm_num) kw le_rfl
  exact ⟨approximates_of hq e0 (lt_of_le_of_lt hr0 (by norm_num)), approximates_of hq e1 (lt_of_le_of_lt hr1 (by norm_num)),
    approximates_of hq e2 (lt_of_le_of_lt hr2 (by norm_num))⟩

/-- **C93.** For numbers that are neither very small nor very large the iterations are better by one bit each. -/
theorem C93_error_moderate (hw : Fl → Fl) (doc : Documented hw) (q : ℚ) (h1 : 2 ^ (-100 : ℤ) ≤ q) (h2 : q ≤ 2 ^ 100) :
    Approximates (rsqrt_nr1 hw (.fin q)) q (1 / 2 ^ 21) ∧ Approximates (rsqrt_nr2 hw (.fin q)) q (1 / 2 ^ 22) := by
  have k1 : 2 ^ (-126 : ℤ) ≤ q := le_trans (by norm_num) h1
  have k2 : q < 2 ^ 128 := lt_of_le_of_lt h2 (by norm_num)
  have l1 : (1 : ℝ) / 2 ^ 100 ≤ q := by
    have h3 := (Rat.cast_le (K := ℝ)).2 h1
    have e : (2 : ℝ) ^ (-100 : ℤ) = 1 / 2 ^ 100 := by norm_num
    push_cast at h3
    rw [e] at h3
    exact h3
  have l2 : (q : ℝ) ≤ 2 ^ 100 := by exact_mod_cast h2
  have hq : (0 : ℝ) < q := lt_of_lt_of_le (by norm_num) l1
  have ka : 1 / 2 ^ 25 + 1 / 2 ^ 150 / (q : ℝ) ≤ 1 / 2 ^ 25 + 1 / 2 ^ 50 := by
    have : 1 / 2 ^ 150 / (q : ℝ) ≤ 1 / 2 ^ 150 / (1 / 2 ^ 100) := by gcongr
    norm_num at this ⊢
    linarith
  have kw : (q : ℝ) / 2 ^ 150 ≤ 1 / 2 ^ 50 := by
    have : (q : ℝ) / 2 ^ 150 ≤ 2 ^ 100 / 2 ^ 150 := by gcongr
    norm_num at this ⊢
    linarith
  obtain ⟨r1, r2, e1, e2, hr1, hr2⟩ := nr_ok doc k1 k2 ka (by norm_num) kw (by norm_num)
  exact ⟨approximates_of hq e1 (lt_of_le_of_lt hr1 (by norm_num)), approximates_of hq e2 (lt_of_le_of_lt hr2 (by norm_num))⟩

/-! ### Zero, denormal numbers and infinity -/

theorem halfEven_nonneg {s : ℚ} (h : 0 ≤ s) : 0 ≤ halfEven s := by
  have := Int.floor_nonneg.2 h
  unfold halfEven
  split_ifs <;> omega

theorem round_nonneg {q : ℚ} (h : 0 ≤ q) : round q = .inf false ∨ ∃ v, round q = .fin v ∧ 0 ≤ v := by
  have hp : (0 : ℚ) < (2 : ℚ) ^ place q := zpow_pos (by norm_num) _
  have h1 : (0 : ℚ) ≤ halfEven (q / 2 ^ place q) := by exact_mod_cast halfEven_nonneg (div_nonneg h hp.le)
  have h2 : (0 : ℚ) ≤ halfEven (q / 2 ^ place q) * (2 : ℚ) ^ place q := mul_nonneg h1 hp.le
  unfold round
  by_cases hc : 2 ^ 128 ≤ |(halfEven (q / 2 ^ place q) * (2 : ℚ) ^ place q)|
  · left
    rw [if_pos hc]
    simp [not_lt.2 h2]
  · right
    rw [if_neg hc]
    exact ⟨_, rfl, h2⟩

theorem step_inf {q : ℚ} (h : 0 ≤ q) : step (mul (.fin q) (.fin (1 / 2))) (.inf false) = .nan := by
  have hm : mul (.fin q) (.fin (1 / 2)) = round (q * (1 / 2)) := rfl
  rw [hm]
  rcases round_nonneg (q := q * (1 / 2)) (by positivity) with e | ⟨v, e, hv⟩ <;> rw [e]
  · rfl
  · by_cases h0 : v = 0
    · simp [step, mul, h0, sub, add, neg]
    · simp [step, mul, h0, not_lt.2 hv, sub, add, neg]

theorem step_nan (h : Fl) : step h .nan = .nan := by
  cases h <;> rfl

/-- **C93** fails for zero and for every denormal number: `intrin_rsqrt` gives infinity, the iterations make it "not a number", where `1 / sqrt` of zero is infinity. -/
theorem C93_zero_is_nan (hw : Fl → Fl) (doc : Documented hw) (q : ℚ) (h0 : 0 ≤ q) (h1 : q < 2 ^ (-126 : ℤ)) :
    rsqrt hw (.fin q) = .inf false ∧ rsqrt_nr1 hw (.fin q) = .nan ∧ rsqrt_nr2 hw (.fin q) = .nan := by
  have e := doc.small q h0 h1
  refine ⟨e, ?_, ?_⟩
  · simp only [rsqrt_nr1, e, step_inf h0]
  · simp only [rsqrt_nr2, e, step_inf h0, step_nan]

/-- **C93** fails for infinity: `1 / sqrt` of it is zero. -/
theorem C93_infinity_is_nan (hw : Fl → Fl) (doc : Documented hw) :
    rsqrt hw (.inf false) = .fin 0 ∧ rsqrt_nr1 hw (.inf false) = .nan ∧ rsqrt_nr2 hw (.inf false) = .nan := by
  have hr : round 0 = .fin 0 := by simp [round, halfEven]
  refine ⟨doc.infinity, ?_, ?_⟩ <;>
    simp [rsqrt_nr1, rsqrt_nr2, doc.infinity, step, mul, hr, sub, add, neg]

/-! ### Cases -/

/-- There is such an instruction: one that answers with a rational number between the two bounds. -/
theorem documented_exists : ∃ hw, Documented hw := by
  classical
  have key : ∀ q : ℚ, ∃ r : ℚ, 2 ^ (-126 : ℤ) ≤ q → |(r : ℝ) * √(q : ℝ) - 1| ≤ 3 / 8192 := by
    intro q
    by_cases h : 2 ^ (-126 : ℤ) ≤ q
    · have hq : (0 : ℝ) < q := by exact_mod_cast lt_of_lt_of_le (by norm_num : (0 : ℚ) < 2 ^ (-126 : ℤ)) h
      have hs : 0 < √(q : ℝ) := Real.sqrt_pos.2 hq
      obtain ⟨r, hr1, hr2⟩ := exists_rat_btwn (show 1 / √(q : ℝ) < (1 + 3 / 8192) / √(q : ℝ) by gcongr; norm_num)
      refine ⟨r, fun _ => ?_⟩
      rw [div_lt_iff₀ hs] at hr1
      rw [lt_div_iff₀ hs] at hr2
      rw [abs_le]
      constructor <;> linarith
    · exact ⟨0, fun h' => absurd h' h⟩
  choose g hg using key
  refine ⟨fun x => match x with
    | .nan => .nan
    | .inf false => .fin 0
    | .inf true => .nan
    | .fin q => if 2 ^ (-126 : ℤ) ≤ q then .fin (g q) else if 0 ≤ q then .inf false else .nan, ?_, ?_, rfl, ?_, rfl⟩
  · intro q h1 _
    exact ⟨g q, by simp only [if_pos h1], hg q h1⟩
  · intro q h0 h1
    simp only [if_neg (not_le.2 h1), if_pos h0]
  · intro q h
    have hn : (0 : ℚ) < 2 ^ (-126 : ℤ) := zpow_pos (by norm_num) _
    simp only [if_neg (show ¬ 2 ^ (-126 : ℤ) ≤ q by linarith), if_neg (show ¬ 0 ≤ q by linarith)]

example (hw : Fl → Fl) (doc : Documented hw) : Approximates (rsqrt_nr2 hw (.fin 2)) 2 (1 / 2 ^ 22) := (C93_error_moderate hw doc 2 (by norm_num) (by norm_num)).2
example (hw : Fl → Fl) (doc : Documented hw) : Approximates (rsqrt_nr1 hw (.fin (2 ^ 127))) (2 ^ 127) (1 / 2 ^ 20) :=
  (C93_error_partial hw doc _ (by norm_num) (by norm_num)).2.1
example (hw : Fl → Fl) (doc : Documented hw) : rsqrt_nr1 hw (.fin 0) = .nan := (C93_zero_is_nan hw doc 0 le_rfl (by norm_num)).2.1

/-- Rounding, against known values: 0.1f, a tie, the largest denormal number's half, and an overflow. -/
example : round (1 / 10) = .fin (13421773 / 134217728) := by decide +kernel
example : round (2 ^ 24 + 1) = .fin (2 ^ 24) ∧ round (2 ^ 24 + 3) = .fin (2 ^ 24 + 4) := by decide +kernel
example : round (1 / 2 ^ 150) = .fin 0 ∧ round (3 / 2 ^ 150) = .fin (1 / 2 ^ 148) := by decide +kernel
example : round (2 ^ 128 - 2 ^ 103) = .inf false ∧ round (-(2 ^ 128)) = .inf true := by decide +kernel
/-- From 181/256 for two: the iteration. -/
example : ∃ r, step (mul (.fin 2) (.fin (1 / 2))) (.fin (181 / 256)) = .fin r ∧ r ^ 2 * 2 < 1 ∧ 1 - r ^ 2 * 2 < 1 / 2 ^ 20 := ⟨11863283 / 16777216, by decide +kernel⟩

end Verif.Rsqrt
