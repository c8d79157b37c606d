import Verif.Flt.Model
import Verif.Flt.Spec
import Verif.Rsqrt.Lemmas
import Mathlib.Tactic.Linarith
import Mathlib.Tactic.FieldSimp
import Mathlib.Tactic.Positivity
import Mathlib.Tactic.Ring

/-! Rounding. -/
namespace Verif.Flt
open Verif.Rsqrt (halfEven halfEven_err)
open Spec

theorem halfEven_unique {s : ℚ} {n : ℤ} (h : |s - n| < 1 / 2) : halfEven s = n := by
  have h1 := halfEven_err s
  have h2 : |((halfEven s - n : ℤ) : ℚ)| < 1 := by
    push_cast
    have := abs_add_le ((halfEven s : ℚ) - s) (s - n)
    have e : (halfEven s : ℚ) - s + (s - n) = halfEven s - n := by ring
    rw [e] at this
    linarith
  have h3 : |halfEven s - n| < 1 := by exact_mod_cast h2
  have := Int.abs_lt_one_iff.1 h3
  omega

theorem halfEven_nearest (s : ℚ) (n : ℤ) : |(halfEven s : ℚ) - s| ≤ |n - s| := by
  by_contra h
  push Not at h
  have h1 := halfEven_err s
  have : halfEven s = n := halfEven_unique (by rw [abs_sub_comm]; linarith)
  rw [this] at h
  exact lt_irrefl _ h

theorem halfEven_tie {s : ℚ} {n : ℤ} (hne : n ≠ halfEven s) (h : |(n : ℚ) - s| = |(halfEven s : ℚ) - s|) : |(n : ℚ) - halfEven s| = 1 ∧ halfEven s % 2 = 0 := by
  have h1 := halfEven_err s
  have h2 : (1 : ℚ) ≤ |(n : ℚ) - halfEven s| := by
    have : (1 : ℤ) ≤ |n - halfEven s| := Int.one_le_abs (by omega)
    exact_mod_cast this
  have h3 : |(n : ℚ) - halfEven s| ≤ |(n : ℚ) - s| + |(halfEven s : ℚ) - s| := by
    rw [abs_sub_comm (halfEven s : ℚ) s]
    exact abs_sub_le _ _ _
  have h4 : |(halfEven s : ℚ) - s| = 1 / 2 := by linarith
  refine ⟨by linarith, ?_⟩
  have hf := Int.floor_le s
  have hf' := Int.lt_floor_add_one s
  unfold halfEven at h4 ⊢
  split
  · rename_i hc
    rw [if_pos hc, abs_sub_comm, abs_of_nonneg (by linarith)] at h4
    linarith
  · rename_i hc
    rw [if_neg hc] at h4
    split
    · rename_i hd
      rw [if_pos hd, abs_of_nonneg (by push_cast; linarith)] at h4
      push_cast at h4
      linarith
    · split
      · assumption
      · omega

theorem halfEven_le {s : ℚ} {n : ℤ} (h : s ≤ n) : halfEven s ≤ n := by
  have h1 := abs_le.1 (halfEven_err s)
  have : ((halfEven s : ℤ) : ℚ) < ((n + 1 : ℤ) : ℚ) := by push_cast; linarith [h1.2]
  have : halfEven s < n + 1 := by exact_mod_cast this
  omega

theorem le_halfEven {s : ℚ} {n : ℤ} (h : (n : ℚ) ≤ s) : n ≤ halfEven s := by
  have h1 := abs_le.1 (halfEven_err s)
  have : ((n : ℤ) : ℚ) < ((halfEven s + 1 : ℤ) : ℚ) := by push_cast; linarith [h1.1]
  have : n < halfEven s + 1 := by exact_mod_cast this
  omega

theorem halfEven_int (n : ℤ) : halfEven (n : ℚ) = n := halfEven_unique (by simp)

/-- Rounding to a multiple of a power is rounding to the number of digits, if the number is large enough for the power. -/
theorem grid_rounds {b p : ℕ} (hb : 2 ≤ b) (hp : 1 ≤ p) {allowed : ℤ → Prop} {e : ℤ} {q : ℚ} (he : allowed e) (hup : ∀ k, allowed k → allowed (k + 1)) (hq : 0 ≤ q)
    (hhi : q < (b : ℚ) ^ p * (b : ℚ) ^ e) (hlo : (b : ℚ) ^ (p - 1) * (b : ℚ) ^ e ≤ q ∨ ∀ k, allowed k → e ≤ k) : Rounds b p allowed q (halfEven (q / (b : ℚ) ^ e) * (b : ℚ) ^ e) := by
  have hb0 : (0 : ℚ) < b := by exact_mod_cast (by omega : 0 < b)
  have hb1 : (1 : ℚ) < b := by exact_mod_cast (by omega : 1 < b)
  have ht : (0 : ℚ) < (b : ℚ) ^ e := zpow_pos hb0 e
  have hs0 : 0 ≤ q / (b : ℚ) ^ e := div_nonneg hq ht.le
  have hs1 : q / (b : ℚ) ^ e ≤ ((b ^ p : ℕ) : ℤ) := by
    rw [div_le_iff₀ ht]; push_cast; exact hhi.le
  have hqs : q = q / (b : ℚ) ^ e * (b : ℚ) ^ e := by field_simp
  have hn0 : 0 ≤ halfEven (q / (b : ℚ) ^ e) := le_halfEven (by exact_mod_cast hs0)
  have hn1 := halfEven_le hs1
  have hn2 := halfEven_nearest (q / (b : ℚ) ^ e)
  have hn3 := fun n => halfEven_tie (s := q / (b : ℚ) ^ e) (n := n)
  generalize q / (b : ℚ) ^ e = s at *
  generalize halfEven s = n at *
  generalize htt : (b : ℚ) ^ e = t at *
  have dist : ∀ x : ℚ, |x * t - q| = |x - s| * t := fun x => by
    rw [hqs, ← sub_mul, abs_mul, abs_of_pos ht]
  have near : ∀ w, Digits b p allowed w → (∃ N : ℤ, w = N * t) ∨ |n * t - q| < |w - q| := by
    rintro w ⟨m, k, hm, hk, rfl⟩
    by_cases h : e ≤ k
    · refine .inl ⟨m * b ^ (k - e).toNat, ?_⟩
      push_cast
      rw [← htt, mul_assoc, ← zpow_natCast, ← zpow_add₀ hb0.ne', show ((k - e).toNat : ℤ) + e = k by omega]
    · rcases hlo with h' | h'
      swap
      · exact absurd (h' k hk) h
      right
      have h1 : (m : ℚ) * (b : ℚ) ^ k < (b : ℚ) ^ (p - 1) * t := by
        have hm' : (m : ℚ) < (b : ℚ) ^ p := by exact_mod_cast hm
        calc (m : ℚ) * (b : ℚ) ^ k < (b : ℚ) ^ p * (b : ℚ) ^ k := mul_lt_mul_of_pos_right hm' (zpow_pos hb0 k)
          _ ≤ (b : ℚ) ^ p * (b : ℚ) ^ (e - 1) := mul_le_mul_of_nonneg_left (zpow_le_zpow_right₀ hb1.le (by omega)) (pow_pos hb0 p).le
          _ = (b : ℚ) ^ (p - 1) * t := by
            rw [← htt, zpow_sub₀ hb0.ne', zpow_one, ← Nat.sub_add_cancel hp, pow_succ]
            simp only [Nat.add_sub_cancel]
            field_simp
      have h2 := dist n
      have h3 := dist (((b ^ (p - 1) : ℕ) : ℤ) : ℚ)
      have h4 := mul_le_mul_of_nonneg_right (hn2 ((b ^ (p - 1) : ℕ) : ℤ)) ht.le
      rw [← h2, ← h3] at h4
      refine lt_of_le_of_lt h4 ?_
      push_cast
      rw [abs_of_nonpos (by linarith), abs_of_nonpos (by linarith)]
      linarith
  have hnn : ((n.toNat : ℕ) : ℚ) = n := by
    have : ((n.toNat : ℕ) : ℤ) = n := Int.toNat_of_nonneg hn0
    exact_mod_cast this
  refine ⟨?_, ?_, ?_⟩
  · by_cases h : n = ((b ^ p : ℕ) : ℤ)
    · refine ⟨b ^ (p - 1), e + 1, Nat.pow_lt_pow_right (by omega) (by omega), hup e he, ?_⟩
      rw [h, zpow_add₀ hb0.ne', htt, zpow_one]
      push_cast
      rw [← Nat.sub_add_cancel hp, pow_succ]
      simp only [Nat.add_sub_cancel]
      ring
    · exact ⟨n.toNat, e, by omega, he, by rw [hnn, htt]⟩
  · intro w hw
    rcases near w hw with ⟨N, rfl⟩ | h
    · rw [dist, dist]
      exact mul_le_mul_of_nonneg_right (hn2 N) ht.le
    · exact h.le
  · intro w hw hne heq
    rcases near w hw with ⟨N, rfl⟩ | h
    · rw [dist, dist] at heq
      obtain ⟨h1, h2⟩ := hn3 N (fun h => hne (by rw [h])) (mul_right_cancel₀ ht.ne' heq)
      refine ⟨(n / 2).toNat, e, ?_, ?_⟩
      · rw [← sub_mul, abs_mul, h1, abs_of_pos ht, one_mul, htt]
      · have : ((2 * (n / 2).toNat : ℕ) : ℤ) = n := by omega
        have : ((2 * (n / 2).toNat : ℕ) : ℚ) = n := by exact_mod_cast this
        rw [this, htt]
    · exact absurd heq h.ne'

/-- Rounding is determined. -/
theorem rounds_unique {b p : ℕ} (hb : 2 ≤ b) {allowed : ℤ → Prop} {q v w : ℚ} (hv : Rounds b p allowed q v) (hw : Rounds b p allowed q w) : v = w := by
  by_contra h
  have h1 := hv.2.1 w hw.1
  have h2 := hw.2.1 v hv.1
  obtain ⟨m, k, h3, h4⟩ := hv.2.2 w hw.1 (Ne.symm h) (le_antisymm h2 h1)
  obtain ⟨m', k', h5, h6⟩ := hw.2.2 v hv.1 h (le_antisymm h1 h2)
  have hb0 : (0 : ℚ) < b := by exact_mod_cast (by omega : 0 < b)
  have hk : (b : ℚ) ^ k = (b : ℚ) ^ k' := by rw [← h3, ← h5, abs_sub_comm]
  have hpos : (0 : ℚ) < (b : ℚ) ^ k := zpow_pos hb0 k
  rw [← hk] at h6
  rw [h4, h6, ← sub_mul, abs_mul, abs_of_pos hpos] at h3
  have h7 : |((2 * m' : ℕ) : ℚ) - ((2 * m : ℕ) : ℚ)| = 1 := by
    have := mul_right_cancel₀ hpos.ne' (h3.trans (one_mul _).symm)
    exact this
  have h8 : |((2 * m' : ℕ) : ℤ) - ((2 * m : ℕ) : ℤ)| = 1 := by exact_mod_cast h7
  rcases abs_eq (by omega : (0 : ℤ) ≤ 1) |>.1 h8 with h9 | h9 <;> omega

/-- Rounding keeps the order. -/
theorem rounds_mono {b p : ℕ} (hb : 2 ≤ b) {allowed : ℤ → Prop} {q r v w : ℚ} (h : q ≤ r) (hv : Rounds b p allowed q v) (hw : Rounds b p allowed r w) : v ≤ w := by
  by_contra hc
  push Not at hc
  rcases eq_or_lt_of_le h with rfl | hlt
  · exact hc.ne (rounds_unique hb hw hv)
  have h1 := hv.2.1 w hw.1
  have h2 := hw.2.1 v hv.1
  have h3 : q ≥ (v + w) / 2 := by
    by_contra h4
    push Not at h4
    rw [abs_of_pos (by linarith)] at h1
    rcases abs_cases (w - q) with ⟨e, _⟩ | ⟨e, _⟩ <;> rw [e] at h1 <;> linarith
  have h5 : r ≤ (v + w) / 2 := by
    by_contra h4
    push Not at h4
    rw [abs_of_neg (by linarith : w - r < 0)] at h2
    rcases abs_cases (v - r) with ⟨e, _⟩ | ⟨e, _⟩ <;> rw [e] at h2 <;> linarith
  linarith

/-- A number of that kind is not changed. -/
theorem rounds_self {b p : ℕ} {allowed : ℤ → Prop} {q v : ℚ} (hq : Digits b p allowed q) (hv : Rounds b p allowed q v) : v = q := by
  have := hv.2.1 q hq
  rw [sub_self, abs_zero] at this
  have := abs_nonpos_iff.1 this
  linarith

end Verif.Flt
