import Verif.Flt.Text
import Verif.Flt.Parse
import Verif.Num.Props

/-! Values of the types. -/
namespace Verif.Flt
open Verif.StrView (Chr)
open Verif.Num (value_cons value_acc value_ge)
open Verif.Num.Spec (IsDigit IsNumeral IsDecimal value)
open Verif.Rsqrt (halfEven halfEven_err)
open Spec

/-- The numbers of a type. -/
def Number (F : Format) (q : ℚ) : Prop := Digits 2 F.prec (F.emin ≤ ·) q ∧ q < 2 ^ F.emax

/-- `float`, `double` or `long double`. -/
def Known (F : Format) : Prop := F = single ∨ F = double ∨ F = extended

theorem number_nonneg {F : Format} {q : ℚ} (h : Number F q) : 0 ≤ q := by
  obtain ⟨⟨m, k, _, _, rfl⟩, _⟩ := h
  exact mul_nonneg (Nat.cast_nonneg m) (zpow_pos (by norm_num) k).le

/-- The decimal exponents have at most four digits. -/
theorem log_bound {F : Format} (hF : Known F) {q : ℚ} (hq : Number F q) : (Int.log 10 q).natAbs + 1 < 10 ^ 4 := by
  rcases eq_or_lt_of_le (number_nonneg hq) with rfl | h0
  · rw [Int.log_zero_right]; decide
  have hb : -16445 ≤ F.emin ∧ F.emax ≤ 16384 := by rcases hF with rfl | rfl | rfl <;> decide
  obtain ⟨⟨m, k, _, hk, rfl⟩, hlt⟩ := hq
  have h2 : (0 : ℚ) < 2 ^ k := zpow_pos (by norm_num) k
  have hm : (1 : ℚ) ≤ m := by
    have : 0 < m := Nat.pos_of_ne_zero (fun e => by rw [e] at h0; simp at h0)
    exact_mod_cast this
  push_cast at *
  have e8 : ∀ z : ℤ, (2 : ℚ) ^ (3 * z) = 8 ^ z := fun z => by rw [zpow_mul]; norm_num
  have up : Int.log 10 ((m : ℚ) * 2 ^ k) < 5462 := by
    rw [← Int.lt_zpow_iff_log_lt (by norm_num) h0]
    calc (m : ℚ) * 2 ^ k < 2 ^ F.emax := hlt
      _ ≤ 2 ^ (3 * 5462 : ℤ) := zpow_le_zpow_right₀ (by norm_num) (by omega)
      _ = 8 ^ (5462 : ℤ) := e8 5462
      _ ≤ ((10 : ℕ) : ℚ) ^ (5462 : ℤ) := by
        rw [show (5462 : ℤ) = ((5462 : ℕ) : ℤ) from rfl, zpow_natCast, zpow_natCast]
        exact pow_le_pow_left₀ (by norm_num) (by norm_num) _
  have down : -5482 ≤ Int.log 10 ((m : ℚ) * 2 ^ k) := by
    rw [← Int.zpow_le_iff_le_log (by norm_num) h0]
    calc ((10 : ℕ) : ℚ) ^ (-5482 : ℤ) ≤ 8 ^ (-5482 : ℤ) := by
          rw [show (-5482 : ℤ) = -((5482 : ℕ) : ℤ) from rfl, zpow_neg, zpow_neg, zpow_natCast, zpow_natCast]
          exact inv_anti₀ (by positivity) (pow_le_pow_left₀ (by norm_num) (by norm_num) _)
      _ = 2 ^ (3 * (-5482) : ℤ) := (e8 _).symm
      _ ≤ 2 ^ k := zpow_le_zpow_right₀ (by norm_num) (by omega)
      _ ≤ m * 2 ^ k := by nlinarith
  omega

/-! ### rounding to a type -/

theorem rounds_zero {b p : Nat} (hb : 1 ≤ b) {allowed : ℤ → Prop} {k : ℤ} (hk : allowed k) : Rounds b p allowed 0 0 := by
  have h0 : Digits b p allowed 0 := ⟨0, k, Nat.pow_pos (by omega), hk, by simp⟩
  refine ⟨h0, fun w _ => by simp, fun w _ hw e => ?_⟩
  simp at e
  exact absurd e hw

theorem nearest_rounds {F : Format} (hp : 1 ≤ F.prec) {q : ℚ} (hq : 0 ≤ q) : Rounds 2 F.prec (F.emin ≤ ·) q (nearest F q) := by
  rcases eq_or_lt_of_le hq with rfl | h0
  · have : nearest F 0 = 0 := by unfold nearest; rw [zero_div, halfEven_zero]; simp
    rw [this]
    exact rounds_zero (by omega) (le_refl F.emin)
  have h2 : (2 : ℚ) ≠ 0 := by norm_num
  have hl1 : (2 : ℚ) ^ Int.log 2 q ≤ q := by have := Int.zpow_log_le_self (b := 2) (by omega) h0; exact_mod_cast this
  have hl2 : q < (2 : ℚ) ^ (Int.log 2 q + 1) := by have := Int.lt_zpow_succ_log_self (b := 2) (by omega) q; exact_mod_cast this
  have hr := grid_rounds (b := 2) (p := F.prec) (by omega) hp (allowed := (F.emin ≤ ·)) (e := place F q) (q := q) (le_max_right _ _) (fun k hk => by show F.emin ≤ k + 1; have : F.emin ≤ k := hk; omega) hq
    (by
      push_cast
      rw [← zpow_natCast, ← zpow_add₀ h2]
      refine lt_of_lt_of_le hl2 (zpow_le_zpow_right₀ (by norm_num) ?_)
      have : Int.log 2 q - (F.prec - 1) ≤ place F q := le_max_left _ _
      omega)
    (by
      rcases le_total (Int.log 2 q - (F.prec - 1)) F.emin with h | h
      · right
        have : place F q = F.emin := max_eq_right h
        rw [this]
        exact fun k hk => hk
      · left
        have : place F q = Int.log 2 q - (F.prec - 1) := max_eq_left h
        rw [this]
        push_cast
        rw [← zpow_natCast, ← zpow_add₀ h2]
        have : ((F.prec - 1 : ℕ) : ℤ) + (Int.log 2 q - (F.prec - 1)) = Int.log 2 q := by omega
        rw [this]
        exact hl1)
  exact_mod_cast hr

theorem digits_nonneg {b p : Nat} {allowed : ℤ → Prop} {v : ℚ} (h : Digits b p allowed v) : 0 ≤ v := by
  obtain ⟨m, k, _, _, rfl⟩ := h
  exact mul_nonneg (Nat.cast_nonneg m) (zpow_nonneg (Nat.cast_nonneg b) k)

/-- For numbers that are not too small the relative error is at most `2^-prec`. -/
theorem nearest_err {F : Format} (hp : 1 ≤ F.prec) {q : ℚ} (hq : 2 ^ (F.emin + (F.prec - 1)) ≤ q) : |nearest F q - q| ≤ q / 2 ^ F.prec := by
  have h2 : (2 : ℚ) ≠ 0 := by norm_num
  have h0 : 0 < q := lt_of_lt_of_le (zpow_pos (by norm_num) _) hq
  have hl1 : (2 : ℚ) ^ Int.log 2 q ≤ q := by have := Int.zpow_log_le_self (b := 2) (by omega) h0; exact_mod_cast this
  have hlog : F.emin + (F.prec - 1) ≤ Int.log 2 q := by
    rw [← Int.zpow_le_iff_le_log (by norm_num) h0]; exact_mod_cast hq
  have hpl : place F q = Int.log 2 q - (F.prec - 1) := max_eq_left (by omega)
  unfold nearest
  rw [hpl]
  have ht : (0 : ℚ) < 2 ^ (Int.log 2 q - (F.prec - 1)) := zpow_pos (by norm_num) _
  have e : (halfEven (q / 2 ^ (Int.log 2 q - (F.prec - 1))) : ℚ) * 2 ^ (Int.log 2 q - (F.prec - 1)) - q =
      ((halfEven (q / 2 ^ (Int.log 2 q - (F.prec - 1))) : ℚ) - q / 2 ^ (Int.log 2 q - (F.prec - 1))) * 2 ^ (Int.log 2 q - (F.prec - 1)) := by
    rw [sub_mul, div_mul_cancel₀ _ ht.ne']
  rw [e, abs_mul, abs_of_pos ht]
  have h1 := mul_le_mul_of_nonneg_right (halfEven_err (q / 2 ^ (Int.log 2 q - (F.prec - 1)))) ht.le
  refine le_trans h1 ?_
  rw [le_div_iff₀ (by positivity)]
  have e2 : (2 : ℚ) ^ (Int.log 2 q - (F.prec - 1)) * 2 ^ F.prec = 2 ^ Int.log 2 q * 2 := by
    rw [← zpow_natCast, ← zpow_add₀ h2, ← zpow_add_one₀ h2]; congr 1; omega
  linarith

/-- Two different numbers with at most `p` digits are not too near. -/
theorem digits_gap {b p : Nat} (hb : 2 ≤ b) {allowed : ℤ → Prop} {v w : ℚ} (hv : Digits b p allowed v) (hw : Digits b p allowed w) (h : v < w) : v < (w - v) * b ^ p := by
  obtain ⟨m, k, hm, _, rfl⟩ := hv
  obtain ⟨n, j, hn, _, rfl⟩ := hw
  have hb0 : (0 : ℚ) < b := by exact_mod_cast (by omega : 0 < b)
  have hk : (0 : ℚ) < (b : ℚ) ^ k := zpow_pos hb0 k
  have hj : (0 : ℚ) < (b : ℚ) ^ j := zpow_pos hb0 j
  have hmq : (m : ℚ) < (b : ℚ) ^ p := by exact_mod_cast hm
  have hnq : (n : ℚ) < (b : ℚ) ^ p := by exact_mod_cast hn
  have hbp : (0 : ℚ) < (b : ℚ) ^ p := by positivity
  rcases le_total k j with hkj | hkj
  · obtain ⟨d, hd⟩ : ∃ d : ℕ, j = k + d := ⟨(j - k).toNat, by omega⟩
    have e : (n : ℚ) * (b : ℚ) ^ j = ((n * b ^ d : ℕ) : ℚ) * (b : ℚ) ^ k := by
      rw [hd, zpow_add₀ hb0.ne', zpow_natCast]; push_cast; ring
    rw [e] at h ⊢
    have h1 : (m : ℚ) < ((n * b ^ d : ℕ) : ℚ) := lt_of_mul_lt_mul_right h hk.le
    have h2 : m + 1 ≤ n * b ^ d := by exact_mod_cast h1
    have h3 : (m : ℚ) + 1 ≤ ((n * b ^ d : ℕ) : ℚ) := by exact_mod_cast h2
    have h4 : (b : ℚ) ^ k ≤ ((n * b ^ d : ℕ) : ℚ) * (b : ℚ) ^ k - m * (b : ℚ) ^ k := by nlinarith
    calc (m : ℚ) * (b : ℚ) ^ k < (b : ℚ) ^ p * (b : ℚ) ^ k := mul_lt_mul_of_pos_right hmq hk
      _ = (b : ℚ) ^ k * (b : ℚ) ^ p := mul_comm _ _
      _ ≤ _ := mul_le_mul_of_nonneg_right h4 hbp.le
  · obtain ⟨d, hd⟩ : ∃ d : ℕ, k = j + d := ⟨(k - j).toNat, by omega⟩
    have e : (m : ℚ) * (b : ℚ) ^ k = ((m * b ^ d : ℕ) : ℚ) * (b : ℚ) ^ j := by
      rw [hd, zpow_add₀ hb0.ne', zpow_natCast]; push_cast; ring
    have hvw := h
    rw [e] at h ⊢
    have h1 : ((m * b ^ d : ℕ) : ℚ) < n := lt_of_mul_lt_mul_right h hj.le
    have h2 : m * b ^ d + 1 ≤ n := by exact_mod_cast h1
    have h3 : ((m * b ^ d : ℕ) : ℚ) + 1 ≤ n := by exact_mod_cast h2
    have h4 : (b : ℚ) ^ j ≤ n * (b : ℚ) ^ j - ((m * b ^ d : ℕ) : ℚ) * (b : ℚ) ^ j := by nlinarith
    calc ((m * b ^ d : ℕ) : ℚ) * (b : ℚ) ^ j < n * (b : ℚ) ^ j := h
      _ < (b : ℚ) ^ p * (b : ℚ) ^ j := mul_lt_mul_of_pos_right hnq hj
      _ = (b : ℚ) ^ j * (b : ℚ) ^ p := mul_comm _ _
      _ ≤ _ := mul_le_mul_of_nonneg_right h4 hbp.le

/-- A decimal number with six digits comes back from the number of the type nearest to it. -/
theorem rounded_back {d x v : ℚ} (h0 : 0 < d) (hd : Digits 10 6 (fun _ => True) d) (hx : |x - d| ≤ d / 2 ^ 24) (hv : Rounded 6 x v) : v = d := by
  have h1 := hv.2.1 d hd
  rw [abs_sub_comm d x] at h1
  have h2 : |v - d| ≤ d / 2 ^ 23 := by
    calc |v - d| = |(v - x) + (x - d)| := by congr 1; ring
      _ ≤ |v - x| + |x - d| := abs_add_le _ _
      _ ≤ d / 2 ^ 24 + d / 2 ^ 24 := add_le_add (le_trans h1 hx) hx
      _ = d / 2 ^ 23 := by norm_num; ring
  rcases lt_trichotomy v d with h | h | h
  · have g := digits_gap (by omega) hv.1 hd h
    rw [abs_of_neg (by linarith)] at h2
    exfalso
    norm_num at g h2
    linarith
  · exact h
  · have g := digits_gap (by omega) hd hv.1 h
    rw [abs_of_pos (by linarith)] at h2
    exfalso
    norm_num at g h2
    linarith

/-- The relative error of `p` digits. -/
theorem rounded_err {q v : ℚ} (hq : 0 ≤ q) (hv : Rounded 6 q v) : |v - q| ≤ q / 200000 := by
  rcases eq_or_lt_of_le hq with rfl | h0
  · have := rounds_unique (by omega) hv rounded_zero
    rw [this]; simp
  obtain ⟨h1, h2, h3, h4⟩ := sci_ok 5 h0
  have h10 : (10 : ℚ) ≠ 0 := by norm_num
  have hl1 : (10 : ℚ) ^ Int.log 10 q ≤ q := by have := Int.zpow_log_le_self (b := 10) (by omega) h0; exact_mod_cast this
  have hl2 : q < (10 : ℚ) ^ (Int.log 10 q + 1) := by have := Int.lt_zpow_succ_log_self (b := 10) (by omega) q; exact_mod_cast this
  generalize Int.log 10 q = x at *
  have ht : (0 : ℚ) < 10 ^ (x - 5) := zpow_pos (by norm_num) _
  have e1 : (10 : ℚ) ^ 5 * 10 ^ (x - 5) = 10 ^ x := by rw [← zpow_natCast, ← zpow_add₀ h10]; congr 1; norm_num
  have e2 : (10 : ℚ) ^ 6 * 10 ^ (x - 5) = 10 ^ (x + 1) := by rw [← zpow_natCast, ← zpow_add₀ h10]; congr 1; norm_num; omega
  have hr := grid_rounds (b := 10) (p := 6) (by omega) (by omega) (allowed := fun _ => True) (e := x - 5) (q := q) trivial (fun _ _ => trivial) hq (by push_cast; rw [e2]; exact hl2) (.inl (by push_cast; rw [e1]; exact hl1))
  have := rounds_unique (by omega) hv hr
  rw [this]
  push_cast
  have e : (halfEven (q / 10 ^ (x - 5)) : ℚ) * 10 ^ (x - 5) - q = ((halfEven (q / 10 ^ (x - 5)) : ℚ) - q / 10 ^ (x - 5)) * 10 ^ (x - 5) := by
    rw [sub_mul, div_mul_cancel₀ _ ht.ne']
  rw [e, abs_mul, abs_of_pos ht]
  have h1 := mul_le_mul_of_nonneg_right (halfEven_err (q / 10 ^ (x - 5))) ht.le
  refine le_trans h1 ?_
  rw [le_div_iff₀ (by norm_num)]
  linarith

/-! ### texts -/

theorem pointed_mant (ip fp : List Chr) : IsMant (pointed false ip fp) ip fp := by
  unfold pointed
  by_cases h : fp = []
  · rw [if_pos ⟨h, rfl⟩, List.append_nil]; exact .inr ⟨rfl, h⟩
  · rw [if_neg (fun e => h e.1)]; exact .inl rfl

/-- What is written in the usual way is a decimal number. -/
theorem usual_dec {p : Nat} {l : List Chr} {v : ℚ} (h : Usual 101#8 p l v) : IsDec l v := by
  have h10 : (10 : ℚ) ≠ 0 := by norm_num
  rcases h with ⟨ip, fp, rfl, hf, _, ⟨n, hn⟩, hv, _⟩ | ⟨d, fp, ex, x, rfl, hd, _, hf, _, ⟨ds, rfl, hds, hl, _, hx⟩, hv, _⟩
  · refine ⟨pointed false ip fp, ip, fp, [], 0, by simp, pointed_mant ip fp, digs_append hn.2.1 hf, fun e => hn.1 (List.append_eq_nil_iff.1 e).1, .inl ⟨rfl, rfl⟩, ?_⟩
    rw [hv, zero_sub, zpow_neg, zpow_natCast, div_eq_mul_inv]
  · have hsg : IsSign [if x < 0 then 45#8 else 43#8] (decide (x < 0)) := by
      by_cases h : x < 0
      · rw [if_pos h, decide_eq_true h]; exact .inr (.inr ⟨rfl, rfl⟩)
      · rw [if_neg h, decide_eq_false h]; exact .inr (.inl ⟨rfl, rfl⟩)
    refine ⟨pointed false [d] fp, [d], fp, _, x, rfl, pointed_mant [d] fp, ?_, by simp, .inr ⟨101#8, _, ds, _, rfl, .inl rfl, hsg, ?_, hds, ?_⟩, hv⟩
    · intro c hc
      rcases List.mem_cons.1 hc with rfl | hc
      · exact hd
      · exact hf c hc
    · rintro rfl; simp at hl
    · rw [hx]
      by_cases h : x < 0
      · rw [if_pos (decide_eq_true h)]; omega
      · rw [if_neg (by simpa using h)]; omega

/-- Digits of the same number and value are the same. -/
theorem digs_eq : ∀ {a b : List Chr}, a.length = b.length → Digs a → Digs b → value 0 a = value 0 b → a = b := by
  intro a
  induction a with
  | nil => intro b hl _ _ _; exact (List.length_eq_zero_iff.1 hl.symm).symm
  | cons c t ih =>
    intro b hl ha hb hv
    cases b with
    | nil => cases hl
    | cons d u =>
      have hl' : t.length = u.length := by simpa using hl
      have ht : Digs t := fun x hx => ha x (List.mem_cons_of_mem _ hx)
      have hu : Digs u := fun x hx => hb x (List.mem_cons_of_mem _ hx)
      have hc := ha c List.mem_cons_self
      have hd := hb d List.mem_cons_self
      rw [value_cons, value_cons, value_acc, value_acc (10 * 0 + (d.toNat - 48)), hl'] at hv
      have l1 := value_lt ht
      have l2 := value_lt hu
      rw [hl'] at l1
      generalize hT : 10 ^ u.length = T at *
      have hT0 : 0 < T := by rw [← hT]; exact Nat.pow_pos (by omega)
      have e1 : (c.toNat - 48) = (d.toNat - 48) := by
        have a1 : ((10 * 0 + (c.toNat - 48)) * T + value 0 t) / T = c.toNat - 48 := by
          rw [Nat.mul_comm, Nat.mul_add_div hT0, Nat.div_eq_of_lt l1]; omega
        have a2 : ((10 * 0 + (d.toNat - 48)) * T + value 0 u) / T = d.toNat - 48 := by
          rw [Nat.mul_comm, Nat.mul_add_div hT0, Nat.div_eq_of_lt l2]; omega
        rw [← a1, hv, a2]
      unfold IsDigit at hc hd
      have e2 : c = d := BitVec.eq_of_toNat_eq (by omega)
      subst e2
      rw [ih hl' ht hu (by omega)]

/-- The digits without zeros at the end are determined by the value. -/
theorem no_zero_eq {ip fp ip' fp' : List Chr} (hf : Digs fp) (hf' : Digs fp') (hz : NoZeroAtEnd fp) (hz' : NoZeroAtEnd fp')
    (h : (value 0 (ip ++ fp) : ℚ) / 10 ^ fp.length = value 0 (ip' ++ fp') / 10 ^ fp'.length) : fp.length = fp'.length ∧ value 0 (ip ++ fp) = value 0 (ip' ++ fp') := by
  have last : ∀ {a b c d : List Chr}, Digs d → NoZeroAtEnd d → b.length < d.length → ((value 0 (a ++ b) : ℚ) / 10 ^ b.length = value 0 (c ++ d) / 10 ^ d.length) → False := by
    intro a b c d hd hz hl h
    obtain ⟨k, hk⟩ : ∃ k, d.length = b.length + (k + 1) := ⟨d.length - b.length - 1, by omega⟩
    rw [hk, pow_add, div_eq_div_iff (by positivity) (by positivity)] at h
    have h2 : (value 0 (a ++ b) : ℚ) * 10 ^ (k + 1) = value 0 (c ++ d) := by
      have : (10 : ℚ) ^ b.length ≠ 0 := by positivity
      apply mul_right_cancel₀ this
      linarith
    have h3 : value 0 (a ++ b) * 10 ^ (k + 1) = value 0 (c ++ d) := by exact_mod_cast h2
    have hne : d ≠ [] := by rintro rfl; simp at hl
    rw [← List.dropLast_append_getLast hne, ← List.append_assoc, value_append' (c ++ d.dropLast), List.length_singleton] at h3
    have hc : IsDigit (d.getLast hne) := hd _ (List.getLast_mem hne)
    have hv1 : value 0 [d.getLast hne] = (d.getLast hne).toNat - 48 := by rw [value_cons]; show 10 * 0 + _ = _; omega
    rw [hv1, Nat.pow_succ] at h3
    unfold IsDigit at hc
    have h48 : (d.getLast hne).toNat = 48 := by
      have : (value 0 (a ++ b) * (10 ^ k * 10)) % 10 = 0 := by rw [← Nat.mul_assoc]; omega
      omega
    apply hz
    rw [List.getLast?_eq_some_getLast hne]
    exact congrArg some (BitVec.eq_of_toNat_eq h48)
  have hl : fp.length = fp'.length := by
    rcases Nat.lt_trichotomy fp.length fp'.length with g | g | g
    · exact (last hf' hz' g h).elim
    · exact g
    · exact (last hf hz g h.symm).elim
  refine ⟨hl, ?_⟩
  rw [hl] at h
  have : (value 0 (ip ++ fp) : ℚ) = value 0 (ip' ++ fp') := (div_left_inj' (by positivity)).1 h
  exact_mod_cast this

theorem pow_between {x y : ℤ} {v : ℚ} (h1 : (10 : ℚ) ^ x ≤ v) (h2 : v < 10 ^ (y + 1)) : x ≤ y := by
  have := (zpow_lt_zpow_iff_right₀ (by norm_num : (1 : ℚ) < 10)).1 (lt_of_le_of_lt h1 h2)
  omega

theorem sci_between {d : Chr} {fp : List Chr} (hd : IsDigit d) (h0 : d ≠ 48#8) (hf : Digs fp) (x : ℤ) :
    (10 : ℚ) ^ x ≤ value 0 (d :: fp) * 10 ^ (x - fp.length) ∧ value 0 (d :: fp) * (10 : ℚ) ^ (x - fp.length) < 10 ^ (x + 1) := by
  have h10 : (10 : ℚ) ≠ 0 := by norm_num
  have hD : Digs (d :: fp) := fun c hc => by
    rcases List.mem_cons.1 hc with rfl | hc
    · exact hd
    · exact hf c hc
  have hlt := value_lt hD
  rw [List.length_cons] at hlt
  have hge : 10 ^ fp.length ≤ value 0 (d :: fp) := by
    rw [value_cons, value_acc, Nat.mul_zero, Nat.zero_add]
    have : 1 ≤ d.toNat - 48 := by
      unfold IsDigit at hd
      have : d.toNat ≠ 48 := fun e => h0 (BitVec.eq_of_toNat_eq e)
      omega
    have := Nat.mul_le_mul_right (10 ^ fp.length) this
    omega
  have ht : (0 : ℚ) < 10 ^ (x - fp.length) := zpow_pos (by norm_num) _
  constructor
  · calc (10 : ℚ) ^ x = ((10 ^ fp.length : ℕ) : ℚ) * 10 ^ (x - fp.length) := by push_cast; rw [← zpow_natCast, ← zpow_add₀ h10]; congr 1; omega
      _ ≤ _ := mul_le_mul_of_nonneg_right (by exact_mod_cast hge) ht.le
  · calc value 0 (d :: fp) * (10 : ℚ) ^ (x - fp.length) < ((10 ^ (fp.length + 1) : ℕ) : ℚ) * 10 ^ (x - fp.length) := mul_lt_mul_of_pos_right (by exact_mod_cast hlt) ht
      _ = _ := by push_cast; rw [← zpow_natCast, ← zpow_add₀ h10]; congr 1; push_cast; omega

theorem expo_unique {letter : Chr} {l l' : List Chr} {x : Int} (h : IsExpo letter l x) (h' : IsExpo letter l' x) : l = l' := by
  obtain ⟨ds, rfl, h1, h2, h3, h4⟩ := h
  obtain ⟨es, rfl, g1, g2, g3, g4⟩ := h'
  have go : ∀ {a b : List Chr}, Digs a → Digs b → 2 ≤ a.length → 2 ≤ b.length → (2 < b.length → b.head? ≠ some 48#8) → value 0 a = value 0 b → ¬ a.length < b.length := by
    intro a b ha hb la lb hh hv hlt
    have hge := value_ge b hb (by rintro rfl; simp at lb) (fun e => absurd e (hh (by omega))) (by omega)
    have hlt' := value_lt ha
    have : 10 ^ a.length ≤ 10 ^ (b.length - 1) := Nat.pow_le_pow_right (by omega) (by omega)
    omega
  have hl : ds.length = es.length := by
    have := go h1 g1 h2 g2 g3 (by rw [h4, g4])
    have := go g1 h1 g2 h2 h3 (by rw [h4, g4])
    omega
  rw [digs_eq hl h1 g1 (by rw [h4, g4])]

/-- There is one usual way. -/
theorem usual_unique {letter : Chr} {p : Nat} {l l' : List Chr} {v : ℚ} (h : Usual letter p l v) (h' : Usual letter p l' v) : l = l' := by
  have h10 : (10 : ℚ) ≠ 0 := by norm_num
  rcases h with ⟨ip, fp, rfl, hf, hz, ⟨n, hn⟩, hv, hr, hr2⟩ | ⟨d, fp, ex, x, rfl, hd, hd0, hf, hz, hx, hv, hr⟩ <;>
    rcases h' with ⟨ip', fp', rfl, hf', hz', ⟨n', hn'⟩, hv', gr, gr2⟩ | ⟨d', fp', ex', x', rfl, hd', hd0', hf', hz', hx', hv', gr⟩
  · obtain ⟨e1, e2⟩ := no_zero_eq hf hf' hz hz' (hv.symm.trans hv')
    rw [value_append', value_append', e1] at e2
    have l1 := value_lt hf
    have l2 := value_lt hf'
    rw [e1] at l1
    have hT0 : 0 < 10 ^ fp'.length := Nat.pow_pos (by omega)
    generalize 10 ^ fp'.length = T at *
    have ei : value 0 ip = value 0 ip' := by
      have a1 : (value 0 ip * T + value 0 fp) / T = value 0 ip := by rw [Nat.mul_comm, Nat.mul_add_div hT0, Nat.div_eq_of_lt l1]; omega
      have a2 : (value 0 ip' * T + value 0 fp') / T = value 0 ip' := by rw [Nat.mul_comm, Nat.mul_add_div hT0, Nat.div_eq_of_lt l2]; omega
      rw [← a1, e2, a2]
    rw [ei] at e2
    have hfe := digs_eq e1 hf hf' (by omega)
    have hnn : n = n' := by rw [← hn.2.2.2, ← hn'.2.2.2, ei]
    subst hnn
    have hie : ip = ip' := Num.C48_decimal_unique ip ip' n (.inl ⟨by omega, by simpa using hn⟩) (.inl ⟨by omega, by simpa using hn'⟩)
    rw [hie, hfe]
  · exfalso
    have h0 : v ≠ 0 := by
      rw [hv']
      exact (lt_of_lt_of_le (zpow_pos (by norm_num) x') (sci_between hd' hd0' hf' x').1).ne'
    rcases gr with g | g
    · rcases hr with e | e
      · exact h0 e
      · linarith
    · linarith
  · exfalso
    have h0 : v ≠ 0 := by
      rw [hv]
      exact (lt_of_lt_of_le (zpow_pos (by norm_num) x) (sci_between hd hd0 hf x).1).ne'
    rcases hr with g | g
    · rcases gr with e | e
      · exact h0 e
      · linarith
    · linarith
  · have b1 := sci_between hd hd0 hf x
    have b2 := sci_between hd' hd0' hf' x'
    rw [← hv] at b1
    rw [← hv'] at b2
    have hxx : x = x' := le_antisymm (pow_between b1.1 b2.2) (pow_between b2.1 b1.2)
    subst hxx
    have hq : (value 0 ([d] ++ fp) : ℚ) / 10 ^ fp.length = value 0 ([d'] ++ fp') / 10 ^ fp'.length := by
      have e := hv.symm.trans hv'
      rw [zpow_sub₀ h10, zpow_sub₀ h10, zpow_natCast, zpow_natCast] at e
      have hne : (10 : ℚ) ^ x ≠ 0 := (zpow_pos (by norm_num) x).ne'
      apply mul_right_cancel₀ hne
      show ((value 0 (d :: fp) : ℕ) : ℚ) / 10 ^ fp.length * 10 ^ x = ((value 0 (d' :: fp') : ℕ) : ℚ) / 10 ^ fp'.length * 10 ^ x
      rw [div_mul_eq_mul_div, div_mul_eq_mul_div, mul_div_assoc, mul_div_assoc]
      exact e
    obtain ⟨e1, e2⟩ := no_zero_eq hf hf' hz hz' hq
    have hD : ∀ {d : Chr} {fp : List Chr}, IsDigit d → Digs fp → Digs (d :: fp) := fun hd hf c hc => by
      rcases List.mem_cons.1 hc with rfl | hc
      · exact hd
      · exact hf c hc
    have := digs_eq (a := d :: fp) (b := d' :: fp') (by simp [e1]) (hD hd hf) (hD hd' hf') e2
    cases this
    rw [expo_unique hx hx']

end Verif.Flt
