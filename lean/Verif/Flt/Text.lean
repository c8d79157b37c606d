import Verif.Flt.Round
import Verif.Num.Lemmas

/-! The texts printed. -/
namespace Verif.Flt
open Verif.StrView (Chr)
open Verif.Num (numeral numeral_ok numeral_length value_nil value_cons value_append value_acc)
open Verif.Num.Spec (IsDigit IsNumeral value)
open Verif.Rsqrt (halfEven halfEven_err)
open Spec

/-! ### digits -/

theorem value_lt {l : List Chr} (h : Digs l) : value 0 l < 10 ^ l.length := by
  induction l with
  | nil => decide
  | cons c t ih =>
    rw [value_cons, value_acc, List.length_cons, Nat.pow_succ]
    have h1 := h c List.mem_cons_self
    have h2 := ih (fun d hd => h d (List.mem_cons_of_mem _ hd))
    unfold IsDigit at h1
    have : (10 * 0 + (c.toNat - 48)) * 10 ^ t.length ≤ 9 * 10 ^ t.length := Nat.mul_le_mul_right _ (by omega)
    omega

theorem digs_append {a b : List Chr} (ha : Digs a) (hb : Digs b) : Digs (a ++ b) := fun c hc => (List.mem_append.1 hc).elim (ha c) (hb c)

theorem digs_zeros (n : Nat) : Digs (List.replicate n 48#8) := fun c hc => by
  rw [(List.mem_replicate.1 hc).2]; decide

theorem value_zeros (n : Nat) : value 0 (List.replicate n 48#8) = 0 := by
  induction n with
  | zero => rfl
  | succ n ih => rw [List.replicate_succ, value_cons]; exact ih

theorem value_append' (a b : List Chr) : value 0 (a ++ b) = value 0 a * 10 ^ b.length + value 0 b := by rw [value_append, value_acc]

theorem pad_length (n : Nat) (l : List Chr) : (pad n l).length = max n l.length := by
  unfold pad; rw [List.length_append, List.length_replicate]; omega

theorem pad_digs {n : Nat} {l : List Chr} (h : Digs l) : Digs (pad n l) := digs_append (digs_zeros _) h

theorem pad_value (n : Nat) (l : List Chr) : value 0 (pad n l) = value 0 l := by
  unfold pad; rw [value_append', value_zeros, Nat.zero_mul, Nat.zero_add]

theorem numeral_ge {l : List Chr} {n k : Nat} (h : IsNumeral l n) (hn : 10 ^ k ≤ n) : k + 1 ≤ l.length := by
  have := value_lt h.2.1
  rw [h.2.2.2] at this
  have := (Nat.pow_lt_pow_iff_right (by omega : 1 < 10)).1 (Nat.lt_of_le_of_lt hn this)
  omega

theorem numeral_head {l : List Chr} {n : Nat} (h : IsNumeral l n) (hn : 0 < n) : l.head? ≠ some 48#8 := by
  intro e
  have h1 := h.2.2.1 e
  obtain ⟨_, _, _, h4⟩ := h
  match l, h1 with
  | [c], _ =>
    cases Option.some.inj e
    rw [value_cons] at h4
    have : value (10 * 0 + ((48#8).toNat - 48)) [] = 0 := rfl
    omega

/-! ### zeros at the end -/

theorem strip_spec (l : List Chr) : ∃ k, strip l ++ List.replicate k 48#8 = l ∧ NoZeroAtEnd (strip l) := by
  unfold strip NoZeroAtEnd
  have key : ∀ r : List Chr, ∃ k, List.replicate k 48#8 ++ r.dropWhile (· == 48#8) = r ∧ (r.dropWhile (· == 48#8)).head? ≠ some 48#8 := by
    intro r
    induction r with
    | nil => exact ⟨0, rfl, by simp⟩
    | cons c t ih =>
      by_cases h : c = 48#8
      · obtain ⟨k, h1, h2⟩ := ih
        rw [List.dropWhile_cons_of_pos (by simp [h])]
        exact ⟨k + 1, by rw [List.replicate_succ, List.cons_append, h1, h], h2⟩
      · rw [List.dropWhile_cons_of_neg (by simp [h])]
        exact ⟨0, rfl, by simpa using h⟩
  obtain ⟨k, h1, h2⟩ := key l.reverse
  refine ⟨k, ?_, ?_⟩
  · have := congrArg List.reverse h1
    rw [List.reverse_append, List.reverse_replicate, List.reverse_reverse] at this
    exact this
  · rw [List.getLast?_reverse]; exact h2

theorem strip_digs {l : List Chr} (h : Digs l) : Digs (strip l) := by
  obtain ⟨k, h1, _⟩ := strip_spec l
  intro c hc
  exact h c (by rw [← h1]; exact List.mem_append_left _ hc)

theorem strip_length (l : List Chr) : (strip l).length ≤ l.length := by
  obtain ⟨k, h1, _⟩ := strip_spec l
  have := congrArg List.length h1
  rw [List.length_append] at this
  omega

/-- The value does not change. -/
theorem strip_value (ip fp : List Chr) : (value 0 (ip ++ strip fp) : ℚ) / 10 ^ (strip fp).length = value 0 (ip ++ fp) / 10 ^ fp.length := by
  obtain ⟨k, h1, _⟩ := strip_spec fp
  have e : value 0 (ip ++ fp) = value 0 (ip ++ strip fp) * 10 ^ k := by
    conv => lhs; rw [← h1, ← List.append_assoc, value_append', value_zeros, List.length_replicate]
    rfl
  have el : fp.length = (strip fp).length + k := by
    have := congrArg List.length h1
    rw [List.length_append, List.length_replicate] at this
    omega
  rw [e, el, pow_add]
  push_cast
  field_simp

/-! ### `%e` -/

theorem sci_ok (P : Nat) {q : ℚ} (hq : 0 < q) :
    10 ^ P ≤ (sci P q).1 ∧ (sci P q).1 < 10 ^ (P + 1) ∧ Rounded (P + 1) q ((sci P q).1 * 10 ^ ((sci P q).2 - P)) ∧ ((sci P q).2 = Int.log 10 q ∨ (sci P q).2 = Int.log 10 q + 1) := by
  have h10 : (10 : ℚ) ≠ 0 := by norm_num
  have hl1 : (10 : ℚ) ^ Int.log 10 q ≤ q := by have := Int.zpow_log_le_self (b := 10) (by omega) hq; exact_mod_cast this
  have hl2 : q < (10 : ℚ) ^ (Int.log 10 q + 1) := by have := Int.lt_zpow_succ_log_self (b := 10) (by omega) q; exact_mod_cast this
  generalize hx : Int.log 10 q = x at *
  have ht : (0 : ℚ) < 10 ^ (x - P) := zpow_pos (by norm_num) _
  have e1 : (10 : ℚ) ^ P * 10 ^ (x - P) = 10 ^ x := by rw [← zpow_natCast, ← zpow_add₀ h10]; congr 1; omega
  have e2 : (10 : ℚ) ^ (P + 1) * 10 ^ (x - P) = 10 ^ (x + 1) := by rw [← zpow_natCast, ← zpow_add₀ h10]; congr 1; push_cast; omega
  have hr : Rounded (P + 1) q (halfEven (q / 10 ^ (x - P)) * 10 ^ (x - P)) := by
    have := grid_rounds (b := 10) (p := P + 1) (by omega) (by omega) (allowed := fun _ => True) (e := x - P) (q := q) trivial (fun _ _ => trivial) hq.le
      (by push_cast; rw [e2]; exact hl2) (.inl (by push_cast; rw [e1]; exact hl1))
    exact_mod_cast this
  have hn1 : ((10 ^ P : ℕ) : ℤ) ≤ halfEven (q / 10 ^ (x - P)) := le_halfEven (by rw [le_div_iff₀ ht]; push_cast; rw [e1]; exact hl1)
  have hn2 : halfEven (q / 10 ^ (x - P)) ≤ ((10 ^ (P + 1) : ℕ) : ℤ) := halfEven_le (by rw [div_le_iff₀ ht]; push_cast; rw [e2]; exact hl2.le)
  have hd : sci P q = if (halfEven (q / 10 ^ (x - P))).toNat = 10 ^ (P + 1) then (10 ^ P, x + 1) else ((halfEven (q / 10 ^ (x - P))).toNat, x) := by
    unfold sci; rw [if_neg hq.ne', hx]
  rw [hd]
  generalize halfEven (q / 10 ^ (x - P)) = n at *
  have hp : 0 < 10 ^ P := Nat.pow_pos (by omega)
  by_cases h : n.toNat = 10 ^ (P + 1)
  · rw [if_pos h]
    refine ⟨le_refl _, Nat.pow_lt_pow_right (by omega) (by omega), ?_, .inr rfl⟩
    have e3 : ((10 ^ P : ℕ) : ℚ) * 10 ^ (x + 1 - P) = (n : ℚ) * 10 ^ (x - P) := by
      have : (n : ℤ) = ((10 ^ (P + 1) : ℕ) : ℤ) := by omega
      rw [this]
      push_cast
      rw [e2, ← zpow_natCast, ← zpow_add₀ h10]
      congr 1; omega
    show Rounded (P + 1) q (((10 ^ P : ℕ) : ℚ) * 10 ^ (x + 1 - P))
    rw [e3]; exact hr
  · rw [if_neg h]
    refine ⟨?_, ?_, ?_, .inl rfl⟩
    · show 10 ^ P ≤ n.toNat
      omega
    · show n.toNat < 10 ^ (P + 1)
      omega
    · have : ((n.toNat : ℕ) : ℤ) = n := Int.toNat_of_nonneg (by omega)
      have : ((n.toNat : ℕ) : ℚ) = n := by exact_mod_cast this
      show Rounded (P + 1) q ((n.toNat : ℚ) * 10 ^ (x - P))
      rw [this]; exact hr

/-- `%f` with the digits of `%e` prints the same digits. -/
theorem fixed_sci {P : Nat} (hP : 1 ≤ P) {q : ℚ} (hq : 0 < q) {k : Nat} (hk : (k : ℤ) = P - 1 - (sci (P - 1) q).2) : (halfEven (q * 10 ^ k)).toNat = (sci (P - 1) q).1 := by
  obtain ⟨p, rfl⟩ : ∃ p, P = p + 1 := ⟨P - 1, by omega⟩
  rw [Nat.add_sub_cancel] at hk ⊢
  have h10 : (10 : ℚ) ≠ 0 := by norm_num
  have hd : sci p q = if (halfEven (q / 10 ^ (Int.log 10 q - p))).toNat = 10 ^ (p + 1) then (10 ^ p, Int.log 10 q + 1) else ((halfEven (q / 10 ^ (Int.log 10 q - p))).toNat, Int.log 10 q) := by
    unfold sci; rw [if_neg hq.ne']
  by_cases h : (halfEven (q / 10 ^ (Int.log 10 q - p))).toNat = 10 ^ (p + 1)
  · rw [if_pos h] at hd
    rw [hd] at hk ⊢
    dsimp only at hk ⊢
    have herr := halfEven_err (q / 10 ^ (Int.log 10 q - p))
    have hn : halfEven (q / 10 ^ (Int.log 10 q - p)) = ((10 ^ (p + 1) : ℕ) : ℤ) := by
      have : 0 < 10 ^ (p + 1) := Nat.pow_pos (by omega)
      omega
    rw [hn] at herr
    have e : q / 10 ^ (Int.log 10 q - p) = q * 10 ^ k * 10 := by
      rw [div_eq_mul_inv, ← zpow_neg, mul_assoc, ← zpow_natCast, ← zpow_add_one₀ h10]
      congr 2; push_cast at hk; omega
    rw [e] at herr
    have : halfEven (q * 10 ^ k) = ((10 ^ p : ℕ) : ℤ) := by
      apply halfEven_unique
      have e2 : ((10 ^ (p + 1) : ℕ) : ℤ) - q * 10 ^ k * 10 = -((q * 10 ^ k - (((10 ^ p : ℕ) : ℤ) : ℚ)) * 10) := by push_cast; rw [pow_succ]; ring
      rw [e2, abs_neg, abs_mul, abs_of_pos (by norm_num : (0 : ℚ) < 10)] at herr
      linarith
    rw [this]; rfl
  · rw [if_neg h] at hd
    rw [hd] at hk ⊢
    dsimp only at hk ⊢
    have e : q * 10 ^ k = q / 10 ^ (Int.log 10 q - p) := by
      rw [div_eq_mul_inv, ← zpow_neg, ← zpow_natCast]
      congr 2; push_cast at hk; omega
    rw [e]

/-! ### the parts -/

theorem fixedParts_ok (P : Nat) (q : ℚ) {n : Nat} (hn : (halfEven (q * 10 ^ P)).toNat = n) :
    Digs (fixedParts P q).1 ∧ Digs (fixedParts P q).2 ∧ (∃ m, IsNumeral (fixedParts P q).1 m) ∧ (fixedParts P q).2.length = P ∧ value 0 ((fixedParts P q).1 ++ (fixedParts P q).2) = n ∧
      (fixedParts P q).1.length + P = max (P + 1) (numeral false 10 n).length := by
  unfold fixedParts
  rw [hn]
  have hN := numeral_ok n
  have hd := pad_digs (n := P + 1) hN.2.1
  have hl := pad_length (P + 1) (numeral false 10 n)
  have hv := pad_value (P + 1) (numeral false 10 n)
  rw [hN.2.2.2] at hv
  have ht : Digs ((pad (P + 1) (numeral false 10 n)).take ((pad (P + 1) (numeral false 10 n)).length - P)) := fun c hc => hd c (List.mem_of_mem_take hc)
  refine ⟨ht, fun c hc => hd c (List.mem_of_mem_drop hc), ?_, ?_, ?_, ?_⟩
  · refine ⟨_, ?_, ht, ?_, rfl⟩
    · intro e
      have := congrArg List.length e
      rw [List.length_take, hl] at this
      simp at this
      omega
    · intro e
      show (List.take _ _).length = 1
      rw [List.length_take, hl]
      rcases Nat.lt_or_ge P (numeral false 10 n).length with h | h
      · -- a prefix of the numeral
        have hpad : pad (P + 1) (numeral false 10 n) = numeral false 10 n := by
          unfold pad; rw [show P + 1 - (numeral false 10 n).length = 0 by omega]; rfl
        have hhead : (numeral false 10 n).head? = some 48#8 := by
          rw [hpad] at e
          rw [← e, List.head?_take, if_neg (by omega)]
        have := hN.2.2.1 hhead
        omega
      · omega
  · rw [List.length_drop, hl]; omega
  · show value 0 (List.take _ _ ++ List.drop _ _) = n
    rw [List.take_append_drop, hv]
  · rw [List.length_take, hl]; omega

theorem sciParts_ok (P : Nat) {q : ℚ} (hq : 0 < q) :
    ∃ d fp, sciParts P q = ([d], fp) ∧ IsDigit d ∧ d ≠ 48#8 ∧ Digs fp ∧ fp.length = P ∧ value 0 (d :: fp) = (sci P q).1 := by
  obtain ⟨h1, h2, _, _⟩ := sci_ok P hq
  have hN := numeral_ok (sci P q).1
  have hl : (numeral false 10 (sci P q).1).length = P + 1 := by
    have := numeral_ge hN h1
    have := numeral_length hN (by omega) h2
    omega
  have hh := numeral_head hN (Nat.lt_of_lt_of_le (Nat.pow_pos (by omega)) h1)
  unfold sciParts
  have hpad : pad (P + 1) (numeral false 10 (sci P q).1) = numeral false 10 (sci P q).1 := by
    unfold pad; rw [show P + 1 - (numeral false 10 (sci P q).1).length = 0 by omega]; rfl
  rw [hpad]
  obtain ⟨_, hd, _, hv⟩ := hN
  generalize numeral false 10 (sci P q).1 = l at *
  match l, hl with
  | d :: fp, hl =>
    exact ⟨d, fp, rfl, hd d List.mem_cons_self, fun e => hh (by rw [e]; rfl), fun c hc => hd c (List.mem_cons_of_mem _ hc), by simpa using hl, hv⟩

theorem expo_ok (caps : Bool) (x : Int) : IsExpo (if caps then 69#8 else 101#8) (expo caps x) x ∧ ∀ k, 2 ≤ k → x.natAbs < 10 ^ k → (expo caps x).length ≤ k + 2 := by
  have hN := numeral_ok x.natAbs
  refine ⟨⟨pad 2 (numeral false 10 x.natAbs), rfl, pad_digs hN.2.1, by rw [pad_length]; omega, ?_, by rw [pad_value, hN.2.2.2]⟩, ?_⟩
  · intro h
    rw [pad_length] at h
    unfold pad
    rw [show 2 - (numeral false 10 x.natAbs).length = 0 by omega]
    intro e
    have := hN.2.2.1 e
    omega
  · intro k hk hx
    unfold expo
    rw [List.length_append, pad_length]
    have := numeral_length hN (k := k) (by omega) hx
    simp only [List.length_cons, List.length_nil]
    omega

theorem point_eq (alt : Bool) (p : List Chr × List Chr) : point alt p = pointed alt p.1 p.2 := rfl

theorem pointed_length (alt : Bool) (ip fp : List Chr) : (pointed alt ip fp).length ≤ ip.length + 1 + fp.length := by
  unfold pointed
  rw [List.length_append]
  split
  · simp only [List.length_nil]; omega
  · rw [List.length_cons]; omega

/-! ### `%g` -/

theorem zpow_lt10 {a b : ℤ} (h : a < b) : (10 : ℚ) ^ a < 10 ^ b := zpow_lt_zpow_right₀ (by norm_num) h
theorem zpow_le10 {a b : ℤ} (h : a ≤ b) : (10 : ℚ) ^ a ≤ 10 ^ b := zpow_le_zpow_right₀ (by norm_num) h

theorem rounded_zero {p : Nat} : Rounded p 0 0 := by
  have h0 : Digits 10 p (fun _ => True) 0 := ⟨0, 0, Nat.pow_pos (by omega), trivial, by simp⟩
  refine ⟨h0, fun w _ => by simp, fun w _ hw e => ?_⟩
  simp at e
  exact absurd e hw

theorem halfEven_zero : halfEven 0 = 0 := by have := halfEven_int 0; simpa using this

/-- The value printed for a positive number: bounds. -/
theorem sci_range {P : Nat} (hP : 1 ≤ P) {q : ℚ} (hq : 0 < q) :
    (10 : ℚ) ^ (sci (P - 1) q).2 ≤ (sci (P - 1) q).1 * 10 ^ ((sci (P - 1) q).2 - ((P - 1 : ℕ) : ℤ)) ∧ (sci (P - 1) q).1 * (10 : ℚ) ^ ((sci (P - 1) q).2 - ((P - 1 : ℕ) : ℤ)) < 10 ^ ((sci (P - 1) q).2 + 1) := by
  have h10 : (10 : ℚ) ≠ 0 := by norm_num
  obtain ⟨h1, h2, _, _⟩ := sci_ok (P - 1) hq
  rw [Nat.sub_add_cancel hP] at h2
  constructor
  · have : ((10 ^ (P - 1) : ℕ) : ℚ) ≤ (sci (P - 1) q).1 := by exact_mod_cast h1
    calc (10 : ℚ) ^ (sci (P - 1) q).2 = ((10 ^ (P - 1) : ℕ) : ℚ) * 10 ^ ((sci (P - 1) q).2 - ((P - 1 : ℕ) : ℤ)) := by
          push_cast; rw [← zpow_natCast, ← zpow_add₀ h10]; congr 1; omega
      _ ≤ _ := mul_le_mul_of_nonneg_right this (zpow_pos (by norm_num) _).le
  · have : ((sci (P - 1) q).1 : ℚ) < ((10 ^ P : ℕ) : ℚ) := by exact_mod_cast h2
    calc (sci (P - 1) q).1 * (10 : ℚ) ^ ((sci (P - 1) q).2 - ((P - 1 : ℕ) : ℤ)) < ((10 ^ P : ℕ) : ℚ) * 10 ^ ((sci (P - 1) q).2 - ((P - 1 : ℕ) : ℤ)) :=
          mul_lt_mul_of_pos_right this (zpow_pos (by norm_num) _)
      _ = _ := by push_cast; rw [← zpow_natCast, ← zpow_add₀ h10]; congr 1; omega

theorem tenth4 : (1 : ℚ) / 10 ^ 4 = 10 ^ (-4 : ℤ) := by norm_num

/-- `%g` prints the rounded number in the usual way; how long that is. -/
theorem textG_ok (caps alt : Bool) (P : Nat) {q : ℚ} (hq : 0 ≤ q) : IsGeneral (if caps then 69#8 else 101#8) alt P (textG caps alt P q) q ∧
    ∀ k, 2 ≤ k → (Int.log 10 q).natAbs + 1 < 10 ^ k → (textG caps alt P q).length ≤ max P 1 + 5 + k := by
  have h10 : (10 : ℚ) ≠ 0 := by norm_num
  unfold IsGeneral textG
  have e0 : (if P = 0 then 1 else P) = max P 1 := by split <;> omega
  rw [e0]
  obtain ⟨p, hp, hP⟩ : ∃ p, p = max P 1 ∧ 1 ≤ p := ⟨_, rfl, by omega⟩
  rw [← hp]
  clear e0 hp P
  rename' p => P
  dsimp only
  rw [point_eq, point_eq]
  rcases eq_or_lt_of_le hq with rfl | hq
  · -- zero
    have hs : sci (P - 1) 0 = (0, 0) := by unfold sci; rw [if_pos rfl]
    rw [hs]
    dsimp only
    rw [if_pos (show (-4 : ℤ) ≤ 0 ∧ (0 : ℤ) < P from ⟨by omega, by omega⟩)]
    obtain ⟨h1, h2, h3, h4, h5, h6⟩ := fixedParts_ok ((P : ℤ) - 1 - 0).toNat 0 (n := 0) (by rw [zero_mul, halfEven_zero]; rfl)
    constructor
    · refine ⟨0, rounded_zero, ?_, ?_⟩
      · rintro rfl
        refine .inl ⟨_, _, rfl, strip_digs h2, (strip_spec _).choose_spec.2, h3, ?_, .inl rfl, by positivity⟩
        show (0 : ℚ) = value 0 ((fixedParts _ _).1 ++ strip (fixedParts _ _).2) / 10 ^ (strip (fixedParts _ _).2).length
        rw [strip_value, h5]; simp
      · rintro rfl
        refine .inl ⟨_, _, rfl, h2, h3, ?_, .inl rfl, by positivity, fun _ => ?_, fun h => absurd rfl h⟩
        · show (0 : ℚ) = value 0 ((fixedParts _ _).1 ++ (fixedParts _ _).2) / 10 ^ (fixedParts _ _).2.length
          rw [h5]; simp
        · show (fixedParts _ _).2.length + 1 = P
          rw [h4]; omega
    · intro k hk _
      have hz : (numeral false 10 0).length = 1 := rfl
      rw [hz] at h6
      refine le_trans (pointed_length _ _ _) ?_
      have hs : (trim alt (fixedParts ((P : ℤ) - 1 - 0).toNat 0)).2.length ≤ (fixedParts ((P : ℤ) - 1 - 0).toNat 0).2.length := by
        cases alt
        · exact strip_length _
        · exact le_refl _
      have hs1 : (trim alt (fixedParts ((P : ℤ) - 1 - 0).toNat 0)).1 = (fixedParts ((P : ℤ) - 1 - 0).toNat 0).1 := by cases alt <;> rfl
      rw [hs1]
      omega
  · obtain ⟨h1, h2, h3, h4⟩ := sci_ok (P - 1) hq
    obtain ⟨hlo, hhi⟩ := sci_range hP hq
    rw [Nat.sub_add_cancel hP] at h2 h3
    have hv0 : 0 < ((sci (P - 1) q).1 : ℚ) * 10 ^ ((sci (P - 1) q).2 - ((P - 1 : ℕ) : ℤ)) := lt_of_lt_of_le (zpow_pos (by norm_num) _) hlo
    by_cases hx : -4 ≤ (sci (P - 1) q).2 ∧ (sci (P - 1) q).2 < P
    · rw [if_pos hx]
      obtain ⟨k, hk⟩ : ∃ k : Nat, (k : ℤ) = P - 1 - (sci (P - 1) q).2 := ⟨((P : ℤ) - 1 - (sci (P - 1) q).2).toNat, by omega⟩
      have hkn : ((P : ℤ) - 1 - (sci (P - 1) q).2).toNat = k := by omega
      rw [hkn]
      obtain ⟨g1, g2, g3, g4, g5, g6⟩ := fixedParts_ok k q (fixed_sci hP hq hk)
      have r1 : (1 : ℚ) / 10 ^ 4 ≤ (sci (P - 1) q).1 * 10 ^ ((sci (P - 1) q).2 - ((P - 1 : ℕ) : ℤ)) := by
        refine le_trans ?_ hlo
        rw [tenth4]; exact zpow_le10 hx.1
      have r2 : (sci (P - 1) q).1 * (10 : ℚ) ^ ((sci (P - 1) q).2 - ((P - 1 : ℕ) : ℤ)) < 10 ^ P := by
        refine lt_of_lt_of_le hhi ?_
        have := zpow_le10 (show (sci (P - 1) q).2 + 1 ≤ (P : ℤ) by omega)
        rw [zpow_natCast] at this
        exact this
      have r3 : (sci (P - 1) q).1 * (10 : ℚ) ^ ((sci (P - 1) q).2 - ((P - 1 : ℕ) : ℤ)) = (sci (P - 1) q).1 / 10 ^ k := by
        rw [div_eq_mul_inv, ← zpow_natCast, ← zpow_neg]
        congr 2; omega
      constructor
      · refine ⟨_, h3, ?_, ?_⟩
        · rintro rfl
          refine .inl ⟨_, _, rfl, strip_digs g2, (strip_spec _).choose_spec.2, g3, ?_, .inr r1, r2⟩
          show _ = ((value 0 ((fixedParts _ _).1 ++ strip (fixedParts _ _).2) : ℕ) : ℚ) / 10 ^ (strip (fixedParts _ _).2).length
          rw [strip_value, g5, g4, r3]
        · rintro rfl
          refine .inl ⟨_, _, rfl, g2, g3, ?_, .inr r1, r2, fun e => absurd e hv0.ne', fun _ => ?_⟩
          · show _ = ((value 0 ((fixedParts _ _).1 ++ (fixedParts _ _).2) : ℕ) : ℚ) / 10 ^ (fixedParts _ _).2.length
            rw [g5, g4, r3]
          · show _ ≤ value 0 ((fixedParts _ _).1 ++ (fixedParts _ _).2) ∧ value 0 ((fixedParts _ _).1 ++ (fixedParts _ _).2) < _
            rw [g5]
            exact ⟨h1, h2⟩
      · intro j hj _
        refine le_trans (pointed_length _ _ _) ?_
        have hs : (trim alt (fixedParts k q)).2.length ≤ (fixedParts k q).2.length := by
          cases alt
          · exact strip_length _
          · exact le_refl _
        have hs1 : (trim alt (fixedParts k q)).1 = (fixedParts k q).1 := by cases alt <;> rfl
        have hN := numeral_length (numeral_ok (sci (P - 1) q).1) (by omega) h2
        rw [hs1]
        omega
    · rw [if_neg hx]
      obtain ⟨d, fp, e1, e2, e3, e4, e5, e6⟩ := sciParts_ok (P - 1) hq
      obtain ⟨f1, f2⟩ := expo_ok caps (sci (P - 1) q).2
      rw [e1]
      have r : (sci (P - 1) q).1 * (10 : ℚ) ^ ((sci (P - 1) q).2 - ((P - 1 : ℕ) : ℤ)) < 1 / 10 ^ 4 ∨ 10 ^ P ≤ (sci (P - 1) q).1 * (10 : ℚ) ^ ((sci (P - 1) q).2 - ((P - 1 : ℕ) : ℤ)) := by
        rcases not_and_or.1 hx with h | h
        · left
          refine lt_of_lt_of_le hhi ?_
          rw [tenth4]; exact zpow_le10 (by omega)
        · right
          refine le_trans ?_ hlo
          have := zpow_le10 (show (P : ℤ) ≤ (sci (P - 1) q).2 by omega)
          rw [zpow_natCast] at this
          exact this
      constructor
      · refine ⟨_, h3, ?_, ?_⟩
        · rintro rfl
          refine .inr ⟨d, strip fp, _, (sci (P - 1) q).2, rfl, e2, e3, strip_digs e4, (strip_spec _).choose_spec.2, f1, ?_, r⟩
          have h := strip_value [d] fp
          rw [List.singleton_append, List.singleton_append, e6, e5] at h
          rw [zpow_sub₀ h10, zpow_sub₀ h10, zpow_natCast, zpow_natCast, mul_div_assoc', mul_comm, mul_div_assoc, ← h]
          ring
        · rintro rfl
          refine .inr ⟨d, fp, _, (sci (P - 1) q).2, rfl, e2, e3, e4, by omega, f1, ?_, r⟩
          rw [e6, e5]
      · intro k hk hlog
        have := f2 k hk (by omega)
        have hs : (trim alt ([d], fp)).2.length ≤ fp.length := by
          cases alt
          · exact strip_length _
          · exact le_refl _
        have hs1 : (trim alt ([d], fp)).1 = [d] := by cases alt <;> rfl
        rw [List.length_append]
        have := pointed_length alt (trim alt ([d], fp)).1 (trim alt ([d], fp)).2
        rw [hs1, List.length_singleton] at this
        rw [hs1]
        omega

/-! ### `%f`, `%e` -/

theorem halfEven_nonneg {s : ℚ} (h : 0 ≤ s) : 0 ≤ halfEven s := le_halfEven (by exact_mod_cast h)

/-- An error of a half goes to an even number. -/
theorem halfEven_half {s : ℚ} (h : |(halfEven s : ℚ) - s| = 1 / 2) : halfEven s % 2 = 0 := by
  rcases abs_cases ((halfEven s : ℚ) - s) with ⟨h1, _⟩ | ⟨h1, _⟩
  · refine (halfEven_tie (s := s) (n := halfEven s - 1) (by omega) ?_).2
    push_cast
    rw [h]
    have : (halfEven s : ℚ) - 1 - s = -(1 / 2) := by linarith
    rw [this]; norm_num
  · refine (halfEven_tie (s := s) (n := halfEven s + 1) (by omega) ?_).2
    push_cast
    rw [h]
    have : (halfEven s : ℚ) + 1 - s = 1 / 2 := by linarith
    rw [this]; norm_num

theorem textF_ok (alt : Bool) (P : Nat) {q : ℚ} (hq : 0 ≤ q) : IsFixed alt P (textF alt P q) q := by
  obtain ⟨h1, h2, h3, h4, h5, _⟩ := fixedParts_ok P q rfl
  refine ⟨_, _, rfl, h3, h2, h4, (halfEven (q * 10 ^ P)).toNat, by rw [h5], ?_, ?_⟩ <;> rw [h5]
  all_goals
    have hp : (0 : ℚ) < 10 ^ P := by positivity
    have hn : (((halfEven (q * 10 ^ P)).toNat : ℕ) : ℚ) = halfEven (q * 10 ^ P) := by
      have := Int.toNat_of_nonneg (halfEven_nonneg (s := q * 10 ^ P) (by positivity))
      exact_mod_cast this
    have e : |(((halfEven (q * 10 ^ P)).toNat : ℕ) : ℚ) / 10 ^ P - q| = |(halfEven (q * 10 ^ P) : ℚ) - q * 10 ^ P| / 10 ^ P := by
      rw [hn, ← abs_of_pos hp, ← abs_div, abs_of_pos hp]
      congr 1
      field_simp
    rw [e]
  · have := halfEven_err (q * 10 ^ P)
    rw [div_le_div_iff₀ hp (by positivity)]
    have := mul_le_mul_of_nonneg_right this hp.le
    linarith
  · intro h
    have : |(halfEven (q * 10 ^ P) : ℚ) - q * 10 ^ P| = 1 / 2 := by
      rw [div_eq_div_iff hp.ne' (by positivity)] at h
      have h2 : |(halfEven (q * 10 ^ P) : ℚ) - q * 10 ^ P| * 2 = 1 := by
        apply mul_right_cancel₀ hp.ne'
        linarith
      linarith
    have := halfEven_half this
    have := halfEven_nonneg (s := q * 10 ^ P) (by positivity)
    omega

theorem textE_ok (caps alt : Bool) (P : Nat) {q : ℚ} (hq : 0 ≤ q) : IsScientific (if caps then 69#8 else 101#8) alt P (textE caps alt P q) q := by
  unfold textE
  rw [point_eq]
  rcases eq_or_lt_of_le hq with rfl | hq
  · have hs : sci P 0 = (0, 0) := by unfold sci; rw [if_pos rfl]
    have hsp : sciParts P 0 = ([48#8], List.replicate P 48#8) := by
      unfold sciParts
      rw [hs]
      have : pad (P + 1) (numeral false 10 0) = 48#8 :: List.replicate P 48#8 := by
        show List.replicate (P + 1 - 1) 48#8 ++ List.replicate 1 48#8 = List.replicate (P + 1) 48#8
        rw [List.replicate_append_replicate]
        congr 1
      dsimp only
      rw [this]
      rfl
    rw [hsp, hs]
    refine ⟨48#8, _, _, 0, rfl, by unfold IsDigit; decide, fun _ => ⟨rfl, rfl⟩, digs_zeros P, List.length_replicate, (expo_ok caps 0).1, ?_⟩
    have : value 0 (48#8 :: List.replicate P 48#8) = 0 := value_zeros (P + 1)
    rw [this]
    simpa using rounded_zero
  · obtain ⟨d, fp, e1, e2, e3, e4, e5, e6⟩ := sciParts_ok P hq
    obtain ⟨h1, h2, h3, h4⟩ := sci_ok P hq
    rw [e1]
    exact ⟨d, fp, _, _, rfl, e2, fun e => absurd e e3, e4, e5, (expo_ok caps _).1, by rw [e6]; exact h3⟩

end Verif.Flt
