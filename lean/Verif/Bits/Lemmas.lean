import Verif.Bits.Model
import Verif.Bits.Spec

/-! Helper lemmas for the bit utilities. -/
namespace Verif.Bits

theorem toNat_ne_zero {w : Nat} {v : BitVec w} (h : v ≠ 0#w) : v.toNat ≠ 0 := by
  intro h0; exact h (BitVec.eq_of_toNat_eq (by simpa using h0))

theorem log2_lt_width {w : Nat} {v : BitVec w} (h : v ≠ 0#w) : v.toNat.log2 < w :=
  (Nat.log2_lt (toNat_ne_zero h)).2 v.isLt

theorem isClz_log2 {w : Nat} {v : BitVec w} (h : v ≠ 0#w) : IsClz v (w - 1 - v.toNat.log2) := by
  have hl := log2_lt_width h
  refine ⟨by omega, ?_, ?_⟩
  · intro i hi
    rw [BitVec.getLsbD]
    apply Nat.testBit_lt_two_pow
    refine (Nat.log2_lt (toNat_ne_zero h)).1 (by omega)
  · intro _
    have : w - 1 - (w - 1 - v.toNat.log2) = v.toNat.log2 := by omega
    rw [this, BitVec.getLsbD]
    exact Nat.testBit_log2 (toNat_ne_zero h)

theorem isClz_zero (w : Nat) : IsClz (0#w) w := ⟨Nat.le_refl _, fun i _ => by simp, fun h => by omega⟩

theorem isClz_unique {w : Nat} {v : BitVec w} {c d : Nat} (h1 : IsClz v c) (h2 : IsClz v d) : c = d := by
  rcases Nat.lt_trichotomy c d with h | h | h
  · have a := h1.2.2 (by have := h2.1; omega)
    rw [h2.2.1 _ (by have := h2.1; omega)] at a; simp at a
  · exact h
  · have a := h2.2.2 (by have := h1.1; omega)
    rw [h1.2.1 _ (by have := h1.1; omega)] at a; simp at a

theorem lowestBit_ok {w : Nat} (v : BitVec w) (n i : Nat) :
    i ≤ lowestBit v i n ∧ lowestBit v i n ≤ i + n ∧
      (∀ k, i ≤ k → k < lowestBit v i n → v.getLsbD k = false) ∧
      (lowestBit v i n < i + n → v.getLsbD (lowestBit v i n) = true) := by
  induction n generalizing i with
  | zero => exact ⟨Nat.le_refl _, Nat.le_refl _, fun k a b => by simp [lowestBit] at b; omega, fun h => by simp [lowestBit] at h⟩
  | succ n ih =>
    unfold lowestBit
    cases hb : v.getLsbD i with
    | true => simp only [if_true]; exact ⟨by omega, by omega, fun k a b => by omega, fun _ => hb⟩
    | false =>
      simp only [Bool.false_eq_true, if_false]
      obtain ⟨h1, h2, h3, h4⟩ := ih (i + 1)
      refine ⟨by omega, by omega, fun k a b => ?_, fun h => h4 (by omega)⟩
      by_cases hk : k = i
      · subst hk; exact hb
      · exact h3 k (by omega) b

theorem isCtz_lowestBit {w : Nat} (v : BitVec w) : IsCtz v (lowestBit v 0 w) := by
  obtain ⟨-, h2, h3, h4⟩ := lowestBit_ok v w 0
  exact ⟨by omega, fun i hi => h3 i (by omega) hi, fun h => h4 (by omega)⟩

theorem lowestBit_zero {w : Nat} (n i : Nat) : lowestBit (0#w) i n = i + n := by
  induction n generalizing i with
  | zero => rfl
  | succ n ih => simp [lowestBit, ih]; omega

theorem countP_range_setWidth {w n : Nat} (v : BitVec w) (h : w ≤ n) (m : Nat) (hm : m ≤ n) :
    (List.range m).countP (fun i => (v.setWidth n).getLsbD i) =
      (List.range (Nat.min m w)).countP (fun i => v.getLsbD i) := by
  induction m with
  | zero => simp
  | succ m ih =>
    rw [List.range_succ, List.countP_append, ih (by omega)]
    by_cases hw : m < w
    · have e1 : Nat.min (m + 1) w = m + 1 := Nat.min_eq_left (by omega)
      have e2 : Nat.min m w = m := Nat.min_eq_left (by omega)
      rw [e1, e2, List.range_succ, List.countP_append]
      have hc : (v.setWidth n).getLsbD m = v.getLsbD m := by
        rw [BitVec.getLsbD_setWidth]; simp; omega
      simp only [List.countP_cons, List.countP_nil, hc]
    · have e1 : Nat.min (m + 1) w = w := Nat.min_eq_right (by omega)
      have e2 : Nat.min m w = w := Nat.min_eq_right (by omega)
      rw [e1, e2]
      have hc : (v.setWidth n).getLsbD m = false := by
        rw [BitVec.getLsbD_setWidth, BitVec.getLsbD_of_ge v m (by omega)]; simp
      simp only [List.countP_cons, List.countP_nil, hc, Bool.false_eq_true, if_false, Nat.add_zero]

/-! ### byteswap -/

theorem byteswap_acc {w : Nat} (v : BitVec w) (hw : 8 ∣ w) (n : Nat) (hn : 8 * n ≤ w) (j : Nat) :
    ((List.range n).foldl (fun acc i => acc ||| ((v >>> (8 * i)) &&& 255#w) <<< (w - 8 - 8 * i)) 0#w).getLsbD j
      = (decide (w - 8 * n ≤ j ∧ j < w) && v.getLsbD (8 * ((w - 1 - j) / 8) + j % 8)) := by
  obtain ⟨b, rfl⟩ := hw
  induction n with
  | zero =>
    simp
    intro h1 h2; omega
  | succ n ih =>
    rw [List.range_succ, List.foldl_append, List.foldl_cons, List.foldl_nil, BitVec.getLsbD_or,
      ih (by omega), BitVec.getLsbD_shiftLeft, BitVec.getLsbD_and, BitVec.getLsbD_ushiftRight]
    by_cases hj : j < 8 * b
    · by_cases hlo : 8 * b - 8 * n ≤ j
      · -- already covered, the new byte does not reach j
        have h255 : (255#(8 * b)).getLsbD (j - (8 * b - 8 - 8 * n)) = false := by
          rw [BitVec.getLsbD_ofNat]
          have : Nat.testBit 255 (j - (8 * b - 8 - 8 * n)) = false := by
            rw [show (255 : Nat) = 2 ^ 8 - 1 from rfl, Nat.testBit_two_pow_sub_one]
            simp; omega
          rw [this]; simp
        rw [h255]
        have : (8 * b - 8 * n ≤ j ∧ j < 8 * b) := ⟨hlo, hj⟩
        have h2 : (8 * b - 8 * (n + 1) ≤ j ∧ j < 8 * b) := ⟨by omega, hj⟩
        simp [this, h2]
      · by_cases hlo2 : 8 * b - 8 * (n + 1) ≤ j
        · have h255 : (255#(8 * b)).getLsbD (j - (8 * b - 8 - 8 * n)) = true := by
            rw [BitVec.getLsbD_ofNat]
            rw [show (255 : Nat) = 2 ^ 8 - 1 from rfl, Nat.testBit_two_pow_sub_one]
            simp; omega
          rw [h255]
          have e : 8 * n + (j - (8 * b - 8 - 8 * n)) = 8 * ((8 * b - 1 - j) / 8) + j % 8 := by omega
          rw [e]
          have h3 : ¬ j < 8 * b - 8 - 8 * n := by omega
          simp [hj, hlo, hlo2, h3]
        · have h3 : j < 8 * b - 8 - 8 * n := by omega
          simp [hj, hlo, hlo2, h3]
    · simp [hj]

theorem byteswap_bit {w : Nat} (v : BitVec w) (hw : 8 ∣ w) (j : Nat) (hj : j < w) :
    (byteswap v).getLsbD j = v.getLsbD (8 * ((w - 1 - j) / 8) + j % 8) := by
  unfold byteswap
  rw [byteswap_acc v hw (w / 8) (by omega) j]
  have : w - 8 * (w / 8) ≤ j ∧ j < w := ⟨by omega, hj⟩
  simp [this]

/-! ### powers of two -/

theorem mask_bit {w k : Nat} (hk : k < w) (i : Nat) :
    (BitVec.twoPow w k - 1#w).getLsbD i = decide (i < k) := by
  have hlt : 2 ^ k < 2 ^ w := Nat.pow_lt_pow_right (by omega) hk
  have hpos : 0 < 2 ^ k := Nat.two_pow_pos k
  have : (BitVec.twoPow w k - 1#w).toNat = 2 ^ k - 1 := by
    have h1 : (1#w).toNat = 1 := by
      rw [BitVec.toNat_ofNat]; exact Nat.mod_eq_of_lt (by omega)
    have h2 : (BitVec.twoPow w k).toNat = 2 ^ k := by
      rw [BitVec.toNat_twoPow]; exact Nat.mod_eq_of_lt hlt
    rw [BitVec.toNat_sub_of_le (by rw [BitVec.le_def, h1, h2]; omega), h1, h2]
  rw [BitVec.getLsbD, this, Nat.testBit_two_pow_sub_one]

theorem eq_twoPow {w : Nat} {a : BitVec w} {k : Nat} (h : a.toNat = 2 ^ k) :
    k < w ∧ a = BitVec.twoPow w k := by
  have hk : k < w := by
    have := a.isLt
    rw [h] at this
    exact (Nat.pow_lt_pow_iff_right (by omega)).1 this
  refine ⟨hk, BitVec.eq_of_toNat_eq ?_⟩
  rw [h, BitVec.toNat_twoPow]
  exact (Nat.mod_eq_of_lt (Nat.pow_lt_pow_right (by omega) hk)).symm

theorem and_mask_toNat {w k : Nat} (hk : k < w) (x : BitVec w) :
    (x &&& (BitVec.twoPow w k - 1#w)).toNat = x.toNat % 2 ^ k := by
  have : x &&& (BitVec.twoPow w k - 1#w) = BitVec.ofNat w (x.toNat % 2 ^ k) := by
    apply BitVec.eq_of_getLsbD_eq
    intro i hi
    rw [BitVec.getLsbD_and, mask_bit hk, BitVec.getLsbD_ofNat, Nat.testBit_mod_two_pow]
    simp [hi, Bool.and_comm, BitVec.getLsbD]
  rw [this, BitVec.toNat_ofNat]
  apply Nat.mod_eq_of_lt
  exact Nat.lt_of_le_of_lt (Nat.mod_le _ _) x.isLt

theorem and_not_mask_toNat {w k : Nat} (hk : k < w) (x : BitVec w) :
    (x &&& ~~~(BitVec.twoPow w k - 1#w)).toNat = x.toNat / 2 ^ k * 2 ^ k := by
  have h1 : x = (x &&& ~~~(BitVec.twoPow w k - 1#w)) + (x &&& (BitVec.twoPow w k - 1#w)) := by
    rw [BitVec.add_eq_or_of_and_eq_zero]
    · apply BitVec.eq_of_getLsbD_eq; intro i hi
      simp only [BitVec.getLsbD_or, BitVec.getLsbD_and, BitVec.getLsbD_not, hi, decide_true, Bool.true_and]
      cases x.getLsbD i <;> cases (BitVec.twoPow w k - 1#w).getLsbD i <;> rfl
    · apply BitVec.eq_of_getLsbD_eq; intro i hi
      simp only [BitVec.getLsbD_and, BitVec.getLsbD_not, hi, decide_true, Bool.true_and, BitVec.getLsbD_zero]
      cases x.getLsbD i <;> cases (BitVec.twoPow w k - 1#w).getLsbD i <;> rfl
  have h2 : x &&& ~~~(BitVec.twoPow w k - 1#w) = x - (x &&& (BitVec.twoPow w k - 1#w)) := by
    have h3 := BitVec.add_sub_cancel (x &&& ~~~(BitVec.twoPow w k - 1#w)) (x &&& (BitVec.twoPow w k - 1#w))
    rw [← h1] at h3
    exact h3.symm
  rw [h2, BitVec.toNat_sub_of_le, and_mask_toNat hk]
  · have := Nat.div_add_mod x.toNat (2 ^ k)
    rw [Nat.mul_comm] at this; omega
  · rw [BitVec.le_def, and_mask_toNat hk]; exact Nat.mod_le _ _

/-! ### bit_log2 -/

theorem countLeadingZeros_eq {w : Nat} (v : BitVec w) :
    countLeadingZeros v = .ok (if v = 0#w then w else w - 1 - v.toNat.log2) := by
  unfold countLeadingZeros builtinClz
  by_cases h : v = 0#w
  · simp [h]
  · simp [h]

theorem width_lt (w : Nat) : w < 2 ^ w := Nat.lt_two_pow_self

theorem bitLog2_zero {w : Nat} : bitLog2 (0#w) = .ok (BitVec.allOnes w) := by
  unfold bitLog2
  rw [countLeadingZeros_eq]
  simp only [if_true, R.ok_bind, R.pure_eq, Except.ok.injEq]
  rw [BitVec.sub_self, BitVec.zero_sub]
  exact BitVec.neg_one_eq_allOnes

theorem bitLog2_ok {w : Nat} {v : BitVec w} (h : v ≠ 0#w) :
    bitLog2 v = .ok (BitVec.ofNat w v.toNat.log2) := by
  have hl := log2_lt_width h
  have hw := width_lt w
  unfold bitLog2
  rw [countLeadingZeros_eq]
  simp only [h, if_false, R.ok_bind, R.pure_eq, Except.ok.injEq]
  apply BitVec.eq_of_toNat_eq
  generalize v.toNat.log2 = L at *
  have e1 : (BitVec.ofNat w w).toNat = w := by rw [BitVec.toNat_ofNat]; exact Nat.mod_eq_of_lt hw
  have e2 : (BitVec.ofNat w (w - 1 - L)).toNat = w - 1 - L := by
    rw [BitVec.toNat_ofNat]; exact Nat.mod_eq_of_lt (by omega)
  have e3 : (1#w).toNat = 1 := by rw [BitVec.toNat_ofNat]; exact Nat.mod_eq_of_lt (by omega)
  have e4 : (BitVec.ofNat w w - BitVec.ofNat w (w - 1 - L)).toNat = w - (w - 1 - L) := by
    rw [BitVec.toNat_sub_of_le (by rw [BitVec.le_def, e1, e2]; omega), e1, e2]
  rw [BitVec.toNat_sub_of_le (by rw [BitVec.le_def, e3, e4]; omega), e4, e3, BitVec.toNat_ofNat,
    Nat.mod_eq_of_lt (by omega)]
  omega

theorem log2_two_pow (k : Nat) : (2 ^ k).log2 = k := Nat.log2_two_pow

end Verif.Bits
