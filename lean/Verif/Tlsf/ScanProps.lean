import Verif.Tlsf.Scan
import Verif.Tlsf.MapProps
import Verif.Bits.Lemmas
/-!
# C111: the bit scans of the TLSF allocator are right with every compiler
-/
namespace Verif.Tlsf
open Verif.Bits

/-! Specification -/

/-- `r` is the position of the highest one in the word, -1 if there is none. -/
def Highest {n : Nat} (w : BitVec n) (r : Int) : Prop :=
  (w = 0#n ∧ r = -1) ∨ ∃ i : Nat, r = i ∧ i < n ∧ w.getLsbD i = true ∧ ∀ j, i < j → w.getLsbD j = false

/-- `r` is the position of the lowest one in the word, -1 if there is none. -/
def Lowest {n : Nat} (w : BitVec n) (r : Int) : Prop :=
  (w = 0#n ∧ r = -1) ∨ ∃ i : Nat, r = i ∧ i < n ∧ w.getLsbD i = true ∧ ∀ j, j < i → w.getLsbD j = false

/-! Proofs -/

theorem highest_log2 {n : Nat} {w : BitVec n} (h : w ≠ 0#n) : Highest w w.toNat.log2 := by
  have hn : w.toNat ≠ 0 := fun e => h (BitVec.eq_of_toNat_eq (by simpa using e))
  refine .inr ⟨w.toNat.log2, rfl, log2_lt_width h, Nat.testBit_log2 hn, fun j hj => ?_⟩
  exact Nat.testBit_lt_two_pow ((Nat.log2_lt hn).1 hj)

theorem halve_ok {k : Nat} {mask : BitVec 32} (hk : k ≤ 16) (hm : ∀ i, i < 32 → mask.getLsbD i = decide (32 - k ≤ i))
    (w : BitVec 32) (b : Int) (h0 : w ≠ 0#32) (h : 2 ^ (32 - 2 * k) ≤ w.toNat) :
    (halve mask k (w, b)).1 ≠ 0#32 ∧ 2 ^ (32 - k) ≤ (halve mask k (w, b)).1.toNat ∧
    (halve mask k (w, b)).2 + ((halve mask k (w, b)).1.toNat.log2 : Int) = b + (w.toNat.log2 : Int) := by
  have hn : w.toNat ≠ 0 := fun e => h0 (BitVec.eq_of_toNat_eq (by simpa using e))
  unfold halve
  by_cases c : w &&& mask = 0#32
  · rw [if_pos c]
    have small : w.toNat < 2 ^ (32 - k) := by
      apply Nat.lt_pow_two_of_testBit
      intro i hi
      by_cases hi' : i < 32
      · have := congrArg (fun x => x.getLsbD i) c
        simp only [BitVec.getLsbD_and, hm i hi'] at this
        simpa [hi, BitVec.getLsbD] using this
      · exact Nat.testBit_lt_two_pow (Nat.lt_of_lt_of_le w.isLt (Nat.pow_le_pow_right (by omega) (by omega)))
    have e1 : (w <<< k).toNat = w.toNat * 2 ^ k := by
      rw [BitVec.toNat_shiftLeft, Nat.shiftLeft_eq, Nat.mod_eq_of_lt]
      calc w.toNat * 2 ^ k < 2 ^ (32 - k) * 2 ^ k := Nat.mul_lt_mul_of_pos_right small (Nat.two_pow_pos k)
        _ = 2 ^ 32 := by rw [← Nat.pow_add]; congr 1; omega
    have e2 : (w.toNat * 2 ^ k).log2 = w.toNat.log2 + k := by
      rw [Nat.log2_eq_iff (Nat.mul_ne_zero hn (Nat.ne_of_gt (Nat.two_pow_pos k)))]
      have l1 := Nat.log2_self_le hn
      have l2 := Nat.lt_log2_self (n := w.toNat)
      constructor
      · rw [Nat.pow_add]; exact Nat.mul_le_mul_right _ l1
      · rw [show w.toNat.log2 + k + 1 = (w.toNat.log2 + 1) + k by omega, Nat.pow_add]
        exact Nat.mul_lt_mul_of_pos_right l2 (Nat.two_pow_pos k)
    have big : 2 ^ (32 - k) ≤ (w <<< k).toNat := by
      rw [e1]
      calc 2 ^ (32 - k) = 2 ^ (32 - 2 * k) * 2 ^ k := by rw [← Nat.pow_add]; congr 1; omega
        _ ≤ w.toNat * 2 ^ k := Nat.mul_le_mul_right _ h
    refine ⟨fun e => ?_, big, ?_⟩
    · simp only at e
      rw [e] at big
      have := Nat.two_pow_pos (32 - k)
      simp at big
    · simp only [e1, e2]
      omega
  · rw [if_neg c]
    refine ⟨h0, ?_, rfl⟩
    apply Nat.le_of_not_lt
    intro small
    apply c
    apply BitVec.eq_of_getLsbD_eq
    intro i hi
    rw [BitVec.getLsbD_and, hm i hi]
    by_cases hi' : 32 - k ≤ i
    · have : w.getLsbD i = false :=
        Nat.testBit_lt_two_pow (Nat.lt_of_lt_of_le small (Nat.pow_le_pow_right (by omega) hi'))
      simp [this]
    · simp [hi']

theorem masks : (∀ i, i < 32 → (0xffff0000#32).getLsbD i = decide (32 - 16 ≤ i)) ∧
    (∀ i, i < 32 → (0xff000000#32).getLsbD i = decide (32 - 8 ≤ i)) ∧
    (∀ i, i < 32 → (0xf0000000#32).getLsbD i = decide (32 - 4 ≤ i)) ∧
    (∀ i, i < 32 → (0xc0000000#32).getLsbD i = decide (32 - 2 ≤ i)) ∧
    (∀ i, i < 32 → (0x80000000#32).getLsbD i = decide (32 - 1 ≤ i)) := by decide

theorem flsGeneric_ok {w : BitVec 32} (h : w ≠ 0#32) : flsGeneric w = (w.toNat.log2 : Int) + 1 := by
  obtain ⟨m1, m2, m3, m4, m5⟩ := masks
  have hn : w.toNat ≠ 0 := fun e => h (BitVec.eq_of_toNat_eq (by simpa using e))
  unfold flsGeneric
  rw [if_neg h]
  dsimp only
  obtain ⟨a1, b1, c1⟩ := halve_ok (by omega) m1 w 32 h (by simp; omega)
  generalize halve 0xffff0000#32 16 (w, 32) = s1 at *
  obtain ⟨w1, n1⟩ := s1
  obtain ⟨a2, b2, c2⟩ := halve_ok (by omega) m2 w1 n1 a1 b1
  simp only at *
  generalize halve 0xff000000#32 8 (w1, n1) = s2 at *
  obtain ⟨w2, n2⟩ := s2
  obtain ⟨a3, b3, c3⟩ := halve_ok (by omega) m3 w2 n2 a2 b2
  simp only at *
  generalize halve 0xf0000000#32 4 (w2, n2) = s3 at *
  obtain ⟨w3, n3⟩ := s3
  obtain ⟨a4, b4, c4⟩ := halve_ok (by omega) m4 w3 n3 a3 b3
  simp only at *
  generalize halve 0xc0000000#32 2 (w3, n3) = s4 at *
  obtain ⟨w4, n4⟩ := s4
  obtain ⟨a5, b5, c5⟩ := halve_ok (by omega) m5 w4 n4 a4 b4
  simp only at *
  generalize halve 0x80000000#32 1 (w4, n4) = s5 at *
  obtain ⟨w5, n5⟩ := s5
  simp only at *
  have : w5.toNat.log2 = 31 := by
    rw [Nat.log2_eq_iff (by have := Nat.two_pow_pos 31; omega)]
    exact ⟨b5, w5.isLt⟩
  omega

theorem flsGeneric_zero : flsGeneric 0#32 = 0 := by decide

/-- **C111**: `tlsf_fls` finds the highest one of every word, in every branch. -/
theorem C111_fls (c : Compiler) (w : BitVec 32) : ∃ r, flsOf c w = .ok r ∧ Highest w r := by
  by_cases h : w = 0#32
  · subst h
    exact ⟨-1, by cases c <;> decide, .inl ⟨rfl, rfl⟩⟩
  · refine ⟨w.toNat.log2, ?_, highest_log2 h⟩
    have hl : w.toNat.log2 < 32 := log2_lt_width h
    cases c with
    | gnu => exact fls_ok h
    | snc => exact fls_ok h
    | msvc => simp [flsOf, scanReverse, h]
    | msvcPpc => simp only [flsOf, lzcnt, if_neg h]; congr 1; omega
    | armcc => simp only [flsOf, lzcnt, if_neg h, if_pos h]; congr 1; omega
    | ghs => simp only [flsOf, lzcnt, if_neg h, if_pos h]; congr 1; omega
    | generic => simp only [flsOf, flsGeneric_ok h]; congr 1; omega

example : flsOf .generic 0x00012345#32 = .ok 16 ∧ flsOf .msvcPpc 0x80000000#32 = .ok 31 := by decide +kernel

/-- **C111**: `tlsf_fls_sizet` finds the highest one of every size, in every branch. -/
theorem C111_fls_size (c : Compiler) (v : BitVec 64) : ∃ r, flsSizetOf c v = .ok r ∧ Highest v r := by
  have key : flsSizetOf c v = flsSizet v := by
    have same : ∀ w, flsOf c w = fls w := by
      intro w
      by_cases h : w = 0#32
      · subst h; cases c <;> decide
      · have hl : w.toNat.log2 < 32 := log2_lt_width h
        rw [fls_ok h]
        cases c with
        | gnu => exact fls_ok h
        | snc => exact fls_ok h
        | msvc => simp [flsOf, scanReverse, h]
        | msvcPpc => simp only [flsOf, lzcnt, if_neg h]; congr 1; omega
        | armcc => simp only [flsOf, lzcnt, if_neg h, if_pos h]; congr 1; omega
        | ghs => simp only [flsOf, lzcnt, if_neg h, if_pos h]; congr 1; omega
        | generic => simp only [flsOf, flsGeneric_ok h]; congr 1; omega
    unfold flsSizetOf flsSizet
    simp only [same]
  rw [key]
  by_cases h : v = 0#64
  · subst h
    exact ⟨-1, by decide, .inl ⟨rfl, rfl⟩⟩
  · exact ⟨_, flsSizet_ok (fun e => h (BitVec.eq_of_toNat_eq (by simpa using e))), highest_log2 h⟩

example : flsSizetOf .generic 0x0000010000000001#64 = .ok 40 ∧ flsSizetOf .ghs 0#64 = .ok (-1) := by decide +kernel

theorem reverse_bit (w : BitVec 32) (i : Nat) :
    (reverse w).getLsbD i = (w.getLsbD i && !decide (∃ j, j < i ∧ w.getLsbD j = true)) := by
  unfold reverse
  rw [← BitVec.neg_eq_not_add, BitVec.getLsbD_and, BitVec.getLsbD_neg]
  by_cases hi : i < 32
  · cases w.getLsbD i <;> simp [hi]
  · have : w.getLsbD i = false := BitVec.getLsbD_of_ge w i (by omega)
    simp [this]

theorem reverse_ne {w : BitVec 32} (h : w ≠ 0#32) : reverse w ≠ 0#32 ∧ (reverse w).toNat.log2 = lowestBit w 0 32 := by
  have hc := isCtz_lowestBit w
  generalize hL : lowestBit w 0 32 = L at *
  obtain ⟨c1, c2, c3⟩ := hc
  have hlt : L < 32 := by
    apply Nat.lt_of_not_le
    intro hge
    apply h
    apply BitVec.eq_of_getLsbD_eq
    intro i hi
    rw [c2 i (by omega)]; simp
  have e : reverse w = BitVec.twoPow 32 L := by
    apply BitVec.eq_of_getLsbD_eq
    intro i hi
    rw [reverse_bit, BitVec.getLsbD_twoPow]
    by_cases e1 : i < L
    · rw [c2 i e1]; simp; omega
    · by_cases e2 : i = L
      · subst e2
        rw [c3 hlt]
        have : ¬ ∃ j, j < i ∧ w.getLsbD j = true := fun ⟨j, hj, hb⟩ => by rw [c2 j hj] at hb; cases hb
        simp [this, hi]
      · have : ∃ j, j < i ∧ w.getLsbD j = true := ⟨L, by omega, c3 hlt⟩
        simp [this]; omega
  have t : (BitVec.twoPow 32 L).toNat = 2 ^ L := by
    rw [BitVec.toNat_twoPow, Nat.mod_eq_of_lt (Nat.pow_lt_pow_right (by omega) hlt)]
  rw [e]
  refine ⟨fun z => ?_, by rw [t, Nat.log2_two_pow]⟩
  have := congrArg BitVec.toNat z
  rw [t] at this
  have := Nat.two_pow_pos L
  simp_all

theorem lowest_lowestBit {w : BitVec 32} (h : w ≠ 0#32) : Lowest w (lowestBit w 0 32) := by
  obtain ⟨c1, c2, c3⟩ := isCtz_lowestBit w
  have hlt : lowestBit w 0 32 < 32 := by
    apply Nat.lt_of_not_le
    intro hge
    apply h
    apply BitVec.eq_of_getLsbD_eq
    intro i hi
    rw [c2 i (by omega)]; simp
  exact .inr ⟨_, rfl, hlt, c3 hlt, c2⟩

/-- **C111 (partial)**: `tlsf_ffs` finds the lowest one of every word, in every branch; with the compiler of the PlayStation 3 for every
word but 0. -/
theorem C111_ffs_partial (c : Compiler) (w : BitVec 32) (hs : c = .snc → w ≠ 0#32) :
    ∃ r, ffsOf c w = .ok r ∧ Lowest w r := by
  by_cases h : w = 0#32
  · subst h
    refine ⟨-1, ?_, .inl ⟨rfl, rfl⟩⟩
    cases c with
    | snc => exact absurd rfl (hs rfl)
    | _ => decide
  · refine ⟨lowestBit w 0 32, ?_, lowest_lowestBit h⟩
    obtain ⟨r1, r2⟩ := reverse_ne h
    have hl : (reverse w).toNat.log2 < 32 := log2_lt_width r1
    rw [← r2]
    cases c with
    | gnu => simp only [ffsOf, builtinFfs, if_neg h]; rw [r2]; congr 1; omega
    | snc => simp only [ffsOf, builtinClz, if_neg r1, R.ok_bind]; congr 1; omega
    | msvc => simp only [ffsOf, scanForward, if_neg h]; rw [r2]
    | msvcPpc => simp only [ffsOf, lzcnt, if_neg r1]; congr 1; omega
    | armcc => simp only [ffsOf, lzcnt, if_neg r1]; congr 1; omega
    | ghs => simp only [ffsOf, lzcnt, if_neg r1]; congr 1; omega
    | generic => simp only [ffsOf, flsGeneric_ok r1]; congr 1; omega

example : ffsOf .generic 0x00012340#32 = .ok 6 ∧ ffsOf .snc 0x80000000#32 = .ok 31 := by decide +kernel

/-- **C111 is violated**: in the branch for the PlayStation 3 the search in an empty word is undefined, where all others answer -1. -/
theorem C111_snc_empty : ffsOf .snc 0#32 = .error .ub := by decide

end Verif.Tlsf
