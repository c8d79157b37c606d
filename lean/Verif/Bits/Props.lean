import Verif.Bits.Lemmas
import Verif.Sort.Spec

/-! Properties C16 and C17: bit utilities, alignment and integer helpers. -/
namespace Verif.Bits

/-! ### C16 -/

/-- **C16** popcount: the narrow overloads count the one bits of the unpromoted value. -/
theorem C16_popcount_narrow {w : Nat} (hw : w ≤ 32) (v : BitVec w) :
    popcountNarrow v = (List.range w).countP (fun i => v.getLsbD i) := by
  unfold popcountNarrow builtinPopcount
  rw [countP_range_setWidth v hw 32 (by omega), show Nat.min 32 w = w from Nat.min_eq_right hw]

/-- **C16** popcount of the 32 and 64 bit overloads (this is the documented behaviour of the
intrinsic). -/
theorem C16_popcount {w : Nat} (v : BitVec w) :
    popcount v = (List.range w).countP (fun i => v.getLsbD i) := rfl

example : popcountNarrow 0xB1#8 = 4 ∧ popcount 0xFFFF0001#32 = 17 := by decide +kernel

/-- **C16** count_leading_zeros, 32/64 bits, without LZCNT: total, also at 0. -/
theorem C16_count_leading_zeros {w : Nat} (v : BitVec w) :
    ∃ c, countLeadingZeros v = .ok c ∧ IsClz v c := by
  rw [countLeadingZeros_eq]
  refine ⟨_, rfl, ?_⟩
  by_cases h : v = 0#w
  · simp only [h, if_true]; exact isClz_zero w
  · simp only [h, if_false]; exact isClz_log2 h

/-- **C16** count_leading_zeros, 32/64 bits, with LZCNT. -/
theorem C16_count_leading_zeros_lzcnt {w : Nat} (v : BitVec w) :
    ∃ c, countLeadingZerosLzcnt v = .ok c ∧ IsClz v c := by
  refine ⟨_, rfl, ?_⟩
  unfold lzcnt
  by_cases h : v = 0#w
  · simp only [h, if_true]; exact isClz_zero w
  · simp only [h, if_false]; exact isClz_log2 h

/-- **C16** count_leading_zeros, 32/64 bits, MSVC branch (`idx ^ 31`, `idx ^ 63`). -/
theorem C16_count_leading_zeros_msvc {w k : Nat} (hw : w = 2 ^ k) (v : BitVec w) :
    ∃ c, countLeadingZerosMsvc v = .ok c ∧ IsClz v c := by
  unfold countLeadingZerosMsvc bitScanReverse
  by_cases h : v = 0#w
  · simp only [h, if_true]; exact ⟨w, rfl, isClz_zero w⟩
  · simp only [h, if_false, R.ok_bind, R.pure_eq]
    refine ⟨_, rfl, ?_⟩
    have hl := log2_lt_width h
    have : v.toNat.log2 ^^^ (w - 1) = w - 1 - v.toNat.log2 := by
      generalize v.toNat.log2 = L at *
      subst hw
      apply Nat.eq_of_testBit_eq
      intro i
      rw [Nat.testBit_xor, Nat.testBit_two_pow_sub_one]
      have := Nat.testBit_two_pow_sub_succ (x := L) (n := k) hl i
      rw [show 2 ^ k - 1 - L = 2 ^ k - (L + 1) by omega, this]
      by_cases hi : i < k
      · simp [hi]
      · have hL : L.testBit i = false := Nat.testBit_lt_two_pow
          (Nat.lt_of_lt_of_le hl (Nat.pow_le_pow_right (by omega) (by omega)))
        simp [hi, hL]
    rw [this]; exact isClz_log2 h

theorem setWidth_ne_zero {w n : Nat} (h : w ≤ n) {v : BitVec w} (hv : v ≠ 0#w) : v.setWidth n ≠ 0#n := by
  intro h0
  apply hv
  apply BitVec.eq_of_toNat_eq
  have := congrArg BitVec.toNat h0
  rw [BitVec.toNat_setWidth_of_le h] at this
  simpa using this

/-- **C16** the 8 and 16 bit overloads, every variant: the `- 24`, `- 16`, `- 8` corrections give the
count for the narrow type. -/
theorem C16_count_leading_zeros_narrow (v : BitVec 8) (u : BitVec 16) :
    (∃ c : Nat, countLeadingZeros8 v = .ok (c : Int) ∧ IsClz v c) ∧
    (∃ c : Nat, countLeadingZeros8Lzcnt v = .ok (c : Int) ∧ IsClz v c) ∧
    (∃ c : Nat, countLeadingZeros8Msvc v = .ok (c : Int) ∧ IsClz v c) ∧
    (∃ c : Nat, countLeadingZeros16 u = .ok (c : Int) ∧ IsClz u c) ∧
    (∃ c : Nat, countLeadingZeros16Lzcnt u = .ok (c : Int) ∧ IsClz u c) := by
  refine ⟨?_, ?_, ?_, ?_, ?_⟩
  · by_cases h : v = 0#8
    · exact ⟨8, by simp [countLeadingZeros8, h], h ▸ isClz_zero 8⟩
    · refine ⟨_, ?_, isClz_log2 h⟩
      have hl := log2_lt_width h
      simp only [countLeadingZeros8, ne_eq, h, not_false_eq_true, if_true, builtinClz,
        setWidth_ne_zero (by omega : 8 ≤ 32) h, if_false, R.ok_bind, R.pure_eq, Except.ok.injEq]
      rw [BitVec.toNat_setWidth_of_le (by omega)]
      omega
  · by_cases h : v = 0#8
    · exact ⟨8, by subst h; rfl, h ▸ isClz_zero 8⟩
    · refine ⟨_, ?_, isClz_log2 h⟩
      have hl := log2_lt_width h
      simp only [countLeadingZeros8Lzcnt, lzcnt, setWidth_ne_zero (by omega : 8 ≤ 16) h, if_false,
        Except.ok.injEq]
      rw [BitVec.toNat_setWidth_of_le (by omega)]
      omega
  · by_cases h : v = 0#8
    · exact ⟨8, by simp [countLeadingZeros8Msvc, h], h ▸ isClz_zero 8⟩
    · refine ⟨_, ?_, isClz_log2 h⟩
      have hl := log2_lt_width h
      simp only [countLeadingZeros8Msvc, h, bitScanReverse,
        setWidth_ne_zero (by omega : 8 ≤ 32) h, if_false, R.ok_bind, R.pure_eq, Except.ok.injEq]
      rw [BitVec.toNat_setWidth_of_le (by omega)]
      generalize v.toNat.log2 = L at *
      have : ∀ L < 8, ((L ^^^ 31 : Nat) : Int) - 24 = ((8 - 1 - L : Nat) : Int) := by decide
      exact this L hl
  · by_cases h : u = 0#16
    · exact ⟨16, by simp [countLeadingZeros16, h], h ▸ isClz_zero 16⟩
    · refine ⟨_, ?_, isClz_log2 h⟩
      have hl := log2_lt_width h
      simp only [countLeadingZeros16, ne_eq, h, not_false_eq_true, if_true, builtinClz,
        setWidth_ne_zero (by omega : 16 ≤ 32) h, if_false, R.ok_bind, R.pure_eq, Except.ok.injEq]
      rw [BitVec.toNat_setWidth_of_le (by omega)]
      omega
  · by_cases h : u = 0#16
    · exact ⟨16, by subst h; rfl, h ▸ isClz_zero 16⟩
    · refine ⟨_, ?_, isClz_log2 h⟩
      simp only [countLeadingZeros16Lzcnt, lzcnt, h, if_false]

/-- **C16** count_trailing_zeros, both variants. -/
theorem C16_count_trailing_zeros {w : Nat} (v : BitVec w) :
    (∃ c, countTrailingZeros v = .ok c ∧ IsCtz v c) ∧
    (∃ c, countTrailingZerosBmi v = .ok c ∧ IsCtz v c) := by
  by_cases h : v = 0#w
  · subst h
    have hz : IsCtz (0#w) w := ⟨Nat.le_refl _, fun i _ => by simp, fun h => by omega⟩
    exact ⟨⟨w, by simp [countTrailingZeros], hz⟩, ⟨w, by simp [countTrailingZerosBmi, tzcnt], hz⟩⟩
  · exact ⟨⟨_, by simp [countTrailingZeros, builtinCtz, h], isCtz_lowestBit v⟩,
      ⟨_, by simp [countTrailingZerosBmi, tzcnt, h], isCtz_lowestBit v⟩⟩

example : countLeadingZeros8 0x10#8 = .ok 3 ∧ countLeadingZeros 0x10#32 = .ok 27 ∧
    countTrailingZeros 0x10#32 = .ok 4 ∧ countTrailingZeros 0#64 = .ok 64 := by decide +kernel

/-- **C16** byteswap reverses the order of the bytes ... -/
theorem C16_byteswap_bytes {w : Nat} (hw : 8 ∣ w) (v : BitVec w) (i : Nat) (hi : i < w / 8) :
    byteOf (byteswap v) i = byteOf v (w / 8 - 1 - i) := by
  apply BitVec.eq_of_getLsbD_eq
  intro j hj
  unfold byteOf
  rw [BitVec.getLsbD_extractLsb', BitVec.getLsbD_extractLsb', byteswap_bit v hw _ (by omega)]
  congr 2
  omega

/-- ... and is its own inverse. -/
theorem C16_byteswap_involution {w : Nat} (hw : 8 ∣ w) (v : BitVec w) :
    byteswap (byteswap v) = v := by
  apply BitVec.eq_of_getLsbD_eq
  intro j hj
  rw [byteswap_bit _ hw j hj, byteswap_bit _ hw _ (by omega)]
  congr 1
  omega

example : byteswap 0x11223344#32 = 0x44332211#32 ∧ byteswap 0x1122#16 = 0x2211#16 := by
  decide +kernel

/-- **C16** bit_log2 is the rounded down binary logarithm of a non-zero operand. -/
theorem C16_bit_log2 {w : Nat} (v : BitVec w) (h : v ≠ 0#w) :
    ∃ l, bitLog2 v = .ok l ∧ 2 ^ l.toNat ≤ v.toNat ∧ v.toNat < 2 ^ (l.toNat + 1) := by
  refine ⟨_, bitLog2_ok h, ?_⟩
  have : (BitVec.ofNat w v.toNat.log2).toNat = v.toNat.log2 := by
    rw [BitVec.toNat_ofNat]
    exact Nat.mod_eq_of_lt (Nat.lt_trans (log2_lt_width h) (width_lt w))
  rw [this]
  exact ⟨Nat.log2_self_le (toNat_ne_zero h), Nat.lt_log2_self⟩

/-- **C16** is_pow2 holds exactly for 0 and the powers of two. -/
theorem C16_is_pow2 {w : Nat} (v : BitVec w) :
    isPow2 v = true ↔ v.toNat = 0 ∨ IsPowerOfTwo v.toNat := by
  unfold isPow2
  rw [beq_iff_eq]
  constructor
  · intro h
    by_cases hv : v = 0#w
    · left; simp [hv]
    · right
      have hnz := toNat_ne_zero hv
      refine ⟨v.toNat.log2, ?_⟩
      have hle := Nat.log2_self_le hnz
      have hlt : v.toNat < 2 ^ (v.toNat.log2 + 1) := Nat.lt_log2_self
      -- if v were not 2^log2, then v - 1 still has the top bit
      by_cases heq : v.toNat = 2 ^ v.toNat.log2
      · exact heq
      · exfalso
        have hw0 : 0 < w := by
          rcases Nat.eq_zero_or_pos w with h0 | h0
          · subst h0; have := v.isLt; simp only [Nat.pow_zero] at this; omega
          · exact h0
        have h1 : (1#w).toNat = 1 := by
          rw [BitVec.toNat_ofNat]; exact Nat.mod_eq_of_lt (Nat.one_lt_two_pow (by omega))
        have hsub : (v - 1#w).toNat = v.toNat - 1 := by
          rw [BitVec.toNat_sub_of_le (by rw [BitVec.le_def, h1]; omega), h1]
        have hb1 : v.getLsbD v.toNat.log2 = true := by
          rw [BitVec.getLsbD]; exact Nat.testBit_log2 hnz
        have hlog : (v.toNat - 1).log2 = v.toNat.log2 := by
          have hne : v.toNat - 1 ≠ 0 := by
            intro h0
            have h1 : v.toNat = 1 := by omega
            rw [h1] at heq; exact heq rfl
          exact (Nat.log2_eq_iff hne).2 ⟨by omega, by omega⟩
        have hb2 : (v - 1#w).getLsbD v.toNat.log2 = true := by
          have hne : v.toNat - 1 ≠ 0 := by
            intro h0
            have h1 : v.toNat = 1 := by omega
            rw [h1] at heq; exact heq rfl
          have := Nat.testBit_log2 hne
          rw [hlog] at this
          rw [BitVec.getLsbD, hsub]; exact this
        have := congrArg (fun x => BitVec.getLsbD x v.toNat.log2) h
        simp only [BitVec.getLsbD_and, hb1, hb2, Bool.and_self, BitVec.getLsbD_zero] at this
        simp at this
  · rintro (h | ⟨k, hk⟩)
    · have : v = 0#w := BitVec.eq_of_toNat_eq (by simpa using h)
      rw [this]; simp
    · obtain ⟨hkw, he⟩ := eq_twoPow hk
      apply BitVec.eq_of_toNat_eq
      rw [he, and_mask_toNat hkw, ← he, hk]; simp

/-- **C16** mod_pow2, div_pow2_floor and div_pow2_ceil agree with integer arithmetic. -/
theorem C16_mod_div_pow2 {w : Nat} (v d : BitVec w) (hd : IsPowerOfTwo d.toNat) :
    (modPow2 v d).toNat = v.toNat % d.toNat ∧
    (∃ q, divPow2Floor v d = .ok q ∧ q.toNat = v.toNat / d.toNat) ∧
    (v ≠ 0#w → ∃ q, divPow2Ceil v d = .ok q ∧ q.toNat = (v.toNat + d.toNat - 1) / d.toNat) := by
  obtain ⟨k, hk⟩ := hd
  obtain ⟨hkw, he⟩ := eq_twoPow hk
  have hpos : 0 < 2 ^ k := Nat.two_pow_pos k
  have hdnz : d ≠ 0#w := by
    intro h; rw [h] at hk; simp at hk; omega
  have hlog : bitLog2 d = .ok (BitVec.ofNat w k) := by
    rw [bitLog2_ok hdnz, hk, log2_two_pow]
  have hkn : (BitVec.ofNat w k).toNat = k := by
    rw [BitVec.toNat_ofNat]; exact Nat.mod_eq_of_lt (Nat.lt_trans hkw (width_lt w))
  refine ⟨?_, ?_, ?_⟩
  · unfold modPow2; rw [he, and_mask_toNat hkw, ← he, hk]
  · refine ⟨v >>> k, ?_, ?_⟩
    · unfold divPow2Floor shr
      rw [hlog]; simp only [R.ok_bind, hkn]; rw [if_pos hkw]
    · rw [BitVec.toNat_ushiftRight, Nat.shiftRight_eq_div_pow, hk]
  · intro hv
    have hnz := toNat_ne_zero hv
    have h1 : (1#w).toNat = 1 := by
      rw [BitVec.toNat_ofNat]; exact Nat.mod_eq_of_lt (Nat.one_lt_two_pow (by omega))
    have hsub : (v - 1#w).toNat = v.toNat - 1 := by
      rw [BitVec.toNat_sub_of_le (by rw [BitVec.le_def, h1]; omega), h1]
    refine ⟨(v - 1#w) >>> k + 1#w, ?_, ?_⟩
    · unfold divPow2Ceil shr
      rw [hlog]; simp only [R.ok_bind, hkn]; rw [if_pos hkw]; rfl
    · have hq : ((v - 1#w) >>> k).toNat = (v.toNat - 1) / 2 ^ k := by
        rw [BitVec.toNat_ushiftRight, Nat.shiftRight_eq_div_pow, hsub]
      have hlt := v.isLt
      have hle : (v.toNat - 1) / 2 ^ k ≤ v.toNat - 1 := Nat.div_le_self _ _
      rw [BitVec.toNat_add, hq, h1, Nat.mod_eq_of_lt (by omega), hk]
      have : v.toNat + 2 ^ k - 1 = (v.toNat - 1) + 2 ^ k := by omega
      rw [this, Nat.add_div_right _ hpos]

/-- **C16** ceil_pow2 is the least power of two at or above `v`, for `1 ≤ v ≤ 2^31` (32 bits) and
`1 ≤ v ≤ 2^63` (64 bits). -/
theorem C16_ceil_pow2 {w : Nat} (hw : w = 32 ∨ w = 64) (v : BitVec w) (h1 : 1 ≤ v.toNat)
    (h2 : v.toNat ≤ 2 ^ (w - 1)) :
    ∃ r, ceilPow2 v = .ok r ∧ IsPowerOfTwo r.toNat ∧ v.toNat ≤ r.toNat ∧
      ∀ m, IsPowerOfTwo m → v.toNat ≤ m → r.toNat ≤ m := by
  -- the exponent computed by the code
  have key : ∃ e, e < w ∧ ceilPow2 v = .ok (1#w <<< e) ∧ v.toNat ≤ 2 ^ e ∧ (e = 0 ∨ 2 ^ (e - 1) < v.toNat) := by
    have hone : (1#w).toNat = 1 := by rcases hw with rfl | rfl <;> rfl
    have hsub : (v - 1#w).toNat = v.toNat - 1 := by
      rw [BitVec.toNat_sub_of_le (by rw [BitVec.le_def, hone]; omega), hone]
    by_cases hv : v.toNat = 1
    · have hv0 : v - 1#w = 0#w := BitVec.eq_of_toNat_eq (by rw [hsub, hv]; simp)
      refine ⟨0, by omega, ?_, by simp [hv], .inl rfl⟩
      unfold ceilPow2
      rw [hv0, bitLog2_zero]
      rcases hw with rfl | rfl <;> rfl
    · have hv0 : v - 1#w ≠ 0#w := by
        intro h; have := congrArg BitVec.toNat h; rw [hsub] at this; simp at this; omega
      have hle := Nat.log2_self_le (toNat_ne_zero hv0)
      have hlt : (v - 1#w).toNat < 2 ^ ((v - 1#w).toNat.log2 + 1) := Nat.lt_log2_self
      have hL : (v - 1#w).toNat.log2 < w - 1 := (Nat.log2_lt (toNat_ne_zero hv0)).2 (by omega)
      refine ⟨(v - 1#w).toNat.log2 + 1, by omega, ?_, by omega, .inr (by rw [Nat.add_sub_cancel]; omega)⟩
      unfold ceilPow2 shl
      rw [bitLog2_ok hv0]
      generalize (v - 1#w).toNat.log2 = L at *
      simp only [R.ok_bind]
      have hidx : ((BitVec.ofNat w L + 1#w) &&& BitVec.ofNat w (w - 1)).toNat = L + 1 := by
        have e1 : BitVec.ofNat w L + 1#w = BitVec.ofNat w (L + 1) := by rw [BitVec.ofNat_add]
        rw [e1]
        rcases hw with rfl | rfl
        · have := and_mask_toNat (w := 32) (k := 5) (by omega) (BitVec.ofNat 32 (L + 1))
          rw [show BitVec.ofNat 32 (32 - 1) = BitVec.twoPow 32 5 - 1#32 from by decide, this]
          rw [BitVec.toNat_ofNat]; omega
        · have := and_mask_toNat (w := 64) (k := 6) (by omega) (BitVec.ofNat 64 (L + 1))
          rw [show BitVec.ofNat 64 (64 - 1) = BitVec.twoPow 64 6 - 1#64 from by decide, this]
          rw [BitVec.toNat_ofNat]; omega
      rw [hidx, if_pos (by omega)]
  obtain ⟨e, he, hr, hle, hmin⟩ := key
  have hto : (1#w <<< e).toNat = 2 ^ e := by
    rw [BitVec.toNat_shiftLeft, Nat.shiftLeft_eq]
    have hone : (1#w).toNat = 1 := by rcases hw with rfl | rfl <;> rfl
    rw [hone, Nat.one_mul]
    exact Nat.mod_eq_of_lt (Nat.pow_lt_pow_right (by omega) he)
  refine ⟨_, hr, ⟨e, hto⟩, by rw [hto]; exact hle, ?_⟩
  rintro m ⟨k, rfl⟩ hm
  rw [hto]
  apply Nat.pow_le_pow_right (by omega)
  rcases hmin with h | h
  · omega
  · have : 2 ^ (e - 1) < 2 ^ k := by omega
    have := (Nat.pow_lt_pow_iff_right (by omega : 1 < 2)).1 this
    omega

/-- Outside that range `ceil_pow2` wraps to 1. -/
theorem C16_ceil_pow2_wraps {w : Nat} (hw : w = 32 ∨ w = 64) (v : BitVec w)
    (h : v.toNat = 0 ∨ 2 ^ (w - 1) < v.toNat) : ceilPow2 v = .ok 1#w := by
  have hne : v - 1#w ≠ 0#w ∧ (v - 1#w).toNat.log2 = w - 1 := by
    have hone : (1#w).toNat = 1 := by rcases hw with rfl | rfl <;> rfl
    have hge : 2 ^ (w - 1) ≤ (v - 1#w).toNat := by
      rcases h with h | h
      · have : v = 0#w := BitVec.eq_of_toNat_eq (by simpa using h)
        subst this
        rcases hw with rfl | rfl <;> decide
      · have := Nat.two_pow_pos (w - 1)
        rw [BitVec.toNat_sub_of_le (by rw [BitVec.le_def, hone]; omega), hone]; omega
    have hlt := (v - 1#w).isLt
    have hpos := Nat.two_pow_pos (w - 1)
    have hnz : (v - 1#w).toNat ≠ 0 := by omega
    refine ⟨fun h0 => hnz (by rw [h0]; simp), (Nat.log2_eq_iff hnz).2 ⟨hge, ?_⟩⟩
    rw [show w - 1 + 1 = w by omega]; exact hlt
  unfold ceilPow2
  rw [bitLog2_ok hne.1, hne.2]
  rcases hw with rfl | rfl <;> rfl

example : ceilPow2 33#32 = .ok 64#32 ∧ ceilPow2 (BitVec.ofNat 32 (2 ^ 31)) = .ok (BitVec.ofNat 32 (2 ^ 31)) := by
  decide +kernel

/-- **C16** set_bit, unset_bit, flip_bit, has_bit on the 8, 16, 32 and 64 bit types touch exactly the
addressed bit. -/
theorem C16_single_bits {w : Nat} (v : BitVec w) (i : Nat) (hi : i < w) :
    (∃ r, setBit v i = .ok r ∧ r.getLsbD i = true ∧ ∀ j, j ≠ i → r.getLsbD j = v.getLsbD j) ∧
    (∃ r, unsetBit v i = .ok r ∧ r.getLsbD i = false ∧ ∀ j, j ≠ i → r.getLsbD j = v.getLsbD j) ∧
    (∃ r, flipBit v i = .ok r ∧ r.getLsbD i = !v.getLsbD i ∧
      ∀ j, j ≠ i → r.getLsbD j = v.getLsbD j) ∧
    hasBit v i = .ok (v.getLsbD i) := by
  have hp : w ≤ promoted w := by unfold promoted; split <;> omega
  have hip : i < promoted w := by omega
  have hm : ∀ j, (1#(promoted w) <<< i).getLsbD j = decide (j = i) := by
    intro j
    have : 1#(promoted w) <<< i = BitVec.twoPow (promoted w) i := by
      rw [BitVec.twoPow]
    rw [this, BitVec.getLsbD_twoPow]
    simp only [hip, decide_true, Bool.true_and]
    exact decide_eq_decide.2 eq_comm
  have hgt : ∀ j, ¬ j < w → v.getLsbD j = false := fun j hj => BitVec.getLsbD_of_ge v j (by omega)
  have hmask : bitMask w i = .ok (1#(promoted w) <<< i) := by unfold bitMask shl; rw [if_pos hip]
  refine ⟨⟨_, by unfold setBit; rw [hmask]; rfl, ?_, ?_⟩, ⟨_, by unfold unsetBit; rw [hmask]; rfl, ?_, ?_⟩,
    ⟨_, by unfold flipBit; rw [hmask]; rfl, ?_, ?_⟩, ?_⟩
  · rw [BitVec.getLsbD_setWidth, BitVec.getLsbD_or, hm]; simp [hi]
  · intro j hj
    rw [BitVec.getLsbD_setWidth, BitVec.getLsbD_or, hm, BitVec.getLsbD_setWidth]
    by_cases hjw : j < w
    · have : j < promoted w := by omega
      simp [hj, hjw, this]
    · simp [hjw, hgt j hjw]
  · rw [BitVec.getLsbD_setWidth, BitVec.getLsbD_and, BitVec.getLsbD_not, hm]; simp
  · intro j hj
    rw [BitVec.getLsbD_setWidth, BitVec.getLsbD_and, BitVec.getLsbD_not, hm, BitVec.getLsbD_setWidth]
    by_cases hjw : j < w
    · have : j < promoted w := by omega
      simp [hj, hjw, this]
    · simp [hjw, hgt j hjw]
  · rw [BitVec.getLsbD_setWidth, BitVec.getLsbD_xor, hm, BitVec.getLsbD_setWidth]; simp [hi, hip]
  · intro j hj
    rw [BitVec.getLsbD_setWidth, BitVec.getLsbD_xor, hm, BitVec.getLsbD_setWidth]
    by_cases hjw : j < w
    · have : j < promoted w := by omega
      simp [hj, hjw, this]
    · simp [hjw, hgt j hjw]
  · unfold hasBit
    rw [hmask]
    simp only [R.ok_bind, R.pure_eq, Except.ok.injEq]
    cases hv : v.getLsbD i with
    | true =>
      rw [bne_iff_ne]
      intro h0
      have := congrArg (fun x => BitVec.getLsbD x i) h0
      simp only [BitVec.getLsbD_and, hm, BitVec.getLsbD_setWidth, hv, hip, decide_true, Bool.and_true,
        BitVec.getLsbD_zero] at this
      simp at this
    | false =>
      rw [bne_eq_false_iff_eq]
      apply BitVec.eq_of_getLsbD_eq
      intro j hj
      simp only [BitVec.getLsbD_and, hm, BitVec.getLsbD_setWidth, BitVec.getLsbD_zero]
      by_cases hji : j = i
      · subst hji; simp [hv]
      · simp [hji]

example : setBit 0x80#8 0 = .ok 0x81#8 ∧ unsetBit 0xFF#8 7 = .ok 0x7F#8 ∧ hasBit 0x80#8 7 = .ok true := by
  decide +kernel

/-! ### C17 -/

/-- **C17** align_up is the least multiple at or above the value, if that does not wrap around. -/
theorem C17_align_up (v a : BitVec 64) (ha : IsPowerOfTwo a.toNat)
    (hno : v.toNat + (a.toNat - 1) < 2 ^ 64) : IsAlignUp v.toNat a.toNat (alignUp v a).toNat := by
  obtain ⟨k, hk⟩ := ha
  obtain ⟨hkw, he⟩ := eq_twoPow hk
  have hpos : 0 < 2 ^ k := Nat.two_pow_pos k
  have hm1 : (a - 1#64).toNat = 2 ^ k - 1 := by
    rw [BitVec.toNat_sub_of_le (by rw [BitVec.le_def, hk]; exact hpos), hk]; rfl
  have hval : (alignUp v a).toNat = (v.toNat + (2 ^ k - 1)) / 2 ^ k * 2 ^ k := by
    unfold alignUp alignUpMasked
    have := and_not_mask_toNat hkw (v + (a - 1#64))
    rw [← he] at this
    rw [this, BitVec.toNat_add, hm1, Nat.mod_eq_of_lt (by omega)]
  rw [hval, hk]
  refine ⟨Nat.dvd_mul_left _ _, ?_, ?_⟩
  · have h1 := Nat.div_add_mod (v.toNat + (2 ^ k - 1)) (2 ^ k)
    have h2 := Nat.mod_lt (v.toNat + (2 ^ k - 1)) hpos
    rw [Nat.mul_comm] at h1; omega
  · rintro m ⟨c, rfl⟩ hm
    rw [Nat.mul_comm (2 ^ k) c]
    apply Nat.mul_le_mul_right
    have : (v.toNat + (2 ^ k - 1)) / 2 ^ k < c + 1 := by
      rw [Nat.div_lt_iff_lt_mul hpos, Nat.add_mul, Nat.mul_comm c]; omega
    omega

/-- **C17** align_down is the greatest multiple at or below the value. -/
theorem C17_align_down (v a : BitVec 64) (ha : IsPowerOfTwo a.toNat) :
    IsAlignDown v.toNat a.toNat (alignDown v a).toNat := by
  obtain ⟨k, hk⟩ := ha
  obtain ⟨hkw, he⟩ := eq_twoPow hk
  have hpos : 0 < 2 ^ k := Nat.two_pow_pos k
  have hval : (alignDown v a).toNat = v.toNat / 2 ^ k * 2 ^ k := by
    unfold alignDown alignDownMasked
    have := and_not_mask_toNat hkw v
    rw [← he] at this
    exact this
  rw [hval, hk]
  refine ⟨Nat.dvd_mul_left _ _, Nat.div_mul_le_self _ _, ?_⟩
  rintro m ⟨c, rfl⟩ hm
  rw [Nat.mul_comm (2 ^ k) c]
  apply Nat.mul_le_mul_right
  rw [Nat.le_div_iff_mul_le hpos, Nat.mul_comm]; exact hm

/-- **C17** is_aligned decides divisibility. -/
theorem C17_is_aligned (v a : BitVec 64) (ha : IsPowerOfTwo a.toNat) :
    isAligned v a = true ↔ a.toNat ∣ v.toNat := by
  obtain ⟨k, hk⟩ := ha
  obtain ⟨hkw, he⟩ := eq_twoPow hk
  unfold isAligned
  rw [beq_iff_eq]
  have := and_mask_toNat hkw v
  rw [← he] at this
  constructor
  · intro h
    rw [← h] at this
    rw [hk]; exact Nat.dvd_of_mod_eq_zero this.symm
  · intro h
    apply BitVec.eq_of_toNat_eq
    rw [this, ← hk, Nat.mod_eq_zero_of_dvd h]; rfl

example : alignUp 300#64 16#64 = 304#64 ∧ alignDown 300#64 16#64 = 288#64 ∧
    isAligned 304#64 16#64 = true ∧ IsPowerOfTwo (16#64).toNat :=
  ⟨by decide, by decide, by decide, 4, rfl⟩

/-- **C17** int_div_ceil computes the ceiling of a positive numerator in any integer type that can
represent 0 and both operands, without overflow; other operands are rejected by the contract. -/
theorem C17_int_div_ceil (lo hi nom denom : Int) (hlo : lo ≤ 0) (hn : nom ≤ hi) :
    (0 < nom → 0 < denom → ∃ q, intDivCeil lo hi nom denom = .ok q ∧
      nom ≤ q * denom ∧ (q - 1) * denom < nom) ∧
    (nom ≤ 0 ∨ denom ≤ 0 → intDivCeil lo hi nom denom = .error .assert) := by
  constructor
  · intro h1 h2
    have hq : (nom - 1).tdiv denom = (nom - 1) / denom := Int.tdiv_eq_ediv_of_nonneg (by omega)
    have hnn : 0 ≤ (nom - 1) / denom := Int.ediv_nonneg (by omega) (by omega)
    have hle : (nom - 1) / denom ≤ nom - 1 := Int.ediv_le_self _ (by omega)
    have hmod := Int.emod_add_mul_ediv (nom - 1) denom
    have hm1 := Int.emod_nonneg (nom - 1) (by omega : denom ≠ 0)
    have hm2 := Int.emod_lt_of_pos (nom - 1) h2
    refine ⟨1 + (nom - 1) / denom, ?_, ?_, ?_⟩
    · unfold intDivCeil
      rw [show decide (nom > 0 ∧ denom > 0) = true by simp [h1, h2]]
      simp only [ccAssert_true, R.ok_bind, hq]
      rw [if_pos (by omega)]; rfl
    · rw [Int.add_mul, Int.mul_comm ((nom - 1) / denom)]; omega
    · rw [show 1 + (nom - 1) / denom - 1 = (nom - 1) / denom by omega, Int.mul_comm]; omega
  · intro h
    unfold intDivCeil
    rw [show decide (nom > 0 ∧ denom > 0) = false by simp; omega]
    rfl

/-- **C17** int_ceil_to_multiple is the least multiple at or above the value (including 0), if the
sum does not wrap around. -/
theorem C17_int_ceil_to_multiple {w : Nat} (v m : BitVec w) (hm : m ≠ 0#w)
    (hno : v.toNat + (m.toNat - 1) < 2 ^ w) :
    ∃ r, intCeilToMultiple v m = .ok r ∧ IsAlignUp v.toNat m.toNat r.toNat := by
  have hmz := toNat_ne_zero hm
  have hw0 : 0 < w := by
    rcases Nat.eq_zero_or_pos w with h0 | h0
    · subst h0; have := m.isLt; simp only [Nat.pow_zero] at this; omega
    · exact h0
  have h1 : (1#w).toNat = 1 := by
    rw [BitVec.toNat_ofNat]; exact Nat.mod_eq_of_lt (Nat.one_lt_two_pow (by omega))
  refine ⟨_, by unfold intCeilToMultiple; rw [if_neg hm], ?_⟩
  have hs : (v + m - 1#w).toNat = v.toNat + (m.toNat - 1) := by
    have : v + m - 1#w = v + (m - 1#w) := by
      rw [BitVec.sub_eq_add_neg, BitVec.sub_eq_add_neg, BitVec.add_assoc]
    rw [this, BitVec.toNat_add, BitVec.toNat_sub_of_le (by rw [BitVec.le_def, h1]; omega), h1]
    exact Nat.mod_eq_of_lt hno
  have hle := Nat.div_mul_le_self (v.toNat + (m.toNat - 1)) m.toNat
  have hr : ((v + m - 1#w) / m * m).toNat = (v.toNat + (m.toNat - 1)) / m.toNat * m.toNat := by
    rw [BitVec.toNat_mul, BitVec.toNat_udiv, hs]
    exact Nat.mod_eq_of_lt (by omega)
  rw [hr]
  have hpos : 0 < m.toNat := by omega
  refine ⟨Nat.dvd_mul_left _ _, ?_, ?_⟩
  · have h1 := Nat.div_add_mod (v.toNat + (m.toNat - 1)) m.toNat
    have h2 := Nat.mod_lt (v.toNat + (m.toNat - 1)) hpos
    rw [Nat.mul_comm] at h1; omega
  · rintro x ⟨c, rfl⟩ hx
    rw [Nat.mul_comm m.toNat c]
    apply Nat.mul_le_mul_right
    have : (v.toNat + (m.toNat - 1)) / m.toNat < c + 1 := by
      rw [Nat.div_lt_iff_lt_mul hpos, Nat.add_mul, Nat.mul_comm c]; omega
    omega

example : intDivCeil 0 100 17 8 = .ok 3 ∧ intCeilToMultiple 17#32 8#32 = .ok 24#32 ∧
    intCeilToMultiple 0#32 8#32 = .ok 0#32 := by decide +kernel

/-- **C17** wrapped_increment and wrapped_decrement stay below `max` and are inverse. -/
theorem C17_wrapped {w : Nat} (pos max : BitVec w) (h : pos.toNat < max.toNat) :
    (wrappedIncrement pos max).toNat = (pos.toNat + 1) % max.toNat ∧
    (∃ d, wrappedDecrement pos max = .ok d ∧ d.toNat < max.toNat ∧ wrappedIncrement d max = pos) ∧
    wrappedDecrement (wrappedIncrement pos max) max = .ok pos := by
  have hmax := max.isLt
  have hone : (1#w).toNat = 1 := by
    rw [BitVec.toNat_ofNat]; apply Nat.mod_eq_of_lt
    rcases Nat.eq_zero_or_pos w with h0 | h0
    · subst h0; simp only [Nat.pow_zero] at *; omega
    · exact Nat.one_lt_two_pow (by omega)
  have hinc : ∀ p : BitVec w, p.toNat < max.toNat → (p + 1#w).toNat = p.toNat + 1 := by
    intro p hp
    rw [BitVec.toNat_add, hone]; exact Nat.mod_eq_of_lt (by omega)
  have hdec : ∀ p : BitVec w, p.toNat ≠ 0 → (p - 1#w).toNat = p.toNat - 1 := by
    intro p hp
    rw [BitVec.toNat_sub_of_le (by rw [BitVec.le_def, hone]; omega), hone]
  have heq : ∀ a b : BitVec w, a = b ↔ a.toNat = b.toNat :=
    fun a b => ⟨fun h => by rw [h], BitVec.eq_of_toNat_eq⟩
  refine ⟨?_, ?_, ?_⟩
  · unfold wrappedIncrement
    by_cases he : pos + 1#w = max
    · rw [if_pos he]
      have := (heq _ _).1 he
      rw [hinc pos h] at this
      rw [this, Nat.mod_self]; simp
    · rw [if_neg he, hinc pos h]
      have : pos.toNat + 1 ≠ max.toNat := by
        intro h'; apply he; rw [heq, hinc pos h]; exact h'
      exact (Nat.mod_eq_of_lt (by omega)).symm
  · unfold wrappedDecrement
    rw [show decide (0 < max.toNat) = true by simp; omega]
    simp only [ccAssert_true, R.ok_bind, R.pure_eq]
    refine ⟨_, rfl, ?_, ?_⟩
    · split
      · rw [hdec max (by omega)]; omega
      · rename_i hp
        rw [hdec pos (by intro h0; exact hp (by rw [heq]; simpa using h0))]; omega
    · unfold wrappedIncrement
      by_cases hp : pos = 0#w
      · rw [if_pos hp]
        have : max - 1#w + 1#w = max := by
          rw [heq, hinc _ (by rw [hdec max (by omega)]; omega), hdec max (by omega)]; omega
        rw [if_pos this, hp]
      · rw [if_neg hp]
        have hp0 : pos.toNat ≠ 0 := by intro h0; exact hp (by rw [heq]; simpa using h0)
        have : pos - 1#w + 1#w = pos := by
          rw [heq, hinc _ (by rw [hdec pos hp0]; omega), hdec pos hp0]; omega
        rw [this, if_neg (by intro h0; rw [h0] at h; omega)]
  · unfold wrappedDecrement
    rw [show decide (0 < max.toNat) = true by simp; omega]
    simp only [ccAssert_true, R.ok_bind, R.pure_eq, Except.ok.injEq]
    unfold wrappedIncrement
    by_cases he : pos + 1#w = max
    · rw [if_pos he, if_pos rfl, ← he, heq, hdec _ (by rw [hinc pos h]; omega), hinc pos h]; omega
    · rw [if_neg he, if_neg (by intro h0; have := (heq _ _).1 h0; rw [hinc pos h] at this; simp at this),
        heq, hdec _ (by rw [hinc pos h]; omega), hinc pos h]; omega

example : wrappedIncrement 6#32 7#32 = 0#32 ∧ wrappedDecrement 0#32 7#32 = .ok 6#32 := by decide +kernel

/-- **C17** max/min return one of their arguments and a bound for both. -/
theorem C17_min_max {T : Type} (lt : T → T → Bool) (W : Verif.Sort.StrictWeak lt) (a b : T) :
    (max lt a b = a ∨ max lt a b = b) ∧ lt (max lt a b) a = false ∧ lt (max lt a b) b = false ∧
    (min lt a b = a ∨ min lt a b = b) ∧ lt a (min lt a b) = false ∧ lt b (min lt a b) = false := by
  have as : lt a b = true → lt b a = false := by
    intro h; cases hb : lt b a with
    | false => rfl
    | true => have := W.trans a b a h hb; rw [W.irrefl] at this; simp at this
  unfold max min
  cases h : lt a b with
  | true => simp [as h, W.irrefl]
  | false => simp [W.irrefl, h]

/-- **C17** clamp: lies between the bounds, is the value itself if that already does; reversed bounds
are rejected by the contract. -/
theorem C17_clamp {T : Type} (lt : T → T → Bool) (W : Verif.Sort.StrictWeak lt) (v lo hi : T) :
    (lt hi lo = false → ∃ r, clamp lt v lo hi = .ok r ∧ lt r lo = false ∧ lt hi r = false ∧
      (lt v lo = false → lt hi v = false → r = v) ∧
      (lt v lo = true → r = lo) ∧ (lt hi v = true → r = hi)) ∧
    (lt hi lo = true → clamp lt v lo hi = .error .assert) := by
  constructor
  · intro hb
    unfold clamp
    rw [hb]
    simp only [Bool.not_false, ccAssert_true, R.ok_bind, R.pure_eq]
    refine ⟨_, rfl, ?_⟩
    cases h1 : lt v lo with
    | true =>
      simp only [if_true]
      refine ⟨W.irrefl _, hb, by simp, by simp, fun h2 => ?_⟩
      have := W.trans _ _ _ h2 h1
      rw [hb] at this; simp at this
    | false =>
      simp only [Bool.false_eq_true, if_false]
      cases h2 : lt hi v with
      | true => simp [W.irrefl, hb]
      | false => simp [h1, h2]
  · intro hb; unfold clamp; rw [hb]; rfl

example : clamp (fun a b : Nat => decide (a < b)) 9 2 5 = .ok 5 := by decide

end Verif.Bits
