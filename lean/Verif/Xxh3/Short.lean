import Verif.Xxh3.Arith

/-! Messages of up to 240 bytes. -/
namespace Verif.Xxh3
open Spec

theorem xassert_ok {cfg : Cfg} {c : Bool} (h : cfg.debug = false ∨ c = true) : xassert cfg c = .ok () := by
  unfold xassert
  rcases h with h | h
  · rw [h]; rfl
  · rw [h]; cases cfg.debug <;> rfl

theorem shl_setWidth (x : Byte) (k : Nat) (hk : 8 + k ≤ 32) : (x.setWidth 32 <<< k : U32).toNat = x.toNat * 2 ^ k := by
  have hx := x.isLt
  have : x.toNat * 2 ^ k < 2 ^ 32 := by
    calc x.toNat * 2 ^ k < 2 ^ 8 * 2 ^ k := by
          exact Nat.mul_lt_mul_of_pos_right hx (Nat.pow_pos (by decide))
      _ = 2 ^ (8 + k) := (Nat.pow_add _ _ _).symm
      _ ≤ 2 ^ 32 := Nat.pow_le_pow_right (by decide) hk
  rw [BitVec.toNat_shiftLeft, BitVec.toNat_setWidth, Nat.shiftLeft_eq, Nat.mod_eq_of_lt (show x.toNat < 2 ^ 32 by omega), Nat.mod_eq_of_lt this]

theorem append_eq {n k : Nat} (x : BitVec n) (y : BitVec k) : (x ++ y).toNat = x.toNat * 2 ^ k + y.toNat := by
  rw [BitVec.toNat_append, ← Nat.shiftLeft_add_eq_or_of_lt y.isLt, Nat.shiftLeft_eq]

theorem combined_eq (c1 c2 c3 l : Byte) :
    ((c1.setWidth 32 <<< 16) ||| (c2.setWidth 32 <<< 24) ||| (c3.setWidth 32 <<< 0) ||| (l.setWidth 32 <<< 8) : U32) = (c2 ++ c1 ++ l ++ c3 : BitVec 32) := by
  apply BitVec.eq_of_getLsbD_eq
  intro j hj
  simp only [BitVec.getLsbD_or, BitVec.getLsbD_shiftLeft, BitVec.getLsbD_setWidth, BitVec.getLsbD_append, hj, decide_true, Bool.true_and]
  have hc1 : ∀ k, 8 ≤ k → c1.getLsbD k = false := fun k hk => BitVec.getLsbD_of_ge _ _ hk
  have hc2 : ∀ k, 8 ≤ k → c2.getLsbD k = false := fun k hk => BitVec.getLsbD_of_ge _ _ hk
  have hc3 : ∀ k, 8 ≤ k → c3.getLsbD k = false := fun k hk => BitVec.getLsbD_of_ge _ _ hk
  have hl : ∀ k, 8 ≤ k → l.getLsbD k = false := fun k hk => BitVec.getLsbD_of_ge _ _ hk
  by_cases h1 : j < 8
  · simp [h1, show j < 16 by omega, show j < 24 by omega, show j < 32 by omega]
  · by_cases h2 : j < 16
    · simp [h1, h2, show j - 8 < 8 by omega, show j < 24 by omega, hc3 j (by omega), show j - 8 < 32 by omega]
    · by_cases h3 : j < 24
      · simp [h1, h2, h3, hc3 j (by omega), hl (j - 8) (by omega), show ¬ j - 8 < 8 by omega, show j - 8 - 8 < 8 by omega, show j - 16 < 32 by omega,
          show j - 8 - 8 = j - 16 by omega, show j - 16 < 8 by omega]
      · simp [h1, h2, h3, hc3 j (by omega), hl (j - 8) (by omega), hc1 (j - 16) (by omega), show ¬ j - 8 < 8 by omega, show ¬ j - 16 < 8 by omega,
          show j - 8 - 8 = j - 16 by omega, show j - 16 - 8 = j - 24 by omega, show j - 24 < 32 by omega]

theorem len_1to3_ok {cfg : Cfg} {m sec : Mem} {len : Nat} {seed : U64} (h1 : 1 ≤ len) (h3 : len ≤ 3) (hm : len ≤ m.length) (hs : 136 ≤ sec.length) :
    len_1to3 cfg m len sec seed = .ok (upTo3 sec seed m len) := by
  unfold len_1to3
  rw [xassert_ok (.inr (by simp [h1, h3]))]
  have e : len >>> 1 = len / 2 := by rw [Nat.shiftRight_eq_div_pow]
  rw [rd8_ok (i := 0) (by omega), e, rd8_ok (i := len / 2) (by omega), rd8_ok (i := len - 1) (by omega)]
  simp only [R.ok_bind]
  rw [readLE32_ok cfg (by omega), readLE32_ok cfg (by omega)]
  simp only [R.ok_bind]
  unfold upTo3
  have e : BitVec.ofNat 32 len = (BitVec.ofNat 8 len).setWidth 32 := by
    apply BitVec.eq_of_toNat_eq
    rw [BitVec.toNat_setWidth, BitVec.toNat_ofNat, BitVec.toNat_ofNat]; omega
  rw [e, combined_eq]

theorem join32 (a b : U32) : (b.setWidth 64 + (a.setWidth 64 <<< 32) : U64) = (a ++ b : BitVec 64) := by
  apply BitVec.eq_of_toNat_eq
  have ha := a.isLt
  have hb := b.isLt
  have e : (a ++ b : BitVec 64).toNat = a.toNat * 2 ^ 32 + b.toNat := append_eq a b
  rw [e, BitVec.toNat_add, BitVec.toNat_shiftLeft, BitVec.toNat_setWidth, BitVec.toNat_setWidth, Nat.shiftLeft_eq]
  omega

theorem len_4to8_ok {cfg : Cfg} {m sec : Mem} {len : Nat} {seed : U64} (hd : cfg.debug = false ∨ len < 8) (h1 : 4 ≤ len) (h3 : len ≤ 8)
    (hm : len ≤ m.length) (hs : 136 ≤ sec.length) :
    len_4to8 cfg m len sec seed = .ok (upTo8 sec seed m len) := by
  unfold len_4to8
  rw [xassert_ok (by rcases hd with h | h; exact .inl h; exact .inr (by simp [h1, h]))]
  simp only [R.ok_bind]
  rw [readLE32_ok cfg (by omega), readLE32_ok cfg (by omega), readLE64_ok cfg (by omega), readLE64_ok cfg (by omega)]
  simp only [R.ok_bind]
  rw [join32]
  rfl

theorem len_9to16_ok {cfg : Cfg} {m sec : Mem} {len : Nat} {seed : U64} (h1 : 8 < len) (h3 : len ≤ 16) (hm : len ≤ m.length) (hs : 136 ≤ sec.length) :
    len_9to16 cfg m len sec seed = .ok (upTo16 sec seed m len) := by
  unfold len_9to16
  rw [xassert_ok (.inr (by simp [h3]; omega))]
  simp only [R.ok_bind]
  rw [readLE64_ok cfg (by omega), readLE64_ok cfg (by omega), readLE64_ok cfg (by omega), readLE64_ok cfg (by omega), readLE64_ok cfg (by omega), readLE64_ok cfg (by omega)]
  simp only [R.ok_bind]
  rw [fold_ok]
  rfl

theorem len_0to16_ok {cfg : Cfg} {m sec : Mem} {len : Nat} {seed : U64} (hd : cfg.debug = false ∨ len ≠ 8) (h : len ≤ 16) (hm : len ≤ m.length) (hs : 136 ≤ sec.length) :
    len_0to16 cfg m len sec seed = .ok (short sec seed m len) := by
  unfold len_0to16 short
  rw [xassert_ok (.inr (by simp [h]))]
  simp only [R.ok_bind]
  by_cases h8 : len > 8
  · rw [if_pos h8, if_neg (by omega), if_neg (by omega), if_neg (by omega), if_pos h, len_9to16_ok h8 h hm hs]
  · rw [if_neg h8]
    by_cases h4 : len ≥ 4
    · rw [if_pos h4, if_neg (by omega), if_neg (by omega), if_pos (by omega), len_4to8_ok (by rcases hd with e | e; exact .inl e; exact .inr (by omega)) h4 (by omega) hm hs]
    · rw [if_neg h4]
      by_cases h0 : len = 0
      · rw [if_neg (by simp [h0]), if_pos h0, readLE64_ok cfg (by omega), readLE64_ok cfg (by omega)]; rfl
      · rw [if_pos h0, if_neg h0, if_pos (by omega), len_1to3_ok (by omega) (by omega) hm hs]

theorem mix16B_ok {cfg : Cfg} {m sec : Mem} {i s : Nat} {seed : U64} (hm : i + 16 ≤ m.length) (hs : s + 16 ≤ sec.length) :
    mix16B cfg m i sec s seed = .ok (mix sec seed m i s) := by
  unfold mix16B
  rw [readLE64_ok cfg (by omega), readLE64_ok cfg (by omega), readLE64_ok cfg (by omega), readLE64_ok cfg (by omega)]
  simp only [R.ok_bind]
  rw [fold_ok]
  rfl

theorem mixTwo_ok {cfg : Cfg} {m sec : Mem} {i j s t : Nat} {seed acc : U64} (hi : i + 16 ≤ m.length) (hj : j + 16 ≤ m.length) (hs : s + 16 ≤ sec.length)
    (ht : t + 16 ≤ sec.length) : mixTwo cfg m i j sec s t seed acc = .ok (acc + (mix sec seed m i s + mix sec seed m j t)) := by
  unfold mixTwo
  rw [mix16B_ok hi hs, mix16B_ok hj ht]
  simp only [R.ok_bind]
  rw [BitVec.add_assoc]

theorem len_17to128_ok {cfg : Cfg} {m sec : Mem} {len size : Nat} {seed : U64} (h1 : 16 < len) (h2 : len ≤ 128) (hm : len ≤ m.length) (hs : 136 ≤ sec.length)
    (hz : 136 ≤ size) : len_17to128 cfg m len sec size seed = .ok (upTo128 sec seed m len) := by
  unfold len_17to128
  rw [xassert_ok (.inr (by simp [SECRET_SIZE_MIN, hz])), xassert_ok (.inr (by simp [h1, h2]))]
  simp only [R.ok_bind]
  have g1 : (len > 96) ∨ (len ≤ 96 ∧ len > 64) ∨ (len ≤ 64 ∧ len > 32) ∨ len ≤ 32 := by omega
  unfold upTo128
  rcases g1 with h | h | h | h
  · rw [if_pos h, mixTwo_ok (by omega) (by omega) (by omega) (by omega), R.ok_bind, if_pos (by omega), mixTwo_ok (by omega) (by omega) (by omega) (by omega), R.ok_bind,
      if_pos (by omega), mixTwo_ok (by omega) (by omega) (by omega) (by omega), R.ok_bind, mixTwo_ok (by omega) (by omega) (by omega) (by omega), R.ok_bind,
      show (len - 1) / 32 + 1 = 4 by omega]
    simp only [sum_succ, sum_zero, Nat.reduceMul, Nat.reduceAdd, BitVec.zero_add]
    congr 2
    ac_rfl
  · rw [if_neg (by omega), if_pos (by omega), mixTwo_ok (by omega) (by omega) (by omega) (by omega), R.ok_bind,
      if_pos (by omega), mixTwo_ok (by omega) (by omega) (by omega) (by omega), R.ok_bind, mixTwo_ok (by omega) (by omega) (by omega) (by omega), R.ok_bind,
      show (len - 1) / 32 + 1 = 3 by omega]
    simp only [sum_succ, sum_zero, Nat.reduceMul, Nat.reduceAdd, BitVec.zero_add]
    congr 2
    ac_rfl
  · rw [if_neg (by omega), if_neg (by omega),
      if_pos (by omega), mixTwo_ok (by omega) (by omega) (by omega) (by omega), R.ok_bind, mixTwo_ok (by omega) (by omega) (by omega) (by omega), R.ok_bind,
      show (len - 1) / 32 + 1 = 2 by omega]
    simp only [sum_succ, sum_zero, Nat.reduceMul, Nat.reduceAdd, BitVec.zero_add]
    congr 2
    ac_rfl
  · rw [if_neg (by omega), if_neg (by omega), if_neg (by omega), mixTwo_ok (by omega) (by omega) (by omega) (by omega), R.ok_bind,
      show (len - 1) / 32 + 1 = 1 by omega]
    simp only [sum_succ, sum_zero, Nat.reduceMul, Nat.reduceAdd, BitVec.zero_add]

theorem mixLoop_ok {cfg : Cfg} {m sec : Mem} {d o : Nat} {seed : U64} : ∀ (n i : Nat) (acc : U64), (∀ k, k < n → 16 * (i + k) + 16 ≤ m.length) →
    (∀ k, k < n → 16 * (i + k - d) + o + 16 ≤ sec.length) →
    mixLoop cfg m sec d o seed i n acc = .ok (acc + sum n fun k => mix sec seed m (16 * (i + k)) (16 * (i + k - d) + o)) := by
  intro n
  induction n with
  | zero => intro i acc _ _; simp [mixLoop, sum_zero]
  | succ n ih =>
    intro i acc hm hs
    rw [mixLoop, mix16B_ok (i := 16 * i) (s := 16 * (i - d) + o) (hm 0 (by omega)) (hs 0 (by omega)), R.ok_bind, ih (i + 1) _ (fun k hk => by have := hm (k + 1) (by omega); omega)
      (fun k hk => by have := hs (k + 1) (by omega); rwa [show i + 1 + k - d = i + (k + 1) - d by omega])]
    congr 1
    have : ∀ (n : Nat) (f : Nat → U64), sum (n + 1) f = f 0 + sum n fun k => f (k + 1) := by
      intro n f
      induction n with
      | zero => rw [sum_succ, sum_zero, sum_zero, BitVec.zero_add, BitVec.add_zero]
      | succ n ih => rw [sum_succ, ih, sum_succ, BitVec.add_assoc]
    rw [this, ← BitVec.add_assoc]
    congr 2
    funext k
    rw [show i + 1 + k = i + (k + 1) by omega]

theorem len_129to240_ok {cfg : Cfg} {m sec : Mem} {len size : Nat} {seed : U64} (h1 : 128 < len) (h2 : len ≤ 240) (hm : len ≤ m.length) (hs : 136 ≤ sec.length)
    (hz : 136 ≤ size) : len_129to240 cfg m len sec size seed = .ok (upTo240 sec seed m len) := by
  unfold len_129to240
  rw [xassert_ok (.inr (by simp [SECRET_SIZE_MIN, hz])), xassert_ok (.inr (by simp [h1, h2]))]
  simp only [R.ok_bind]
  rw [mixLoop_ok 8 0 _ (fun k hk => by omega) (fun k hk => by omega), R.ok_bind, xassert_ok (.inr (by simp; omega)), R.ok_bind, mixLoop_ok _ 8 _ (fun k hk => by omega) (fun k hk => by omega), R.ok_bind]
  unfold SECRET_SIZE_MIN
  rw [mix16B_ok (by omega) (by omega), R.ok_bind]
  unfold upTo240
  simp only [Nat.zero_add, Nat.sub_zero, Nat.add_zero, Nat.add_sub_cancel_left, Nat.add_comm 8]
  rfl

end Verif.Xxh3
