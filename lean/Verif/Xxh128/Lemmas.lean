import Verif.Xxh128.Spec
import Verif.Xxh3.Inj

/-! The functions compute what Spec.lean says. -/
namespace Verif.Xxh128
open Xxh3
open Xxh3.Spec (at' le32 le64 mix fold longAcc merge seeded mul4to8)
open Verif.Xxh128.Spec (num ofNum both mix32 start upTo3 upTo8 upTo16 upTo128 upTo240 short long xxh128 xxh128Secret)

theorem mul128_ok (cfg : Cfg) (a b : U64) : mul128 cfg a b = ofNum (a.toNat * b.toNat) := by
  unfold mul128 ofNum
  rw [mult64to128_ok]

theorem rotl32_eq (x : U32) : rotl32 x 13 = x.rotateLeft 13 := rfl

theorem len_1to3_ok {cfg : Cfg} {m sec : Mem} {len : Nat} {seed : U64} (h1 : 1 ≤ len) (h3 : len ≤ 3) (hm : len ≤ m.length) (hs : 136 ≤ sec.length) :
    len_1to3 cfg m len sec seed = .ok (upTo3 sec seed m len) := by
  unfold len_1to3
  rw [xassert_ok (.inr (by simp [h1, h3]))]
  have e : len >>> 1 = len / 2 := by rw [Nat.shiftRight_eq_div_pow]
  rw [rd8_ok (i := 0) (by omega), e, rd8_ok (i := len / 2) (by omega), rd8_ok (i := len - 1) (by omega)]
  simp only [R.ok_bind]
  rw [readLE32_ok _ (by omega), readLE32_ok _ (by omega), readLE32_ok _ (by omega), readLE32_ok _ (by omega)]
  simp only [R.ok_bind]
  unfold upTo3
  have e : BitVec.ofNat 32 len = (BitVec.ofNat 8 len).setWidth 32 := by
    apply BitVec.eq_of_toNat_eq
    rw [BitVec.toNat_setWidth, BitVec.toNat_ofNat, BitVec.toNat_ofNat]; omega
  rw [e, combined_eq, swap32_bytes, rotl32_eq]
  rfl

theorem shl1 (x : U64) : x <<< 1 = x * 2#64 := by
  apply BitVec.eq_of_toNat_eq
  rw [BitVec.toNat_shiftLeft, BitVec.toNat_mul, Nat.shiftLeft_eq]; rfl

theorem len_4to8_ok {cfg : Cfg} {m sec : Mem} {len : Nat} {seed : U64} (h1 : 4 ≤ len) (h3 : len ≤ 8) (hm : len ≤ m.length) (hs : 136 ≤ sec.length) :
    len_4to8 cfg m len sec seed = .ok (upTo8 sec seed m len) := by
  unfold len_4to8
  rw [xassert_ok (.inr (by simp [h1, h3]))]
  simp only [R.ok_bind]
  rw [readLE32_ok _ (by omega), readLE32_ok _ (by omega), readLE64_ok _ (by omega), readLE64_ok _ (by omega)]
  simp only [R.ok_bind]
  have e : (PRIME64_1 + (BitVec.ofNat 64 len <<< 2)).toNat = PRIME64_1.toNat + 4 * len := by
    rw [BitVec.toNat_add, BitVec.toNat_shiftLeft, BitVec.toNat_ofNat, Nat.shiftLeft_eq, show PRIME64_1.toNat = 0x9E3779B185EBCA87 from rfl]
    omega
  rw [join32, mul128_ok, e, shl1]
  rfl

/-- The low 32 bits go through a multiplication, the high ones are kept. -/
theorem high_eq (hi : U64) : (hi &&& 0xFFFFFFFF00000000#64) + mult32to64 ((hi.setWidth 32).setWidth 64) (PRIME32_2.setWidth 64) =
    BitVec.ofNat 64 (hi.toNat / 2 ^ 32 * 2 ^ 32 + hi.toNat % 2 ^ 32 * PRIME32_2.toNat) := by
  apply BitVec.eq_of_toNat_eq
  have hh := hi.isLt
  have hm : (hi &&& 0xFFFFFFFF00000000#64).toNat = hi.toNat / 2 ^ 32 * 2 ^ 32 := by
    have e : hi &&& 0xFFFFFFFF00000000#64 = hi - (hi &&& 0xFFFFFFFF#64) := by
      have h1 : (hi &&& 0xFFFFFFFF00000000#64) = (hi >>> 32) <<< 32 := by
        apply BitVec.eq_of_getLsbD_eq
        intro j hj
        rw [BitVec.getLsbD_and, BitVec.getLsbD_shiftLeft, BitVec.getLsbD_ushiftRight]
        have hc : (0xFFFFFFFF00000000#64).getLsbD j = decide (32 ≤ j) := by
          have : ∀ j : Fin 64, (0xFFFFFFFF00000000#64).getLsbD j = decide (32 ≤ j.1) := by decide
          exact this ⟨j, hj⟩
        rw [hc]
        by_cases h : j < 32
        · simp [h]
        · simp [h, hj, show 32 + (j - 32) = j by omega, show 32 ≤ j by omega]
      rw [h1]
      apply BitVec.eq_of_toNat_eq
      rw [BitVec.toNat_shiftLeft, shr32, Nat.shiftLeft_eq, BitVec.toNat_sub, and32]
      omega
    rw [e, BitVec.toNat_sub, and32]
    omega
  rw [BitVec.toNat_add, hm, mult32to64_toNat, BitVec.toNat_setWidth, BitVec.toNat_setWidth, BitVec.toNat_setWidth, BitVec.toNat_ofNat, show PRIME32_2.toNat = 0x85EBCA77 from rfl]
  rw [Nat.mod_eq_of_lt (show hi.toNat % 2 ^ 32 < 2 ^ 64 by omega), Nat.mod_mod]

theorem high_eq' (hi : U64) : hi + mult32to64 ((hi.setWidth 32).setWidth 64) ((PRIME32_2 - 1#32).setWidth 64) =
    BitVec.ofNat 64 (hi.toNat / 2 ^ 32 * 2 ^ 32 + hi.toNat % 2 ^ 32 * PRIME32_2.toNat) := by
  apply BitVec.eq_of_toNat_eq
  have hh := hi.isLt
  rw [BitVec.toNat_add, mult32to64_toNat, BitVec.toNat_setWidth, BitVec.toNat_setWidth, BitVec.toNat_setWidth, BitVec.toNat_ofNat, show PRIME32_2.toNat = 0x85EBCA77 from rfl,
    show (PRIME32_2 - 1#32).toNat = 0x85EBCA76 from rfl]
  rw [Nat.mod_eq_of_lt (show hi.toNat % 2 ^ 32 < 2 ^ 64 by omega), Nat.mod_mod, show 0x85EBCA76 % 2 ^ 64 % 2 ^ 32 = 0x85EBCA76 from rfl]
  omega

/-- The product of 128 bits and 64 bits. -/
theorem mul_num (cfg : Cfg) (low high : U64) : (⟨(mul128 cfg low PRIME64_2).low64, (mul128 cfg low PRIME64_2).high64 + high * PRIME64_2⟩ : Hash) = ofNum (num ⟨low, high⟩ * PRIME64_2.toNat) := by
  rw [mul128_ok]
  unfold ofNum num
  dsimp only
  have hl := low.isLt
  have hh := high.isLt
  rw [Hash.mk.injEq]
  constructor
  · apply BitVec.eq_of_toNat_eq
    rw [BitVec.toNat_ofNat, BitVec.toNat_ofNat, show PRIME64_2.toNat = 0xC2B2AE3D27D4EB4F from rfl]
    omega
  · apply BitVec.eq_of_toNat_eq
    have e : (high.toNat * 2 ^ 64 + low.toNat) * PRIME64_2.toNat / 2 ^ 64 = high.toNat * PRIME64_2.toNat + low.toNat * PRIME64_2.toNat / 2 ^ 64 := by
      rw [Nat.add_mul, Nat.mul_right_comm, Nat.mul_comm _ (2 ^ 64), Nat.mul_add_div (by decide)]
    rw [BitVec.toNat_add, BitVec.toNat_mul, BitVec.toNat_ofNat, BitVec.toNat_ofNat, e]
    generalize high.toNat * PRIME64_2.toNat = a
    generalize low.toNat * PRIME64_2.toNat / 2 ^ 64 = b
    omega

theorem len_9to16_ok {cfg : Cfg} {m sec : Mem} {len : Nat} {seed : U64} (h1 : 8 < len) (h3 : len ≤ 16) (hm : len ≤ m.length) (hs : 136 ≤ sec.length) :
    len_9to16 cfg m len sec seed = .ok (upTo16 sec seed m len) := by
  unfold len_9to16
  rw [xassert_ok (.inr (by simp [h3]; omega))]
  simp only [R.ok_bind]
  rw [readLE64_ok _ (by omega), readLE64_ok _ (by omega), readLE64_ok _ (by omega), readLE64_ok _ (by omega), readLE64_ok _ (by omega), readLE64_ok _ (by omega)]
  simp only [R.ok_bind]
  have eh : ∀ (p hi : U64), (if cfg.ptr32 = true then p + ((hi &&& 0xFFFFFFFF00000000#64) + mult32to64 ((hi.setWidth 32).setWidth 64) (PRIME32_2.setWidth 64))
      else p + (hi + mult32to64 ((hi.setWidth 32).setWidth 64) ((PRIME32_2 - 1#32).setWidth 64))) =
      p + BitVec.ofNat 64 (hi.toNat / 2 ^ 32 * 2 ^ 32 + hi.toNat % 2 ^ 32 * PRIME32_2.toNat) := by
    intro p hi
    rw [high_eq, high_eq', ite_self]
  have el : BitVec.ofNat 64 (len - 1) <<< 54 = BitVec.ofNat 64 ((len - 1) * 2 ^ 54) := by
    apply BitVec.eq_of_toNat_eq
    rw [BitVec.toNat_shiftLeft, BitVec.toNat_ofNat, BitVec.toNat_ofNat, Nat.shiftLeft_eq]
    omega
  rw [eh, el]
  unfold upTo16
  dsimp only
  rw [← mul_num cfg, mul128_ok cfg _ PRIME64_1]
  rfl

theorem len_0to16_ok {cfg : Cfg} {m sec : Mem} {len : Nat} {seed : U64} (h : len ≤ 16) (hm : len ≤ m.length) (hs : 136 ≤ sec.length) :
    len_0to16 cfg m len sec seed = .ok (short sec seed m len) := by
  unfold len_0to16 short
  rw [xassert_ok (.inr (by simp [h]))]
  simp only [R.ok_bind]
  by_cases h8 : len > 8
  · rw [if_pos h8, if_neg (by omega), if_neg (by omega), if_neg (by omega), if_pos h, len_9to16_ok h8 h hm hs]
  · rw [if_neg h8]
    by_cases h4 : len ≥ 4
    · rw [if_pos h4, if_neg (by omega), if_neg (by omega), if_pos (by omega), len_4to8_ok h4 (by omega) hm hs]
    · rw [if_neg h4]
      by_cases h0 : len = 0
      · rw [if_neg (by simp [h0]), if_pos h0, readLE64_ok _ (by omega), readLE64_ok _ (by omega), readLE64_ok _ (by omega), readLE64_ok _ (by omega)]; rfl
      · rw [if_pos h0, if_neg h0, if_pos (by omega), len_1to3_ok (by omega) (by omega) hm hs]

theorem mix32B_ok {cfg : Cfg} {m sec : Mem} {i j s : Nat} {seed : U64} {acc : Hash} (hi : i + 16 ≤ m.length) (hj : j + 16 ≤ m.length) (hs : s + 32 ≤ sec.length) :
    mix32B cfg acc m i j sec s seed = .ok (mix32 sec seed m acc i j s) := by
  unfold mix32B
  rw [mix16B_ok hi (by omega), mix16B_ok hj (by omega), readLE64_ok _ (by omega), readLE64_ok _ (by omega), readLE64_ok _ (by omega), readLE64_ok _ (by omega)]
  rfl

theorem finish_ok (acc : Hash) (len : Nat) (seed : U64) : finish acc len seed = Spec.finish acc len seed := by
  unfold finish Spec.finish
  dsimp only
  rw [BitVec.zero_sub]

theorem len_17to128_ok {cfg : Cfg} {m sec : Mem} {len size : Nat} {seed : U64} (h1 : 16 < len) (h2 : len ≤ 128) (hm : len ≤ m.length) (hs : 136 ≤ sec.length)
    (hz : 136 ≤ size) : len_17to128 cfg m len sec size seed = .ok (upTo128 sec seed m len) := by
  unfold len_17to128
  rw [xassert_ok (.inr (by simp [SECRET_SIZE_MIN, hz])), xassert_ok (.inr (by simp [h1, h2]))]
  simp only [R.ok_bind]
  have g1 : (len > 96) ∨ (len ≤ 96 ∧ len > 64) ∨ (len ≤ 64 ∧ len > 32) ∨ len ≤ 32 := by omega
  unfold upTo128
  rcases g1 with h | h | h | h
  · rw [if_pos h, mix32B_ok (by omega) (by omega) (by omega), R.ok_bind, if_pos (by omega), mix32B_ok (by omega) (by omega) (by omega), R.ok_bind,
      if_pos (by omega), mix32B_ok (by omega) (by omega) (by omega), R.ok_bind, mix32B_ok (by omega) (by omega) (by omega), R.ok_bind, finish_ok,
      show (len - 1) / 32 + 1 = 4 by omega]
    rfl
  · rw [if_neg (by omega), if_pos (by omega), mix32B_ok (by omega) (by omega) (by omega), R.ok_bind,
      if_pos (by omega), mix32B_ok (by omega) (by omega) (by omega), R.ok_bind, mix32B_ok (by omega) (by omega) (by omega), R.ok_bind, finish_ok,
      show (len - 1) / 32 + 1 = 3 by omega]
    rfl
  · rw [if_neg (by omega), if_neg (by omega),
      if_pos (by omega), mix32B_ok (by omega) (by omega) (by omega), R.ok_bind, mix32B_ok (by omega) (by omega) (by omega), R.ok_bind, finish_ok,
      show (len - 1) / 32 + 1 = 2 by omega]
    rfl
  · rw [if_neg (by omega), if_neg (by omega), if_neg (by omega), mix32B_ok (by omega) (by omega) (by omega), R.ok_bind, finish_ok,
      show (len - 1) / 32 + 1 = 1 by omega]
    rfl

theorem mixLoop_ok {cfg : Cfg} {m sec : Mem} {d o : Nat} {seed : U64} : ∀ (n i : Nat) (acc : Hash), (∀ k, k < n → 32 * (i + k) + 32 ≤ m.length) →
    (∀ k, k < n → 32 * (i + k - d) + o + 32 ≤ sec.length) →
    mixLoop cfg m sec d o seed i n acc = .ok ((List.range n).foldl (fun acc k => mix32 sec seed m acc (32 * (k + i)) (32 * (k + i) + 16) (32 * (k + i - d) + o)) acc) := by
  intro n
  induction n with
  | zero => intro i acc _ _; rfl
  | succ n ih =>
    intro i acc hm hs
    have h0 := hm 0 (by omega)
    have h0' := hs 0 (by omega)
    rw [mixLoop, mix32B_ok (by omega) (by omega) (by omega), R.ok_bind, ih (i + 1) _ (fun k hk => by have := hm (k + 1) (by omega); omega)
      (fun k hk => by have := hs (k + 1) (by omega); rwa [show i + 1 + k - d = i + (k + 1) - d by omega])]
    rw [List.range_succ_eq_map, List.foldl_cons, List.foldl_map, Nat.zero_add]
    congr 1
    congr 1
    funext acc k
    rw [show k.succ + i = k + (i + 1) by omega]

theorem len_129to240_ok {cfg : Cfg} {m sec : Mem} {len size : Nat} {seed : U64} (h1 : 128 < len) (h2 : len ≤ 240) (hm : len ≤ m.length) (hs : 136 ≤ sec.length)
    (hz : 136 ≤ size) : len_129to240 cfg m len sec size seed = .ok (upTo240 sec seed m len) := by
  unfold len_129to240
  rw [xassert_ok (.inr (by simp [SECRET_SIZE_MIN, hz])), xassert_ok (.inr (by simp [h1, h2]))]
  simp only [R.ok_bind]
  rw [mixLoop_ok 4 0 _ (fun k hk => by omega) (fun k hk => by omega), R.ok_bind, xassert_ok (.inr (by simp; omega)), R.ok_bind, mixLoop_ok _ 4 _ (fun k hk => by omega) (fun k hk => by omega), R.ok_bind]
  unfold SECRET_SIZE_MIN
  rw [mix32B_ok (by omega) (by omega) (by omega), R.ok_bind, finish_ok]
  unfold upTo240
  simp only [Nat.sub_zero, Nat.add_zero, Nat.add_sub_cancel, BitVec.zero_sub]
  rfl

theorem hashLong_ok (cfg : Cfg) {m sec : Mem} {len size : Nat} (hl : 240 < len) (hm : len ≤ m.length) (hz : 136 ≤ size) (hs : size ≤ sec.length) :
    hashLong_internal cfg m len sec size = .ok (long sec size m len) := by
  unfold hashLong_internal
  rw [loop_ok cfg.toCfg hl hm hz hs, R.ok_bind, xassert_ok (.inr (by simp; omega)), R.ok_bind, mergeAccs_ok _ (longAcc_length _ _ _ _ _) (by omega), R.ok_bind,
    mergeAccs_ok _ (longAcc_length _ _ _ _ _) (by omega)]
  rfl

theorem hashLong_withSeed_ok (cfg : Cfg) {m : Mem} {len : Nat} {seed : U64} (hl : 240 < len) (hm : len ≤ m.length) :
    hashLong_withSeed cfg m len seed = .ok (long (seeded seed) 192 m len) := by
  unfold hashLong_withSeed SECRET_DEFAULT_SIZE
  split
  · rename_i h
    rw [h, seeded_zero, hashLong_ok cfg hl hm (by omega) (by rw [kSecret_length]; omega)]
  · rw [initCustomSecret_ok _ seed (List.length_replicate ..), R.ok_bind, hashLong_ok cfg hl hm (by omega) (by rw [seeded_length]; omega)]

theorem withSeed_ok (cfg : Cfg) {m : Mem} {len : Nat} {seed : U64} (hm : len ≤ m.length) :
    withSeed cfg m len seed = .ok (if len ≤ 240 then short kSecret seed m len else long (seeded seed) 192 m len) := by
  have hk := kSecret_length
  unfold withSeed
  by_cases h16 : len ≤ 16
  · rw [if_pos h16, if_pos (by omega), len_0to16_ok h16 hm (by omega)]
  · rw [if_neg h16]
    by_cases h128 : len ≤ 128
    · rw [if_pos h128, if_pos (by omega), len_17to128_ok (by omega) h128 hm (by omega) (by decide)]
      unfold short
      rw [if_neg (by omega), if_neg (by omega), if_neg (by omega), if_neg (by omega), if_pos h128]
    · rw [if_neg h128]
      by_cases h240 : len ≤ 240
      · rw [if_pos h240, if_pos (by omega), len_129to240_ok (by omega) h240 hm (by omega) (by decide)]
        unfold short
        rw [if_neg (by omega), if_neg (by omega), if_neg (by omega), if_neg (by omega), if_neg h128]
      · rw [if_neg h240, if_neg (by omega), hashLong_withSeed_ok cfg (by omega) hm]

theorem withSecret_ok (cfg : Cfg) {m sec : Mem} {len size : Nat} (hm : len ≤ m.length) (hz : 136 ≤ size) (hs : size ≤ sec.length) :
    withSecret cfg m len sec size = .ok (if len ≤ 240 then short sec 0#64 m len else long sec size m len) := by
  unfold withSecret
  rw [xassert_ok (.inr (by simp [SECRET_SIZE_MIN, hz])), R.ok_bind]
  by_cases h16 : len ≤ 16
  · rw [if_pos h16, if_pos (by omega), len_0to16_ok h16 hm (by omega)]
  · rw [if_neg h16]
    by_cases h128 : len ≤ 128
    · rw [if_pos h128, if_pos (by omega), len_17to128_ok (by omega) h128 hm (by omega) hz]
      unfold short
      rw [if_neg (by omega), if_neg (by omega), if_neg (by omega), if_neg (by omega), if_pos h128]
    · rw [if_neg h128]
      by_cases h240 : len ≤ 240
      · rw [if_pos h240, if_pos (by omega), len_129to240_ok (by omega) h240 hm (by omega) hz]
        unfold short
        rw [if_neg (by omega), if_neg (by omega), if_neg (by omega), if_neg (by omega), if_neg h128]
      · rw [if_neg h240, if_neg (by omega), hashLong_ok cfg (by omega) hm hz hs]

end Verif.Xxh128
