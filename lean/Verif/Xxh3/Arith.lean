import Verif.Xxh3.Spec

/-! Reads and arithmetic are what the specification says. -/
namespace Verif.Xxh3
open Spec

theorem rd8_ok {m : Mem} {i : Nat} (h : i < m.length) : rd8 m i = .ok (at' m i) := by
  simp [rd8, at', List.getElem?_eq_getElem h, List.getD]

theorem ext_hi {w : Nat} (x : BitVec w) (y : BitVec 8) (k : Nat) : (x ++ y).extractLsb' (8 + k) 8 = x.extractLsb' k 8 := by
  apply BitVec.eq_of_getLsbD_eq
  intro j hj
  simp only [BitVec.getLsbD_extractLsb', hj, decide_true, Bool.true_and, BitVec.getLsbD_append]
  have e : ¬ 8 + k + j < 8 := by omega
  simp only [e, decide_false, cond_false, Bool.cond_false]
  have e : 8 + k + j - 8 = k + j := by omega
  rw [e]; simp

theorem ext_lo {w : Nat} (x : BitVec w) (y : BitVec 8) : (x ++ y).extractLsb' 0 8 = y := by
  apply BitVec.eq_of_getLsbD_eq
  intro j hj
  simp [BitVec.getLsbD_extractLsb', hj, BitVec.getLsbD_append]

theorem ext_self (y : BitVec 8) : y.extractLsb' 0 8 = y := by
  apply BitVec.eq_of_getLsbD_eq
  intro j hj
  simp [BitVec.getLsbD_extractLsb', hj]

theorem swap32_bytes (a b c d : Byte) : swap32 (a ++ b ++ c ++ d : BitVec 32) = (d ++ c ++ b ++ a : BitVec 32) := by
  unfold swap32
  have e0 : (a ++ b ++ c ++ d : BitVec 32).extractLsb' 0 8 = d := ext_lo _ _
  have e1 : (a ++ b ++ c ++ d : BitVec 32).extractLsb' 8 8 = c := (ext_hi (a ++ b ++ c) d 0).trans (ext_lo _ _)
  have e2 : (a ++ b ++ c ++ d : BitVec 32).extractLsb' 16 8 = b := (ext_hi (a ++ b ++ c) d 8).trans ((ext_hi (a ++ b) c 0).trans (ext_lo _ _))
  have e3 : (a ++ b ++ c ++ d : BitVec 32).extractLsb' 24 8 = a :=
    (ext_hi (a ++ b ++ c) d 16).trans ((ext_hi (a ++ b) c 8).trans ((ext_hi a b 0).trans (ext_self a)))
  rw [e0, e1, e2, e3]

theorem swap64_bytes (a b c d e f g h : Byte) :
    swap64 (a ++ b ++ c ++ d ++ e ++ f ++ g ++ h : BitVec 64) = (h ++ g ++ f ++ e ++ d ++ c ++ b ++ a : BitVec 64) := by
  unfold swap64
  have e0 : (a ++ b ++ c ++ d ++ e ++ f ++ g ++ h : BitVec 64).extractLsb' 0 8 = h := ext_lo _ _
  have e1 : (a ++ b ++ c ++ d ++ e ++ f ++ g ++ h : BitVec 64).extractLsb' 8 8 = g := (ext_hi (a ++ b ++ c ++ d ++ e ++ f ++ g) h 0).trans (ext_lo _ _)
  have e2 : (a ++ b ++ c ++ d ++ e ++ f ++ g ++ h : BitVec 64).extractLsb' 16 8 = f :=
    (ext_hi (a ++ b ++ c ++ d ++ e ++ f ++ g) h 8).trans ((ext_hi (a ++ b ++ c ++ d ++ e ++ f) g 0).trans (ext_lo _ _))
  have e3 : (a ++ b ++ c ++ d ++ e ++ f ++ g ++ h : BitVec 64).extractLsb' 24 8 = e :=
    (ext_hi (a ++ b ++ c ++ d ++ e ++ f ++ g) h 16).trans ((ext_hi (a ++ b ++ c ++ d ++ e ++ f) g 8).trans ((ext_hi (a ++ b ++ c ++ d ++ e) f 0).trans (ext_lo _ _)))
  have e4 : (a ++ b ++ c ++ d ++ e ++ f ++ g ++ h : BitVec 64).extractLsb' 32 8 = d :=
    (ext_hi (a ++ b ++ c ++ d ++ e ++ f ++ g) h 24).trans ((ext_hi (a ++ b ++ c ++ d ++ e ++ f) g 16).trans ((ext_hi (a ++ b ++ c ++ d ++ e) f 8).trans
      ((ext_hi (a ++ b ++ c ++ d) e 0).trans (ext_lo _ _))))
  have e5 : (a ++ b ++ c ++ d ++ e ++ f ++ g ++ h : BitVec 64).extractLsb' 40 8 = c :=
    (ext_hi (a ++ b ++ c ++ d ++ e ++ f ++ g) h 32).trans ((ext_hi (a ++ b ++ c ++ d ++ e ++ f) g 24).trans ((ext_hi (a ++ b ++ c ++ d ++ e) f 16).trans
      ((ext_hi (a ++ b ++ c ++ d) e 8).trans ((ext_hi (a ++ b ++ c) d 0).trans (ext_lo _ _)))))
  have e6 : (a ++ b ++ c ++ d ++ e ++ f ++ g ++ h : BitVec 64).extractLsb' 48 8 = b :=
    (ext_hi (a ++ b ++ c ++ d ++ e ++ f ++ g) h 40).trans ((ext_hi (a ++ b ++ c ++ d ++ e ++ f) g 32).trans ((ext_hi (a ++ b ++ c ++ d ++ e) f 24).trans
      ((ext_hi (a ++ b ++ c ++ d) e 16).trans ((ext_hi (a ++ b ++ c) d 8).trans ((ext_hi (a ++ b) c 0).trans (ext_lo _ _))))))
  have e7 : (a ++ b ++ c ++ d ++ e ++ f ++ g ++ h : BitVec 64).extractLsb' 56 8 = a :=
    (ext_hi (a ++ b ++ c ++ d ++ e ++ f ++ g) h 48).trans ((ext_hi (a ++ b ++ c ++ d ++ e ++ f) g 40).trans ((ext_hi (a ++ b ++ c ++ d ++ e) f 32).trans
      ((ext_hi (a ++ b ++ c ++ d) e 24).trans ((ext_hi (a ++ b ++ c) d 16).trans ((ext_hi (a ++ b) c 8).trans ((ext_hi a b 0).trans (ext_self a)))))))
  rw [e0, e1, e2, e3, e4, e5, e6, e7]

theorem readLE32_ok (cfg : Cfg) {m : Mem} {i : Nat} (h : i + 4 ≤ m.length) : readLE32 cfg m i = .ok (le32 m i) := by
  unfold readLE32 read32
  rw [rd8_ok (by omega), rd8_ok (by omega), rd8_ok (by omega), rd8_ok (by omega)]
  simp only [R.ok_bind]
  cases cfg.little
  · simp only [Bool.false_eq_true, if_false]; rw [swap32_bytes]; rfl
  · rfl

theorem readLE64_ok (cfg : Cfg) {m : Mem} {i : Nat} (h : i + 8 ≤ m.length) : readLE64 cfg m i = .ok (le64 m i) := by
  unfold readLE64 read64
  rw [rd8_ok (by omega), rd8_ok (by omega), rd8_ok (by omega), rd8_ok (by omega), rd8_ok (by omega), rd8_ok (by omega), rd8_ok (by omega), rd8_ok (by omega)]
  simp only [R.ok_bind]
  cases cfg.little
  · simp only [Bool.false_eq_true, if_false]; rw [swap64_bytes]; rfl
  · rfl

/-! ### products -/

theorem lo_hi_mul (a b : Nat) (ha : a < 2 ^ 32) (hb : b < 2 ^ 32) : a * b ≤ (2 ^ 32 - 1) * (2 ^ 32 - 1) :=
  Nat.mul_le_mul (by omega) (by omega)

theorem mult32to64_toNat (x y : U64) : (mult32to64 x y).toNat = (x.toNat % 2 ^ 32) * (y.toNat % 2 ^ 32) := by
  unfold mult32to64
  rw [BitVec.toNat_mul]
  simp only [BitVec.toNat_setWidth]
  have h := lo_hi_mul (x.toNat % 2 ^ 32) (y.toNat % 2 ^ 32) (Nat.mod_lt _ (by decide)) (Nat.mod_lt _ (by decide))
  have e1 : x.toNat % 2 ^ 32 % 2 ^ 64 = x.toNat % 2 ^ 32 := Nat.mod_eq_of_lt (by omega)
  have e2 : y.toNat % 2 ^ 32 % 2 ^ 64 = y.toNat % 2 ^ 32 := Nat.mod_eq_of_lt (by omega)
  rw [e1, e2, Nat.mod_eq_of_lt (by omega)]

theorem and32 (x : U64) : (x &&& 0xFFFFFFFF#64).toNat = x.toNat % 2 ^ 32 := by
  rw [BitVec.toNat_and]
  exact Nat.and_two_pow_sub_one_eq_mod x.toNat 32

theorem shr32 (x : U64) : (x >>> 32).toNat = x.toNat / 2 ^ 32 := by
  rw [BitVec.toNat_ushiftRight, Nat.shiftRight_eq_div_pow]

theorem mult64to128_ok (cfg : Cfg) (a b : U64) :
    mult64to128 cfg a b = (BitVec.ofNat 64 (a.toNat * b.toNat), BitVec.ofNat 64 (a.toNat * b.toNat / 2 ^ 64)) := by
  have ha := a.isLt
  have hb := b.isLt
  unfold mult64to128
  split
  · have hm : a.toNat * b.toNat < 2 ^ 128 := by
      have := Nat.mul_lt_mul'' ha hb
      rwa [← Nat.pow_add] at this
    have e : (a.setWidth 128 * b.setWidth 128 : BitVec 128).toNat = a.toNat * b.toNat := by
      rw [BitVec.toNat_mul]
      simp only [BitVec.toNat_setWidth]
      rw [Nat.mod_eq_of_lt (show a.toNat < 2 ^ 128 by omega), Nat.mod_eq_of_lt (show b.toNat < 2 ^ 128 by omega), Nat.mod_eq_of_lt hm]
    simp only [Prod.mk.injEq]
    constructor
    · apply BitVec.eq_of_toNat_eq
      rw [BitVec.toNat_setWidth, e, BitVec.toNat_ofNat]
    · apply BitVec.eq_of_toNat_eq
      rw [BitVec.toNat_setWidth, BitVec.toNat_ushiftRight, e, BitVec.toNat_ofNat, Nat.shiftRight_eq_div_pow]
  · dsimp only
    have hll := mult32to64_toNat (a &&& 0xFFFFFFFF#64) (b &&& 0xFFFFFFFF#64)
    have hhl := mult32to64_toNat (a >>> 32) (b &&& 0xFFFFFFFF#64)
    have hlh := mult32to64_toNat (a &&& 0xFFFFFFFF#64) (b >>> 32)
    have hhh := mult32to64_toNat (a >>> 32) (b >>> 32)
    generalize mult32to64 (a &&& 0xFFFFFFFF#64) (b &&& 0xFFFFFFFF#64) = ll at *
    generalize mult32to64 (a >>> 32) (b &&& 0xFFFFFFFF#64) = hl at *
    generalize mult32to64 (a &&& 0xFFFFFFFF#64) (b >>> 32) = lh at *
    generalize mult32to64 (a >>> 32) (b >>> 32) = hh at *
    rw [and32, and32, Nat.mod_mod, Nat.mod_mod] at hll
    rw [shr32, and32, Nat.mod_mod, Nat.mod_eq_of_lt (show a.toNat / 2 ^ 32 < 2 ^ 32 by omega)] at hhl
    rw [shr32, and32, Nat.mod_mod, Nat.mod_eq_of_lt (show b.toNat / 2 ^ 32 < 2 ^ 32 by omega)] at hlh
    rw [shr32, shr32, Nat.mod_eq_of_lt (show a.toNat / 2 ^ 32 < 2 ^ 32 by omega), Nat.mod_eq_of_lt (show b.toNat / 2 ^ 32 < 2 ^ 32 by omega)] at hhh
    have key : a.toNat * b.toNat = ll.toNat + 2 ^ 32 * hl.toNat + 2 ^ 32 * lh.toNat + 2 ^ 64 * hh.toNat := by
      rw [hll, hhl, hlh, hhh]
      have e1 : a.toNat = a.toNat % 2 ^ 32 + 2 ^ 32 * (a.toNat / 2 ^ 32) := (Nat.mod_add_div _ _).symm
      have e2 : b.toNat = b.toNat % 2 ^ 32 + 2 ^ 32 * (b.toNat / 2 ^ 32) := (Nat.mod_add_div _ _).symm
      generalize a.toNat % 2 ^ 32 = al at *
      generalize a.toNat / 2 ^ 32 = ah at *
      generalize b.toNat % 2 ^ 32 = bl at *
      generalize b.toNat / 2 ^ 32 = bh at *
      rw [e1, e2]
      simp only [Nat.add_mul, Nat.mul_add]
      have f1 : 2 ^ 32 * ah * (2 ^ 32 * bh) = 2 ^ 64 * (ah * bh) := by
        rw [show (2 : Nat) ^ 64 = 2 ^ 32 * 2 ^ 32 from rfl]; simp only [Nat.mul_assoc, Nat.mul_left_comm]
      have f2 : 2 ^ 32 * ah * bl = 2 ^ 32 * (ah * bl) := Nat.mul_assoc _ _ _
      have f3 : al * (2 ^ 32 * bh) = 2 ^ 32 * (al * bh) := Nat.mul_left_comm _ _ _
      rw [f1, f2, f3]; omega
    have bll : ll.toNat ≤ (2 ^ 32 - 1) * (2 ^ 32 - 1) := by rw [hll]; exact lo_hi_mul _ _ (Nat.mod_lt _ (by decide)) (Nat.mod_lt _ (by decide))
    have bhl : hl.toNat ≤ (2 ^ 32 - 1) * (2 ^ 32 - 1) := by rw [hhl]; exact lo_hi_mul _ _ (by omega) (Nat.mod_lt _ (by decide))
    have blh : lh.toNat ≤ (2 ^ 32 - 1) * (2 ^ 32 - 1) := by rw [hlh]; exact lo_hi_mul _ _ (Nat.mod_lt _ (by decide)) (by omega)
    have bhh : hh.toNat ≤ (2 ^ 32 - 1) * (2 ^ 32 - 1) := by rw [hhh]; exact lo_hi_mul _ _ (by omega) (by omega)
    generalize a.toNat * b.toNat = p at *
    clear hll hhl hlh hhh ha hb
    have hc : (ll >>> 32 + (hl &&& 0xFFFFFFFF#64) + lh).toNat = ll.toNat / 2 ^ 32 + hl.toNat % 2 ^ 32 + lh.toNat := by
      rw [BitVec.toNat_add, BitVec.toNat_add, shr32, and32]
      omega
    generalize ll >>> 32 + (hl &&& 0xFFFFFFFF#64) + lh = cr at *
    simp only [Prod.mk.injEq]
    constructor
    · apply BitVec.eq_of_toNat_eq
      have e : (cr <<< 32 ||| (ll &&& 0xFFFFFFFF#64)).toNat = (cr.toNat % 2 ^ 32) * 2 ^ 32 + ll.toNat % 2 ^ 32 := by
        rw [BitVec.toNat_or, and32, BitVec.toNat_shiftLeft, Nat.shiftLeft_eq]
        have e : cr.toNat * 2 ^ 32 % 2 ^ 64 = (cr.toNat % 2 ^ 32) <<< 32 := by
          rw [Nat.shiftLeft_eq]; omega
        rw [e, ← Nat.shiftLeft_add_eq_or_of_lt (Nat.mod_lt _ (by decide)), Nat.shiftLeft_eq]
      rw [e, BitVec.toNat_ofNat]
      omega
    · apply BitVec.eq_of_toNat_eq
      rw [BitVec.toNat_add, BitVec.toNat_add, shr32, shr32, BitVec.toNat_ofNat]
      omega

theorem fold_ok (cfg : Cfg) (a b : U64) : mul128_fold64 cfg a b = fold a b := by
  unfold mul128_fold64 fold
  rw [mult64to128_ok]

theorem sum_zero (f : Nat → U64) : sum 0 f = 0#64 := rfl

theorem sum_succ (n : Nat) (f : Nat → U64) : sum (n + 1) f = sum n f + f n := by
  simp [sum, List.range_succ]

end Verif.Xxh3
