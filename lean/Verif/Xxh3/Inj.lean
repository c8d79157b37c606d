import Verif.Xxh3.StreamRun

/-! The steps of the hash for short data can be undone. -/
namespace Verif.Xxh3
open Spec

theorem xorshift_inj {n : Nat} (h : 28 ≤ n) {x y : U64} (e : xorshift64 x n = xorshift64 y n) : x = y := by
  have key : ∀ z : U64, z = xorshift64 z n ^^^ (xorshift64 z n >>> n) ^^^ (xorshift64 z n >>> (n + n)) := by
    intro z
    apply BitVec.eq_of_getLsbD_eq
    intro j hj
    simp only [xorshift64, BitVec.getLsbD_xor, BitVec.getLsbD_ushiftRight]
    rw [← Nat.add_assoc n n j, ← Nat.add_assoc n (n + n) j, Nat.add_assoc n n j, BitVec.getLsbD_of_ge z (n + (n + n) + j) (by omega)]
    cases z.getLsbD j <;> cases z.getLsbD (n + j) <;> cases z.getLsbD (n + (n + j)) <;> rfl
  rw [key x, key y, e]

theorem mul_inj {c d x y : U64} (hc : c * d = 1#64) (e : x * c = y * c) : x = y := by
  have := congrArg (· * d) e
  simp only [BitVec.mul_assoc, hc, BitVec.mul_one] at this
  exact this

theorem avalanche_inj {x y : U64} (e : avalanche x = avalanche y) : x = y := by
  unfold avalanche at e
  exact xorshift_inj (by omega) (mul_inj (d := 0x8DA8EE41D6DF849#64) (by decide) (xorshift_inj (by omega) e))

theorem xor_inj {x y c : U64} (e : x ^^^ c = y ^^^ c) : x = y := by
  have := congrArg (· ^^^ c) e
  simpa [BitVec.xor_assoc] using this

theorem xor_inj' {x y c : U64} (e : c ^^^ x = c ^^^ y) : x = y := by
  rw [BitVec.xor_comm c x, BitVec.xor_comm c y] at e
  exact xor_inj e

theorem add_inj {x y c : U64} (e : c + x = c + y) : x = y := by
  have := congrArg (· - c) e
  simpa [BitVec.add_comm c, BitVec.add_sub_cancel] using this

theorem sub_inj {x y c : U64} (e : c - x = c - y) : x = y := by
  rw [BitVec.sub_eq_add_neg, BitVec.sub_eq_add_neg] at e
  have := congrArg (fun z => -z) (add_inj e)
  simpa using this

theorem setWidth_inj {x y : U32} (e : x.setWidth 64 = y.setWidth 64) : x = y := by
  apply BitVec.eq_of_toNat_eq
  have := congrArg BitVec.toNat e
  rw [BitVec.toNat_setWidth, BitVec.toNat_setWidth, Nat.mod_eq_of_lt (by have := x.isLt; omega), Nat.mod_eq_of_lt (by have := y.isLt; omega)] at this
  exact this

/-- The bits of a rotation. -/
theorem rotl_bit {x : U64} {r j : Nat} (hr : r < 64) (hj : j < 64) : (rotl64 x r).getLsbD j = x.getLsbD ((j + (64 - r)) % 64) := by
  unfold rotl64
  rw [BitVec.getLsbD_or, BitVec.getLsbD_shiftLeft, BitVec.getLsbD_ushiftRight]
  by_cases h : j < r
  · rw [Nat.mod_eq_of_lt (by omega), Nat.add_comm (64 - r)]
    simp [h]
  · rw [show (j + (64 - r)) % 64 = j - r by omega, BitVec.getLsbD_of_ge x (64 - r + j) (by omega)]
    simp [h, hj]

def tri (a b : Nat) (x : U64) : U64 := x ^^^ (rotl64 x a ^^^ rotl64 x b)

theorem tri_twice {a b : Nat} (ha : a < 64) (hb : b < 64) (x : U64) : tri a b (tri a b x) = tri ((a + a) % 64) ((b + b) % 64) x := by
  apply BitVec.eq_of_getLsbD_eq
  intro j hj
  have h2a : (a + a) % 64 < 64 := Nat.mod_lt _ (by omega)
  have h2b : (b + b) % 64 < 64 := Nat.mod_lt _ (by omega)
  have m : ∀ k, k % 64 < 64 := fun k => Nat.mod_lt _ (by omega)
  unfold tri
  simp only [BitVec.getLsbD_xor, rotl_bit ha hj, rotl_bit hb hj, rotl_bit h2a hj, rotl_bit h2b hj]
  simp only [BitVec.getLsbD_xor, rotl_bit ha (m _), rotl_bit hb (m _)]
  rw [show ((j + (64 - a)) % 64 + (64 - a)) % 64 = (j + (64 - (a + a) % 64)) % 64 by omega, show ((j + (64 - b)) % 64 + (64 - b)) % 64 = (j + (64 - (b + b) % 64)) % 64 by omega,
    show ((j + (64 - a)) % 64 + (64 - b)) % 64 = ((j + (64 - b)) % 64 + (64 - a)) % 64 by omega]
  generalize x.getLsbD j = p0
  generalize x.getLsbD ((j + (64 - a)) % 64) = p1
  generalize x.getLsbD ((j + (64 - b)) % 64) = p2
  generalize x.getLsbD ((j + (64 - (a + a) % 64)) % 64) = p3
  generalize x.getLsbD ((j + (64 - (b + b) % 64)) % 64) = p4
  generalize x.getLsbD (((j + (64 - b)) % 64 + (64 - a)) % 64) = p5
  revert p0 p1 p2 p3 p4 p5
  decide

/-- Eight times the step is a rotation by eight bits. -/
theorem tri_inj {x y : U64} (e : tri 49 24 x = tri 49 24 y) : x = y := by
  have e2 := congrArg (tri 49 24) e
  rw [tri_twice (by omega) (by omega), tri_twice (by omega) (by omega), show (49 + 49) % 64 = 34 from rfl, show (24 + 24) % 64 = 48 from rfl] at e2
  have e4 := congrArg (tri 34 48) e2
  rw [tri_twice (by omega) (by omega), tri_twice (by omega) (by omega), show (34 + 34) % 64 = 4 from rfl, show (48 + 48) % 64 = 32 from rfl] at e4
  have e8 := congrArg (tri 4 32) e4
  rw [tri_twice (by omega) (by omega), tri_twice (by omega) (by omega), show (4 + 4) % 64 = 8 from rfl, show (32 + 32) % 64 = 0 from rfl] at e8
  apply BitVec.eq_of_getLsbD_eq
  intro j hj
  have := congrArg (fun z => BitVec.getLsbD z ((j + 8) % 64)) e8
  have hm : (j + 8) % 64 < 64 := Nat.mod_lt _ (by omega)
  simp only [tri, BitVec.getLsbD_xor, rotl_bit (r := 8) (by omega) hm, rotl_bit (r := 0) (by omega) hm] at this
  rw [show ((j + 8) % 64 + (64 - 8)) % 64 = j by omega, show ((j + 8) % 64 + (64 - 0)) % 64 = (j + 8) % 64 by omega] at this
  revert this
  cases x.getLsbD ((j + 8) % 64) <;> cases y.getLsbD ((j + 8) % 64) <;> cases x.getLsbD j <;> cases y.getLsbD j <;> decide

theorem xorLen_inj {len : Nat} (hl : len ≤ 8) {x y : U64} (e : x ^^^ ((x >>> 35) + BitVec.ofNat 64 len) = y ^^^ ((y >>> 35) + BitVec.ofNat 64 len)) : x = y := by
  have small : ∀ z : U64, ((z >>> 35) + BitVec.ofNat 64 len) >>> 35 = 0#64 := by
    intro z
    apply BitVec.eq_of_toNat_eq
    have := z.isLt
    rw [BitVec.toNat_ushiftRight, BitVec.toNat_add, BitVec.toNat_ushiftRight, BitVec.toNat_ofNat, Nat.shiftRight_eq_div_pow, Nat.shiftRight_eq_div_pow]
    show _ = 0
    omega
  have h35 : x >>> 35 = y >>> 35 := by
    have := congrArg (fun (z : U64) => z >>> 35) e
    simp only [BitVec.ushiftRight_xor_distrib, small, BitVec.xor_zero] at this
    exact this
  rw [h35] at e
  exact xor_inj e

theorem append32_inj {a b c d : U32} (e : (a ++ b : BitVec 64) = (c ++ d : BitVec 64)) : a = c ∧ b = d := by
  have e1 : (a ++ b : BitVec 64).toNat = a.toNat * 2 ^ 32 + b.toNat := append_eq a b
  have e2 : (c ++ d : BitVec 64).toNat = c.toNat * 2 ^ 32 + d.toNat := append_eq c d
  have := congrArg BitVec.toNat e
  have := a.isLt
  have := b.isLt
  have := c.isLt
  have := d.isLt
  rw [e1, e2] at *
  exact ⟨BitVec.eq_of_toNat_eq (by omega), BitVec.eq_of_toNat_eq (by omega)⟩

theorem bytes4_inj {a b c d a' b' c' d' : Byte} (e : (a ++ b ++ c ++ d : BitVec 32) = (a' ++ b' ++ c' ++ d' : BitVec 32)) : a = a' ∧ b = b' ∧ c = c' ∧ d = d' := by
  have := congrArg BitVec.toNat e
  rw [toNat4, toNat4] at this
  have := a.isLt
  have := b.isLt
  have := c.isLt
  have := d.isLt
  have := a'.isLt
  have := b'.isLt
  have := c'.isLt
  have := d'.isLt
  exact ⟨BitVec.eq_of_toNat_eq (by omega), BitVec.eq_of_toNat_eq (by omega), BitVec.eq_of_toNat_eq (by omega), BitVec.eq_of_toNat_eq (by omega)⟩

theorem ext_at {a b : Mem} (hl : a.length = b.length) (h : ∀ j, j < a.length → at' a j = at' b j) : a = b := by
  apply List.ext_getElem hl
  intro j h1 h2
  have := h j h1
  unfold at' at this
  simpa [List.getD_eq_getElem?_getD, h1, h2] using this

theorem upTo3_inj {sec : Mem} {seed : U64} {a b : Mem} (ha : 1 ≤ a.length) (ha' : a.length ≤ 3) (hb : 1 ≤ b.length) (hb' : b.length ≤ 3)
    (e : upTo3 sec seed a a.length = upTo3 sec seed b b.length) : a = b := by
  unfold upTo3 at e
  dsimp only at e
  have e1 := setWidth_inj (xor_inj (mul_inj (d := 0x887493432BADB37#64) (by decide) (avalanche_inj e)))
  obtain ⟨h1, h2, h3, h4⟩ := bytes4_inj e1
  have hl : a.length = b.length := by
    have := congrArg BitVec.toNat h3
    rw [BitVec.toNat_ofNat, BitVec.toNat_ofNat] at this
    omega
  rw [← hl] at h1 h4
  refine ext_at hl fun j hj => ?_
  by_cases j0 : j = 0
  · rw [j0, h2]
  by_cases j1 : j = a.length - 1
  · rw [j1, h4]
  · rw [show j = a.length / 2 by omega, h1]

theorem upTo8_core {x y : U64} {len : Nat} (hl : len ≤ 8)
    (e : xorshift64 ((((tri 49 24 x) * mul4to8) ^^^ ((((tri 49 24 x) * mul4to8) >>> 35) + BitVec.ofNat 64 len)) * mul4to8) 28 =
      xorshift64 ((((tri 49 24 y) * mul4to8) ^^^ ((((tri 49 24 y) * mul4to8) >>> 35) + BitVec.ofNat 64 len)) * mul4to8) 28) : x = y := by
  have e1 := xorLen_inj hl (mul_inj (d := 0x2AB9C720D1024AD#64) (by decide) (xorshift_inj (by omega) e))
  exact tri_inj (mul_inj (d := 0x2AB9C720D1024AD#64) (by decide) e1)

theorem upTo8_inj {sec : Mem} {seed : U64} {a b : Mem} (hl : a.length = b.length) (ha : 4 ≤ a.length) (ha' : a.length ≤ 8)
    (e : upTo8 sec seed a a.length = upTo8 sec seed b b.length) : a = b := by
  rw [← hl] at e
  have e1 := append32_inj (xor_inj (upTo8_core ha' e))
  obtain ⟨f1, f2, f3, f4⟩ := bytes4_inj e1.1
  obtain ⟨g1, g2, g3, g4⟩ := bytes4_inj e1.2
  refine ext_at hl fun j hj => ?_
  by_cases j0 : j = 0
  · rw [j0]; exact f4
  by_cases j1 : j = 1
  · rw [j1]; exact f3
  by_cases j2 : j = 2
  · rw [j2]; exact f2
  by_cases j3 : j = 3
  · rw [j3]; exact f1
  by_cases k0 : j = a.length - 4
  · rw [k0]; exact g4
  by_cases k1 : j = a.length - 4 + 1
  · rw [k1]; exact g3
  by_cases k2 : j = a.length - 4 + 2
  · rw [k2]; exact g2
  · rw [show j = a.length - 4 + 3 by omega]; exact g1

theorem seedmix_inj {x y : U64} (e : x ^^^ ((swap32 (x.setWidth 32)).setWidth 64 <<< 32) = y ^^^ ((swap32 (y.setWidth 32)).setWidth 64 <<< 32)) : x = y := by
  have h : x.setWidth 32 = y.setWidth 32 := by
    apply BitVec.eq_of_getLsbD_eq
    intro j hj
    have := congrArg (fun z => BitVec.getLsbD z j) e
    simp only [BitVec.getLsbD_xor, BitVec.getLsbD_shiftLeft, hj, decide_true, Bool.not_true, Bool.and_false, Bool.false_and, Bool.xor_false] at this
    rw [BitVec.getLsbD_setWidth, BitVec.getLsbD_setWidth, this]
  rw [h] at e
  exact xor_inj e

/-- Up to eight bytes, the hash is a bijection of the seed. -/
theorem short_seed_inj {sec : Mem} {s t : U64} {m : Mem} {len : Nat} (hl : len ≤ 8) (e : short sec s m len = short sec t m len) : s = t := by
  unfold short at e
  by_cases h0 : len = 0
  · rw [if_pos h0, if_pos h0] at e
    exact add_inj (xor_inj (avalanche_inj e))
  rw [if_neg h0, if_neg h0] at e
  by_cases h3 : len ≤ 3
  · rw [if_pos h3, if_pos h3] at e
    exact add_inj (xor_inj' (mul_inj (d := 0x887493432BADB37#64) (by decide) (avalanche_inj e)))
  · rw [if_neg h3, if_neg h3, if_pos hl, if_pos hl] at e
    exact seedmix_inj (sub_inj (xor_inj' (upTo8_core hl e)))

theorem fold_zero (b : U64) : fold 0#64 b = 0#64 := by
  unfold fold
  rw [show (0#64).toNat = 0 from rfl, Nat.zero_mul]
  rfl

theorem le64_toBytes (v : U64) (r : Mem) : le64 (toBytes v ++ r) 0 = v := by
  rw [← bytesOf_eq]
  exact (bytes_le v).symm

end Verif.Xxh3
