import Verif.Xxh128.Lemmas
import Verif.Xxh64.Run

/-! The steps of the hash for up to 16 bytes can be undone. -/
namespace Verif.Xxh128
open Xxh3
open Xxh3.Spec (at' le32 le64 mul4to8)
open Verif.Xxh128.Spec (num ofNum both upTo3 upTo8 upTo16 short xxh128)

theorem ofNum_low (a b : U64) : (ofNum (a.toNat * b.toNat)).low64 = a * b := by
  apply BitVec.eq_of_toNat_eq
  rw [BitVec.toNat_mul]
  exact BitVec.toNat_ofNat ..

theorem both_inj {a b c d : U64} (e : both avalanche ⟨a, b⟩ = both avalanche ⟨c, d⟩) : a = c ∧ b = d := by
  have e := Hash.mk.inj e
  exact ⟨avalanche_inj e.1, avalanche_inj e.2⟩

theorem both_inj' {a b : Hash} (e : both avalanche a = both avalanche b) : a = b := by
  have := both_inj (a := a.low64) (b := a.high64) (c := b.low64) (d := b.high64) e
  cases a; cases b
  rw [Hash.mk.injEq]; exact this

theorem upTo3_low (sec : Mem) (seed : U64) (m : Mem) (len : Nat) : (upTo3 sec seed m len).low64 = Xxh3.Spec.upTo3 sec seed m len := rfl

theorem odd4to8 {len : Nat} (h4 : 4 ≤ len) (h8 : len ≤ 8) : ∃ c d : U64, c.toNat = PRIME64_1.toNat + 4 * len ∧ c * d = 1#64 := by
  have h : len = 4 ∨ len = 5 ∨ len = 6 ∨ len = 7 ∨ len = 8 := by omega
  rcases h with h | h | h | h | h
  · exact ⟨0x9e3779b185ebca97#64, 0xc58fc94211b05527#64, by subst h; rfl, by decide⟩
  · exact ⟨0x9e3779b185ebca9b#64, 0xf3655c2b3b120b93#64, by subst h; rfl, by decide⟩
  · exact ⟨0x9e3779b185ebca9f#64, 0x4a353fc06e6cd15f#64, by subst h; rfl, by decide⟩
  · exact ⟨0x9e3779b185ebcaa3#64, 0x72a86f8ff240390b#64, by subst h; rfl, by decide⟩
  · exact ⟨0x9e3779b185ebcaa7#64, 0x6261c8662f213d17#64, by subst h; rfl, by decide⟩

def core8 (x : U64) (len : Nat) : Hash :=
  let p := ofNum (x.toNat * (PRIME64_1.toNat + 4 * len))
  let high := p.high64 + p.low64 * 2#64
  let low := xorshift64 (p.low64 ^^^ (high >>> 3)) 35
  ⟨xorshift64 (low * mul4to8) 28, avalanche high⟩

theorem core8_inj {x y : U64} {len : Nat} (h4 : 4 ≤ len) (h8 : len ≤ 8) (e : core8 x len = core8 y len) : x = y := by
  obtain ⟨c, d, hc, hd⟩ := odd4to8 h4 h8
  unfold core8 at e
  rw [← hc] at e
  dsimp only at e
  obtain ⟨el, eh⟩ := Hash.mk.inj e
  have eh := avalanche_inj eh
  have el := xorshift_inj (by omega) (mul_inj (d := 0x2AB9C720D1024AD#64) (by decide) (xorshift_inj (by omega) el))
  rw [eh] at el
  have el := xor_inj el
  rw [ofNum_low, ofNum_low] at el
  exact mul_inj hd el

theorem upTo8_inj {sec : Mem} {seed : U64} {a b : Mem} (hl : a.length = b.length) (ha : 4 ≤ a.length) (ha' : a.length ≤ 8)
    (e : upTo8 sec seed a a.length = upTo8 sec seed b b.length) : a = b := by
  rw [← hl] at e
  have e1 := append32_inj (xor_inj (core8_inj ha ha' e))
  obtain ⟨f1, f2, f3, f4⟩ := bytes4_inj e1.2
  obtain ⟨g1, g2, g3, g4⟩ := bytes4_inj e1.1
  refine ext_at hl fun j hj => ?_
  by_cases j0 : j = 0
  · rw [j0]; exact f4
  by_cases j1 : j = 1
  · rw [j1]; exact f3
  by_cases j2 : j = 2
  · rw [j2]; exact f2
  by_cases j3 : j = 3
  · rw [j3]; exact f1
  by_cases k0 : j = a.length - 4
  · rw [k0]; exact g4
  by_cases k1 : j = a.length - 4 + 1
  · rw [k1]; exact g3
  by_cases k2 : j = a.length - 4 + 2
  · rw [k2]; exact g2
  · rw [show j = a.length - 4 + 3 by omega]; exact g1

theorem part_nat {x y P d : Nat} (hP : P * d % 2 ^ 32 = 1) (hx : x < 2 ^ 64) (hy : y < 2 ^ 64)
    (e : (x / 2 ^ 32 * 2 ^ 32 + x % 2 ^ 32 * P) % 2 ^ 64 = (y / 2 ^ 32 * 2 ^ 32 + y % 2 ^ 32 * P) % 2 ^ 64) : x = y := by
  have inv : ∀ L : Nat, L < 2 ^ 32 → L * P % 2 ^ 32 * d % 2 ^ 32 = L := by
    intro L hL
    rw [Nat.mul_mod, Nat.mod_mod, ← Nat.mul_mod, Nat.mul_assoc, Nat.mul_mod, hP, Nat.mul_one, Nat.mod_mod, Nat.mod_eq_of_lt hL]
  have e1 : x % 2 ^ 32 * P % 2 ^ 32 = y % 2 ^ 32 * P % 2 ^ 32 := by
    generalize x % 2 ^ 32 * P = a at *
    generalize y % 2 ^ 32 * P = b at *
    omega
  have e2 : x % 2 ^ 32 = y % 2 ^ 32 := by
    rw [← inv (x % 2 ^ 32) (Nat.mod_lt _ (by decide)), ← inv (y % 2 ^ 32) (Nat.mod_lt _ (by decide)), e1]
  rw [e2] at e
  generalize y % 2 ^ 32 * P = b at *
  omega

/-- The multiplication of the low half alone loses nothing. -/
theorem part_inj {x y : U64} (e : BitVec.ofNat 64 (x.toNat / 2 ^ 32 * 2 ^ 32 + x.toNat % 2 ^ 32 * PRIME32_2.toNat) =
    BitVec.ofNat 64 (y.toNat / 2 ^ 32 * 2 ^ 32 + y.toNat % 2 ^ 32 * PRIME32_2.toNat)) : x = y := by
  apply BitVec.eq_of_toNat_eq
  have := congrArg BitVec.toNat e
  rw [BitVec.toNat_ofNat, BitVec.toNat_ofNat] at this
  exact part_nat (d := 0xB6C92F47) (by decide) x.isLt y.isLt this

def core16 (x hi : U64) (len : Nat) : Hash :=
  let p := ofNum (x.toNat * PRIME64_1.toNat)
  let high := p.high64 + BitVec.ofNat 64 (hi.toNat / 2 ^ 32 * 2 ^ 32 + hi.toNat % 2 ^ 32 * PRIME32_2.toNat)
  let low := (p.low64 + BitVec.ofNat 64 ((len - 1) * 2 ^ 54)) ^^^ swap64 high
  both avalanche (ofNum (num ⟨low, high⟩ * PRIME64_2.toNat))

def anyCfg : Cfg := { vec := .scalar, little := true, native := true, debug := false, ptr32 := false }

theorem core16_inj {x y hi hi' : U64} {len : Nat} (e : core16 x hi len = core16 y hi' len) : x = y ∧ hi = hi' := by
  unfold core16 at e
  dsimp only at e
  have e := both_inj' e
  rw [← mul_num anyCfg, ← mul_num anyCfg, Hash.mk.injEq, mul128_ok, mul128_ok, ofNum_low, ofNum_low] at e
  obtain ⟨el, eh⟩ := e
  have el := mul_inj (d := 0xba79078168d4baf#64) (by decide) el
  rw [el] at eh
  have eh := mul_inj (d := 0xba79078168d4baf#64) (by decide) (add_inj eh)
  rw [eh] at el
  have el := xor_inj el
  rw [BitVec.add_comm, BitVec.add_comm _ (BitVec.ofNat 64 ((len - 1) * 2 ^ 54))] at el
  have el := add_inj el
  have el := mul_inj (d := 0x887493432BADB37#64) (by decide) el
  subst el
  exact ⟨rfl, part_inj (add_inj eh)⟩

theorem bytes8_inj {a b c d e f g h a' b' c' d' e' f' g' h' : Byte} (x : (a ++ b ++ c ++ d ++ e ++ f ++ g ++ h : BitVec 64) = (a' ++ b' ++ c' ++ d' ++ e' ++ f' ++ g' ++ h' : BitVec 64)) :
    a = a' ∧ b = b' ∧ c = c' ∧ d = d' ∧ e = e' ∧ f = f' ∧ g = g' ∧ h = h' := by
  have := congrArg BitVec.toNat x
  rw [toNat8, toNat8, toNat4, toNat4] at this
  have := a.isLt
  have := b.isLt
  have := c.isLt
  have := d.isLt
  have := e.isLt
  have := f.isLt
  have := g.isLt
  have := h.isLt
  have := a'.isLt
  have := b'.isLt
  have := c'.isLt
  have := d'.isLt
  have := e'.isLt
  have := f'.isLt
  have := g'.isLt
  have := h'.isLt
  exact ⟨BitVec.eq_of_toNat_eq (by omega), BitVec.eq_of_toNat_eq (by omega), BitVec.eq_of_toNat_eq (by omega), BitVec.eq_of_toNat_eq (by omega),
    BitVec.eq_of_toNat_eq (by omega), BitVec.eq_of_toNat_eq (by omega), BitVec.eq_of_toNat_eq (by omega), BitVec.eq_of_toNat_eq (by omega)⟩

theorem le64_inj {a b : Mem} {i : Nat} (e : le64 a i = le64 b i) : ∀ j, j < 8 → at' a (i + j) = at' b (i + j) := by
  obtain ⟨h7, h6, h5, h4, h3, h2, h1, h0⟩ := bytes8_inj e
  intro j hj
  have h : j = 0 ∨ j = 1 ∨ j = 2 ∨ j = 3 ∨ j = 4 ∨ j = 5 ∨ j = 6 ∨ j = 7 := by omega
  rcases h with h | h | h | h | h | h | h | h <;> subst h <;> assumption

theorem upTo16_inj {sec : Mem} {seed : U64} {a b : Mem} (hl : a.length = b.length) (ha : 8 < a.length) (ha' : a.length ≤ 16)
    (e : upTo16 sec seed a a.length = upTo16 sec seed b b.length) : a = b := by
  rw [← hl] at e
  obtain ⟨e1, e2⟩ := core16_inj e
  have e2 := xor_inj e2
  rw [e2] at e1
  have e1 := xor_inj (xor_inj e1)
  refine ext_at hl fun j hj => ?_
  by_cases h : j < 8
  · have := le64_inj e1 j h
    rwa [Nat.zero_add] at this
  · have := le64_inj e2 (j - (a.length - 8)) (by omega)
    rwa [show a.length - 8 + (j - (a.length - 8)) = j by omega] at this

/-- Up to 16 bytes, different seeds give different hashes. -/
theorem short_seed_inj {sec : Mem} {s t : U64} {m : Mem} {len : Nat} (hl : len ≤ 16) (e : short sec s m len = short sec t m len) : s = t := by
  unfold short at e
  by_cases h0 : len = 0
  · rw [if_pos h0, if_pos h0] at e
    exact add_inj (xor_inj (both_inj e).1)
  rw [if_neg h0, if_neg h0] at e
  by_cases h3 : len ≤ 3
  · rw [if_pos h3, if_pos h3] at e
    exact add_inj (xor_inj' (mul_inj (d := 0x887493432BADB37#64) (by decide) (both_inj e).1))
  rw [if_neg h3, if_neg h3] at e
  by_cases h8 : len ≤ 8
  · rw [if_pos h8, if_pos h8] at e
    exact seedmix_inj (add_inj (xor_inj' (core8_inj (by omega) h8 e)))
  · rw [if_neg h8, if_neg h8, if_pos hl, if_pos hl] at e
    exact add_inj (xor_inj' (core16_inj e).2)

/-! ### utilities -/

theorem num_inj {a b : Hash} (e : num a = num b) : a = b := by
  unfold num at e
  have := a.low64.isLt
  have := b.low64.isLt
  have := a.high64.isLt
  have := b.high64.isLt
  cases a; cases b
  dsimp only at *
  rw [Hash.mk.injEq]
  exact ⟨BitVec.eq_of_toNat_eq (by omega), BitVec.eq_of_toNat_eq (by omega)⟩

theorem bytesOf_inj {a b : U64} (e : bytesOf a = bytesOf b) : a = b := by
  have ha := le64_toBytes a []
  have hb := le64_toBytes b []
  rw [← bytesOf_eq, e, bytesOf_eq] at ha
  exact ha.symm.trans hb

theorem isEqual_iff (cfg : Cfg) (a b : Hash) : isEqual cfg a b = true ↔ a = b := by
  unfold isEqual bytes
  rw [decide_eq_true_iff]
  constructor
  · intro e
    cases a; cases b
    rw [Hash.mk.injEq]
    have hl : ∀ v, (bytesOf v).length = 8 := fun v => by rw [bytesOf_eq, toBytes_length]
    cases hc : cfg.little
    · rw [hc] at e
      simp only [Bool.false_eq_true, if_false] at e
      have := List.append_inj e (by rw [List.length_reverse, List.length_reverse, hl, hl])
      exact ⟨bytesOf_inj (List.reverse_inj.1 this.1), bytesOf_inj (List.reverse_inj.1 this.2)⟩
    · rw [hc] at e
      simp only [if_true] at e
      have := List.append_inj e (by rw [hl, hl])
      exact ⟨bytesOf_inj this.1, bytesOf_inj this.2⟩
  · intro e; rw [e]

theorem cmp_eq (a b : Hash) : cmp a b = if num a < num b then -1 else if num a = num b then 0 else 1 := by
  unfold cmp num toInt
  have := a.low64.isLt
  have := b.low64.isLt
  have := a.high64.isLt
  have := b.high64.isLt
  simp only [BitVec.lt_def, decide_eq_true_eq]
  rcases Nat.lt_trichotomy a.high64.toNat b.high64.toNat with h | h | h
  · rw [if_neg (show ¬ b.high64.toNat < a.high64.toNat by omega), if_pos h, if_pos (by decide), if_pos (show a.high64.toNat * 2 ^ 64 + a.low64.toNat < _ by omega)]; rfl
  · rw [if_neg (show ¬ b.high64.toNat < a.high64.toNat by omega), if_neg (show ¬ a.high64.toNat < b.high64.toNat by omega), if_neg (by decide)]
    rcases Nat.lt_trichotomy a.low64.toNat b.low64.toNat with g | g | g
    · rw [if_neg (show ¬ b.low64.toNat < a.low64.toNat by omega), if_pos g, if_pos (show a.high64.toNat * 2 ^ 64 + a.low64.toNat < _ by omega)]; rfl
    · rw [if_neg (show ¬ b.low64.toNat < a.low64.toNat by omega), if_neg (show ¬ a.low64.toNat < b.low64.toNat by omega),
        if_neg (show ¬ a.high64.toNat * 2 ^ 64 + a.low64.toNat < _ by omega), if_pos (show a.high64.toNat * 2 ^ 64 + a.low64.toNat = _ by omega)]; rfl
    · rw [if_pos g, if_neg (show ¬ a.low64.toNat < b.low64.toNat by omega),
        if_neg (show ¬ a.high64.toNat * 2 ^ 64 + a.low64.toNat < _ by omega), if_neg (show ¬ a.high64.toNat * 2 ^ 64 + a.low64.toNat = _ by omega)]; rfl
  · rw [if_pos h, if_neg (show ¬ a.high64.toNat < b.high64.toNat by omega), if_pos (by decide),
      if_neg (show ¬ a.high64.toNat * 2 ^ 64 + a.low64.toNat < _ by omega), if_neg (show ¬ a.high64.toNat * 2 ^ 64 + a.low64.toNat = _ by omega)]; rfl

open Xxh64.Spec (bigEndian)

theorem bigEndian_add (n : Nat) (j : Nat) : ∀ k, bigEndian n (k + j) = bigEndian (n / 256 ^ j) k ++ bigEndian n j
  | 0 => by rw [Nat.zero_add]; rfl
  | k + 1 => by
    rw [show k + 1 + j = (k + j) + 1 by omega, bigEndian, bigEndian, bigEndian_add n j k, List.cons_append, Nat.div_div_eq_div_mul, ← Nat.pow_add, Nat.add_comm j k]

theorem bigEndian_mod (n m : Nat) : ∀ k, n % 256 ^ k = m % 256 ^ k → bigEndian n k = bigEndian m k
  | 0, _ => rfl
  | k + 1, h => by
    have e : ∀ x : Nat, x % 256 ^ (k + 1) = 256 ^ k * (x / 256 ^ k % 256) + x % 256 ^ k := fun x => by
      rw [Nat.pow_succ, Nat.mod_mul, Nat.add_comm]
    have h1 : n % 256 ^ k = m % 256 ^ k := by
      have := congrArg (· % 256 ^ k) h
      simp only [e, Nat.mul_add_mod, Nat.mod_mod] at this
      exact this
    have h2 : n / 256 ^ k % 256 = m / 256 ^ k % 256 := by
      rw [e, e, h1] at h
      exact Nat.eq_of_mul_eq_mul_left (Nat.pow_pos (by omega)) (Nat.add_right_cancel h)
    rw [bigEndian, bigEndian, bigEndian_mod n m k h1]
    congr 1
    apply BitVec.eq_of_toNat_eq
    rw [BitVec.toNat_ofNat, BitVec.toNat_ofNat]
    exact h2

theorem bigEndian_length (n : Nat) : ∀ k, (bigEndian n k).length = k
  | 0 => rfl
  | k + 1 => by rw [bigEndian, List.length_cons, bigEndian_length n k]

theorem bigEndian_num (h : Hash) : bigEndian (num h) 16 = bigEndian h.high64.toNat 8 ++ bigEndian h.low64.toNat 8 := by
  have := h.low64.isLt
  rw [show (16 : Nat) = 8 + 8 from rfl, bigEndian_add]
  unfold num
  rw [show (256 : Nat) ^ 8 = 2 ^ 64 by decide, show (h.high64.toNat * 2 ^ 64 + h.low64.toNat) / 2 ^ 64 = h.high64.toNat by omega,
    bigEndian_mod (h.high64.toNat * 2 ^ 64 + h.low64.toNat) h.low64.toNat 8 (by rw [show (256 : Nat) ^ 8 = 2 ^ 64 by decide]; omega)]

/-- The settings of the older functions do not matter here. -/
def old (cfg : Cfg) : Xxh64.Cfg := { cfg.toCfg with reroll := false, reroll64 := false, alignCheck := false }

theorem store_eq (cfg : Cfg) (v : U64) : (if cfg.little then bytesOf (if cfg.little then swap64 v else v) else (bytesOf (if cfg.little then swap64 v else v)).reverse) = bigEndian v.toNat 8 :=
  Xxh64.canonical64_eq (old cfg) v

theorem canonicalFromHash_ok (cfg : Cfg) {dst : Mem} (h : Hash) (hd : 16 ≤ dst.length) : canonicalFromHash cfg dst h = .ok (bigEndian (num h) 16 ++ dst.drop 16) := by
  unfold canonicalFromHash
  dsimp only
  rw [store_eq, store_eq, bigEndian_num]
  unfold copyTo
  have l1 := bigEndian_length h.high64.toNat 8
  have l2 := bigEndian_length h.low64.toNat 8
  rw [l1, if_pos (by omega), R.ok_bind, l2, if_pos (by simp [l1]; omega)]
  generalize bigEndian h.high64.toNat 8 = x at *
  generalize bigEndian h.low64.toNat 8 = y at *
  congr 1
  simp only [List.take_zero, List.nil_append, Nat.zero_add]
  rw [List.take_append_of_le_length (by omega), List.take_of_length_le (by omega), List.drop_append, List.drop_of_length_le (by omega), l1, List.drop_drop]
  rfl

theorem read_congr {cfg : Xxh3.Cfg} {m : Mem} {x r : Mem} (hx : x.length = 8) {i : Nat} (hm : m.drop i = x ++ r) : read64 cfg m i = read64 cfg x 0 := by
  have e : ∀ j, j < 8 → rd8 m (i + j) = rd8 x (0 + j) := by
    intro j hj
    unfold rd8
    have : m[i + j]? = x[0 + j]? := by
      rw [← List.getElem?_drop, hm, List.getElem?_append_left (by omega), Nat.zero_add]
    rw [this]
  unfold read64
  have e0 := e 0 (by omega)
  rw [Nat.add_zero] at e0
  rw [e0, e 1 (by omega), e 2 (by omega), e 3 (by omega), e 4 (by omega), e 5 (by omega), e 6 (by omega), e 7 (by omega)]

theorem readBE64_ok (cfg : Cfg) {m r : Mem} {i : Nat} {v : U64} (h : m.drop i = bigEndian v.toNat 8 ++ r) : readBE64 cfg m i = .ok v := by
  unfold readBE64
  rw [read_congr (bigEndian_length _ _) h, ← Xxh64.canonical64_eq (old cfg)]
  have := Xxh64.fromCanonical64_bytes (old cfg) (v.extractLsb' 56 8) (v.extractLsb' 48 8) (v.extractLsb' 40 8) (v.extractLsb' 32 8) (v.extractLsb' 24 8) (v.extractLsb' 16 8) (v.extractLsb' 8 8) (v.extractLsb' 0 8)
  rw [← Xxh64.canonical64_bytes (old cfg), ← bytes_le v] at this
  exact this

theorem hashFromCanonical_ok (cfg : Cfg) (h : Hash) (rest : Mem) : hashFromCanonical cfg (bigEndian (num h) 16 ++ rest) = .ok h := by
  unfold hashFromCanonical
  rw [bigEndian_num, readBE64_ok cfg (v := h.high64) (r := bigEndian h.low64.toNat 8 ++ rest) (by rw [List.drop_zero, List.append_assoc]), R.ok_bind,
    readBE64_ok cfg (v := h.low64) (r := rest) (by rw [List.append_assoc, List.drop_append, List.drop_of_length_le (by rw [bigEndian_length]; omega), bigEndian_length]; rfl), R.ok_bind]

end Verif.Xxh128
