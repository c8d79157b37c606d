import Verif.Xxh64.Lemmas32

/-! The steps of the hashes can be undone; bytes of numbers. -/
namespace Verif.Xxh64
open Verif.Xxh3 (Byte U32 U64 Mem rd8 swap32 swap64 read32 read64 bytesOf rotl64 PRIME32_1 PRIME32_2 PRIME32_3 PRIME64_1 PRIME64_2 PRIME64_3 PRIME64_4 PRIME64_5)
open Verif.Xxh3 (rd8_ok le32_congr le64_congr at'_take at'_drop ext_at bytesOf_eq toNat8 toNat4 bytes4_inj bytes_le)
open Verif.Xxh3.Spec (at' le32 le64 toBytes)
open Spec

/-! ### 64 bit -/

theorem addr_inj {w : Nat} {x y c : BitVec w} (e : x + c = y + c) : x = y := by
  have := congrArg (· - c) e
  simpa [BitVec.add_sub_cancel] using this

theorem mulc_inj {w : Nat} {c d x y : BitVec w} (hc : c * d = 1#w) (e : x * c = y * c) : x = y := by
  have := congrArg (· * d) e
  simp only [BitVec.mul_assoc, hc, BitVec.mul_one] at this
  exact this

theorem rotl64_inj {r : Nat} (hr : r < 64) {x y : U64} (e : rotl64 x r = rotl64 y r) : x = y := by
  apply BitVec.eq_of_getLsbD_eq
  intro j hj
  have := congrArg (fun z => z.getLsbD ((j + r) % 64)) e
  rw [Xxh3.rotl_bit hr (by omega), Xxh3.rotl_bit hr (by omega), show ((j + r) % 64 + (64 - r)) % 64 = j by omega] at this
  exact this

theorem avalanche64_inj {x y : U64} (e : avalanche64 x = avalanche64 y) : x = y := by
  unfold avalanche64 at e
  have s : ∀ {n : Nat}, 28 ≤ n → ∀ {x y : U64}, x ^^^ (x >>> n) = y ^^^ (y >>> n) → x = y := fun h _ _ e => Xxh3.xorshift_inj h e
  exact s (by omega) (mulc_inj (d := 0xba79078168d4baf#64) (by decide) (s (by omega) (mulc_inj (d := 0xe9e9f4c41d6df849#64) (by decide) (s (by omega) e))))

theorem scramble64_inj {x y : U64} (e : scramble64 x = scramble64 y) : x = y :=
  mulc_inj (d := 0xba79078168d4baf#64) (by decide) (rotl64_inj (by omega) (mulc_inj (d := 0x887493432badb37#64) (by decide) e))

theorem word64_inj {h h' x : U64} (e : word64 h x = word64 h' x) : h = h' :=
  Xxh3.xor_inj (rotl64_inj (by omega) (mulc_inj (d := 0x887493432badb37#64) (by decide) (addr_inj e)))

theorem word64_inj' {h x y : U64} (e : word64 h x = word64 h y) : x = y :=
  scramble64_inj (Xxh3.xor_inj' (rotl64_inj (by omega) (mulc_inj (d := 0x887493432badb37#64) (by decide) (addr_inj e))))

theorem half64_inj {h h' : U64} {x : U32} (e : half64 h x = half64 h' x) : h = h' :=
  Xxh3.xor_inj (rotl64_inj (by omega) (mulc_inj (d := 0xba79078168d4baf#64) (by decide) (addr_inj e)))

theorem half64_inj' {h : U64} {x y : U32} (e : half64 h x = half64 h y) : x = y :=
  Xxh3.setWidth_inj (mulc_inj (d := 0x887493432badb37#64) (by decide) (Xxh3.xor_inj' (rotl64_inj (by omega) (mulc_inj (d := 0xba79078168d4baf#64) (by decide) (addr_inj e)))))

theorem byte64_inj {h h' : U64} {x : Byte} (e : byte64 h x = byte64 h' x) : h = h' :=
  Xxh3.xor_inj (rotl64_inj (by omega) (mulc_inj (d := 0x887493432badb37#64) (by decide) e))

theorem setWidth8_inj {w : Nat} (hw : 8 ≤ w) {x y : Byte} (e : x.setWidth w = y.setWidth w) : x = y := by
  apply BitVec.eq_of_toNat_eq
  have := congrArg BitVec.toNat e
  have h2 : 2 ^ 8 ≤ 2 ^ w := Nat.pow_le_pow_right (by omega) hw
  rw [BitVec.toNat_setWidth, BitVec.toNat_setWidth, Nat.mod_eq_of_lt (by have := x.isLt; omega), Nat.mod_eq_of_lt (by have := y.isLt; omega)] at this
  exact this

theorem byte64_inj' {h : U64} {x y : Byte} (e : byte64 h x = byte64 h y) : x = y :=
  setWidth8_inj (w := 64) (by omega) (mulc_inj (d := 0xc592c09fdfba7f0d#64) (by decide) (Xxh3.xor_inj' (rotl64_inj (by omega) (mulc_inj (d := 0x887493432badb37#64) (by decide) e))))

theorem bytesOf_append (a b c d e f g h : Byte) : bytesOf (a ++ b ++ c ++ d ++ e ++ f ++ g ++ h : BitVec 64) = [h, g, f, e, d, c, b, a] := by
  rw [bytesOf_eq]
  unfold toBytes
  have := a.isLt
  have := b.isLt
  have := c.isLt
  have := d.isLt
  have := e.isLt
  have := f.isLt
  have := g.isLt
  have := h.isLt
  rw [toNat8, toNat4]
  simp only [show List.range 8 = [0, 1, 2, 3, 4, 5, 6, 7] from rfl, List.map_cons, List.map_nil]
  congr 1
  · apply BitVec.eq_of_toNat_eq; rw [BitVec.toNat_ofNat]; omega
  congr 1
  · apply BitVec.eq_of_toNat_eq; rw [BitVec.toNat_ofNat]; omega
  congr 1
  · apply BitVec.eq_of_toNat_eq; rw [BitVec.toNat_ofNat]; omega
  congr 1
  · apply BitVec.eq_of_toNat_eq; rw [BitVec.toNat_ofNat]; omega
  congr 1
  · apply BitVec.eq_of_toNat_eq; rw [BitVec.toNat_ofNat]; omega
  congr 1
  · apply BitVec.eq_of_toNat_eq; rw [BitVec.toNat_ofNat]; omega
  congr 1
  · apply BitVec.eq_of_toNat_eq; rw [BitVec.toNat_ofNat]; omega
  congr 1
  · apply BitVec.eq_of_toNat_eq; rw [BitVec.toNat_ofNat]; omega

theorem le64_at {m m' : Mem} {i : Nat} (e : le64 m i = le64 m' i) : ∀ j, j < 8 → at' m (i + j) = at' m' (i + j) := by
  have := congrArg bytesOf e
  unfold le64 at this
  rw [bytesOf_append, bytesOf_append] at this
  simp only [List.cons.injEq, and_true] at this
  obtain ⟨h0, h1, h2, h3, h4, h5, h6, h7⟩ := this
  intro j hj
  match j, hj with
  | 0, _ => exact h0
  | 1, _ => exact h1
  | 2, _ => exact h2
  | 3, _ => exact h3
  | 4, _ => exact h4
  | 5, _ => exact h5
  | 6, _ => exact h6
  | 7, _ => exact h7

theorem le32_at {m m' : Mem} {i : Nat} (e : le32 m i = le32 m' i) : ∀ j, j < 4 → at' m (i + j) = at' m' (i + j) := by
  obtain ⟨h3, h2, h1, h0⟩ := bytes4_inj e
  intro j hj
  match j, hj with
  | 0, _ => exact h0
  | 1, _ => exact h1
  | 2, _ => exact h2
  | 3, _ => exact h3

theorem rest64_inj_aux {m : Mem} : ∀ (n i : Nat) {h h' : U64}, i + n ≤ m.length → rest64 h ((m.drop i).take n) = rest64 h' ((m.drop i).take n) → h = h' := by
  intro n
  induction n using Nat.strongRecOn with
  | _ n ih =>
    intro i h h' hi e
    by_cases h8 : 8 ≤ n
    · rw [rest64_8 h h8 hi, rest64_8 h' h8 hi] at e
      exact word64_inj (ih (n - 8) (by omega) (i + 8) (by omega) e)
    by_cases h4 : 4 ≤ n
    · rw [rest64_4 h h4 (by omega) hi, rest64_4 h' h4 (by omega) hi] at e
      exact half64_inj (ih (n - 4) (by omega) (i + 4) (by omega) e)
    by_cases h1 : 1 ≤ n
    · rw [rest64_1 h h1 (by omega) hi, rest64_1 h' h1 (by omega) hi] at e
      exact byte64_inj (ih (n - 1) (by omega) (i + 1) (by omega) e)
    · obtain rfl : n = 0 := by omega
      rw [List.take_zero] at e
      exact e

theorem rest64_inj {m : Mem} {h h' : U64} (e : rest64 h m = rest64 h' m) : h = h' :=
  rest64_inj_aux (m := m) m.length 0 (by omega) (by rw [List.drop_zero, List.take_length]; exact e)

theorem tail_congr {m m' : Mem} (hl : m.length = m'.length) {i n : Nat} (h : ∀ j, i ≤ j → at' m j = at' m' j) : (m.drop i).take n = (m'.drop i).take n := by
  apply ext_at
  · rw [List.length_take, List.length_take, List.length_drop, List.length_drop, hl]
  · intro j hj
    rw [List.length_take] at hj
    rw [at'_take (by omega), at'_take (by omega), at'_drop, at'_drop, h _ (by omega)]

/-- Only one byte differs, and it is among those that remain: then the result differs. -/
theorem rest64_byte {m m' : Mem} (hl : m.length = m'.length) {k : Nat} (ho : ∀ j, j ≠ k → at' m j = at' m' j) : ∀ (n i : Nat) {h : U64}, i + n ≤ m.length → i ≤ k → k < i + n →
    rest64 h ((m.drop i).take n) = rest64 h ((m'.drop i).take n) → at' m k = at' m' k := by
  intro n
  induction n using Nat.strongRecOn with
  | _ n ih =>
    intro i h hi hk1 hk2 e
    by_cases h8 : 8 ≤ n
    · rw [rest64_8 h h8 hi, rest64_8 h h8 (by omega)] at e
      by_cases hk : k < i + 8
      · rw [tail_congr hl (i := i + 8) (fun j hj => ho j (by omega))] at e
        have := le64_at (word64_inj' (rest64_inj e)) (k - i) (by omega)
        rw [show i + (k - i) = k by omega] at this
        exact this
      · rw [le64_congr (m := m) (m' := m') (i := i) (i' := i) (fun j hj => ho _ (by omega))] at e
        exact ih (n - 8) (by omega) (i + 8) (by omega) (by omega) (by omega) e
    by_cases h4 : 4 ≤ n
    · rw [rest64_4 h h4 (by omega) hi, rest64_4 h h4 (by omega) (by omega)] at e
      by_cases hk : k < i + 4
      · rw [tail_congr hl (i := i + 4) (fun j hj => ho j (by omega))] at e
        have := le32_at (half64_inj' (rest64_inj e)) (k - i) (by omega)
        rw [show i + (k - i) = k by omega] at this
        exact this
      · rw [le32_congr (m := m) (m' := m') (i := i) (i' := i) (fun j hj => ho _ (by omega))] at e
        exact ih (n - 4) (by omega) (i + 4) (by omega) (by omega) (by omega) e
    by_cases h1 : 1 ≤ n
    · rw [rest64_1 h h1 (by omega) hi, rest64_1 h h1 (by omega) (by omega)] at e
      by_cases hk : k = i
      · rw [tail_congr hl (i := i + 1) (fun j hj => ho j (by omega))] at e
        have := byte64_inj' (rest64_inj e)
        rw [hk]
        exact this
      · rw [ho i (by omega)] at e
        exact ih (n - 1) (by omega) (i + 1) (by omega) (by omega) (by omega) e
    · omega

theorem front64_congr {seed : U64} {m m' : Mem} (hl : m.length = m'.length) (h : ∀ j, j < 32 * (m.length / 32) → at' m j = at' m' j) : front64 seed m = front64 seed m' := by
  by_cases h1 : 32 ≤ m.length
  · rw [front64_eq seed h1, front64_eq seed (by omega), ← hl, accs64_congr _ h]
  · unfold front64
    rw [if_pos (by omega), if_pos (by omega)]

theorem drop_eq_take {m : Mem} (w : Nat) : m.drop (w * (m.length / w)) = (m.drop (w * (m.length / w))).take (m.length % w) := by
  rw [List.take_of_length_le]
  rw [List.length_drop]
  have := Nat.div_add_mod m.length w
  omega

theorem value64_byte {seed : U64} {m m' : Mem} (hl : m.length = m'.length) {k : Nat} (hk : 32 * (m.length / 32) ≤ k) (hk' : k < m.length) (ho : ∀ j, j ≠ k → at' m j = at' m' j)
    (e : value64 seed m = value64 seed m') : at' m k = at' m' k := by
  unfold value64 at e
  have e := avalanche64_inj e
  rw [← front64_congr hl (fun j hj => ho j (by omega)), ← hl, drop_eq_take 32] at e
  have := drop_eq_take (m := m') 32
  rw [← hl] at this
  rw [this] at e
  exact rest64_byte hl ho (m.length % 32) (32 * (m.length / 32)) (by omega) hk (by omega) e

theorem value64_seed {s t : U64} {m : Mem} (hm : m.length < 32) (e : value64 s m = value64 t m) : s = t := by
  unfold value64 at e
  have e := addr_inj (rest64_inj (avalanche64_inj e))
  unfold front64 at e
  rw [if_pos hm, if_pos hm] at e
  exact addr_inj e

/-- All keys of one, four or eight bytes. -/
theorem value64_keys {seed : U64} {m m' : Mem} (hl : m.length = m'.length) (hm : m.length = 1 ∨ m.length = 4 ∨ m.length = 8) (e : value64 seed m = value64 seed m') : m = m' := by
  unfold value64 front64 at e
  have e := avalanche64_inj e
  have d : m.drop (32 * (m.length / 32)) = (m.drop 0).take m.length := by rw [show 32 * (m.length / 32) = 0 by omega, List.drop_zero, List.take_length]
  have d' : m'.drop (32 * (m'.length / 32)) = (m'.drop 0).take m'.length := by rw [show 32 * (m'.length / 32) = 0 by omega, List.drop_zero, List.take_length]
  rw [d, d', if_pos (by omega), if_pos (by omega), ← hl] at e
  apply ext_at hl
  intro j hj
  rcases hm with h | h | h
  · rw [h, rest64_1 (m := m) (i := 0) _ (by omega) (by omega) (by omega), rest64_1 (m := m') (i := 0) _ (by omega) (by omega) (by omega), Nat.sub_self, List.take_zero, List.take_zero] at e
    have := byte64_inj' (rest64_inj e)
    rw [show j = 0 by omega]
    exact this
  · rw [h, rest64_4 (m := m) (i := 0) _ (by omega) (by omega) (by omega), rest64_4 (m := m') (i := 0) _ (by omega) (by omega) (by omega), Nat.sub_self, List.take_zero, List.take_zero] at e
    have := le32_at (half64_inj' (rest64_inj e)) j (by omega)
    rw [Nat.zero_add] at this
    exact this
  · rw [h, rest64_8 (m := m) (i := 0) _ (by omega) (by omega), rest64_8 (m := m') (i := 0) _ (by omega) (by omega), Nat.sub_self, List.take_zero, List.take_zero] at e
    have := le64_at (word64_inj' (rest64_inj e)) j (by omega)
    rw [Nat.zero_add] at this
    exact this

/-! ### 32 bit -/

theorem rotl32_bit {x : U32} {r j : Nat} (hr : r < 32) (hj : j < 32) : (rotl32 x r).getLsbD j = x.getLsbD ((j + (32 - r)) % 32) := by
  unfold rotl32
  rw [BitVec.getLsbD_or, BitVec.getLsbD_shiftLeft, BitVec.getLsbD_ushiftRight]
  by_cases h : j < r
  · rw [Nat.mod_eq_of_lt (by omega), Nat.add_comm (32 - r)]
    simp [h]
  · rw [show (j + (32 - r)) % 32 = j - r by omega, BitVec.getLsbD_of_ge x (32 - r + j) (by omega)]
    simp [h, hj]

theorem rotl32_inj {r : Nat} (hr : r < 32) {x y : U32} (e : rotl32 x r = rotl32 y r) : x = y := by
  apply BitVec.eq_of_getLsbD_eq
  intro j hj
  have := congrArg (fun z => z.getLsbD ((j + r) % 32)) e
  rw [rotl32_bit hr (by omega), rotl32_bit hr (by omega), show ((j + r) % 32 + (32 - r)) % 32 = j by omega] at this
  exact this

theorem xorshift32_inj {n : Nat} (h : 11 ≤ n) {x y : U32} (e : x ^^^ (x >>> n) = y ^^^ (y >>> n)) : x = y := by
  have key : ∀ z : U32, z = (z ^^^ (z >>> n)) ^^^ ((z ^^^ (z >>> n)) >>> n) ^^^ ((z ^^^ (z >>> n)) >>> (n + n)) := by
    intro z
    apply BitVec.eq_of_getLsbD_eq
    intro j hj
    simp only [BitVec.getLsbD_xor, BitVec.getLsbD_ushiftRight]
    rw [← Nat.add_assoc n n j, ← Nat.add_assoc n (n + n) j, Nat.add_assoc n n j, BitVec.getLsbD_of_ge z (n + (n + n) + j) (by omega)]
    cases z.getLsbD j <;> cases z.getLsbD (n + j) <;> cases z.getLsbD (n + (n + j)) <;> rfl
  rw [key x, key y, e]

theorem avalanche32_inj {x y : U32} (e : avalanche32 x = avalanche32 y) : x = y := by
  unfold avalanche32 at e
  exact xorshift32_inj (by omega) (mulc_inj (d := 0xb6c92f47#32) (by decide) (xorshift32_inj (by omega) (mulc_inj (d := 0xa89ed915#32) (by decide) (xorshift32_inj (by omega) e))))

theorem addl_inj {w : Nat} {x y c : BitVec w} (e : c + x = c + y) : x = y := by
  rw [BitVec.add_comm c, BitVec.add_comm c] at e
  exact addr_inj e

theorem word32_inj {h h' x : U32} (e : word32 h x = word32 h' x) : h = h' :=
  addr_inj (rotl32_inj (by omega) (mulc_inj (d := 0xa0fe3bcf#32) (by decide) e))

theorem word32_inj' {h x y : U32} (e : word32 h x = word32 h y) : x = y :=
  mulc_inj (d := 0xa89ed915#32) (by decide) (addl_inj (rotl32_inj (by omega) (mulc_inj (d := 0xa0fe3bcf#32) (by decide) e)))

theorem byte32_inj {h h' : U32} {x : Byte} (e : byte32 h x = byte32 h' x) : h = h' :=
  addr_inj (rotl32_inj (by omega) (mulc_inj (d := 0xe8b2f51#32) (by decide) e))

theorem byte32_inj' {h : U32} {x y : Byte} (e : byte32 h x = byte32 h y) : x = y :=
  setWidth8_inj (w := 32) (by omega) (mulc_inj (d := 0xae398151#32) (by decide) (addl_inj (rotl32_inj (by omega) (mulc_inj (d := 0xe8b2f51#32) (by decide) e))))

theorem rest32_inj_aux {m : Mem} : ∀ (n i : Nat) {h h' : U32}, i + n ≤ m.length → rest32 h ((m.drop i).take n) = rest32 h' ((m.drop i).take n) → h = h' := by
  intro n
  induction n using Nat.strongRecOn with
  | _ n ih =>
    intro i h h' hi e
    by_cases h4 : 4 ≤ n
    · rw [rest32_4 h h4 hi, rest32_4 h' h4 hi] at e
      exact word32_inj (ih (n - 4) (by omega) (i + 4) (by omega) e)
    by_cases h1 : 1 ≤ n
    · rw [rest32_1 h h1 (by omega) hi, rest32_1 h' h1 (by omega) hi] at e
      exact byte32_inj (ih (n - 1) (by omega) (i + 1) (by omega) e)
    · obtain rfl : n = 0 := by omega
      rw [List.take_zero] at e
      exact e

theorem rest32_inj {m : Mem} {h h' : U32} (e : rest32 h m = rest32 h' m) : h = h' :=
  rest32_inj_aux (m := m) m.length 0 (by omega) (by rw [List.drop_zero, List.take_length]; exact e)

theorem rest32_byte {m m' : Mem} (hl : m.length = m'.length) {k : Nat} (ho : ∀ j, j ≠ k → at' m j = at' m' j) : ∀ (n i : Nat) {h : U32}, i + n ≤ m.length → i ≤ k → k < i + n →
    rest32 h ((m.drop i).take n) = rest32 h ((m'.drop i).take n) → at' m k = at' m' k := by
  intro n
  induction n using Nat.strongRecOn with
  | _ n ih =>
    intro i h hi hk1 hk2 e
    by_cases h4 : 4 ≤ n
    · rw [rest32_4 h h4 hi, rest32_4 h h4 (by omega)] at e
      by_cases hk : k < i + 4
      · rw [tail_congr hl (i := i + 4) (fun j hj => ho j (by omega))] at e
        have := le32_at (word32_inj' (rest32_inj e)) (k - i) (by omega)
        rw [show i + (k - i) = k by omega] at this
        exact this
      · rw [le32_congr (m := m) (m' := m') (i := i) (i' := i) (fun j hj => ho _ (by omega))] at e
        exact ih (n - 4) (by omega) (i + 4) (by omega) (by omega) (by omega) e
    by_cases h1 : 1 ≤ n
    · rw [rest32_1 h h1 (by omega) hi, rest32_1 h h1 (by omega) (by omega)] at e
      by_cases hk : k = i
      · rw [tail_congr hl (i := i + 1) (fun j hj => ho j (by omega))] at e
        have := byte32_inj' (rest32_inj e)
        rw [hk]
        exact this
      · rw [ho i (by omega)] at e
        exact ih (n - 1) (by omega) (i + 1) (by omega) (by omega) (by omega) e
    · omega

theorem front32_congr {seed : U32} {m m' : Mem} (hl : m.length = m'.length) (h : ∀ j, j < 16 * (m.length / 16) → at' m j = at' m' j) : front32 seed m = front32 seed m' := by
  by_cases h1 : 16 ≤ m.length
  · rw [front32_eq seed h1, front32_eq seed (by omega), ← hl, accs32_congr _ h]
  · unfold front32
    rw [if_pos (by omega), if_pos (by omega)]

theorem value32_byte {seed : U32} {m m' : Mem} (hl : m.length = m'.length) {k : Nat} (hk : 16 * (m.length / 16) ≤ k) (hk' : k < m.length) (ho : ∀ j, j ≠ k → at' m j = at' m' j)
    (e : value32 seed m = value32 seed m') : at' m k = at' m' k := by
  unfold value32 at e
  have e := avalanche32_inj e
  rw [← front32_congr hl (fun j hj => ho j (by omega)), ← hl, drop_eq_take 16] at e
  have := drop_eq_take (m := m') 16
  rw [← hl] at this
  rw [this] at e
  exact rest32_byte hl ho (m.length % 16) (16 * (m.length / 16)) (by omega) hk (by omega) e

theorem value32_seed {s t : U32} {m : Mem} (hm : m.length < 16) (e : value32 s m = value32 t m) : s = t := by
  unfold value32 at e
  have e := addr_inj (rest32_inj (avalanche32_inj e))
  unfold front32 at e
  rw [if_pos hm, if_pos hm] at e
  exact addr_inj e

theorem value32_keys {seed : U32} {m m' : Mem} (hl : m.length = m'.length) (hm : m.length = 1 ∨ m.length = 4) (e : value32 seed m = value32 seed m') : m = m' := by
  unfold value32 front32 at e
  have e := avalanche32_inj e
  have d : m.drop (16 * (m.length / 16)) = (m.drop 0).take m.length := by rw [show 16 * (m.length / 16) = 0 by omega, List.drop_zero, List.take_length]
  have d' : m'.drop (16 * (m'.length / 16)) = (m'.drop 0).take m'.length := by rw [show 16 * (m'.length / 16) = 0 by omega, List.drop_zero, List.take_length]
  rw [d, d', if_pos (by omega), if_pos (by omega), ← hl] at e
  apply ext_at hl
  intro j hj
  rcases hm with h | h
  · rw [h, rest32_1 (m := m) (i := 0) _ (by omega) (by omega) (by omega), rest32_1 (m := m') (i := 0) _ (by omega) (by omega) (by omega), Nat.sub_self, List.take_zero, List.take_zero] at e
    have := byte32_inj' (rest32_inj e)
    rw [show j = 0 by omega]
    exact this
  · rw [h, rest32_4 (m := m) (i := 0) _ (by omega) (by omega), rest32_4 (m := m') (i := 0) _ (by omega) (by omega), Nat.sub_self, List.take_zero, List.take_zero] at e
    have := le32_at (word32_inj' (rest32_inj e)) j (by omega)
    rw [Nat.zero_add] at this
    exact this

end Verif.Xxh64
