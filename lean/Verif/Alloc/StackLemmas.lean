import Verif.Alloc.Lemmas
import Verif.Alloc.StackSpec

/-! Headers in memory, and the address computation of the stack allocators. -/
namespace Verif.Alloc.Stack
open Verif.Bits Verif.Alloc.Spec Verif.Alloc

theorem getLsbD_byte (h : Header) (i j : Nat) (hj : j < 8) (hi : i < 8) :
    (h.byte i).getLsbD j = if 8 * i + j < 32 then h.padding.getLsbD (8 * i + j) else h.id.getLsbD (8 * i + j - 32) := by
  unfold Header.byte
  simp only [hj, BitVec.getLsbD_setWidth, BitVec.getLsbD_ushiftRight, decide_true, Bool.true_and]
  rw [BitVec.getLsbD_append]

theorem read32_ext {m : Mem} {a : Nat} {x : BitVec 32} (h : ∀ i, i < 4 → ∀ j, j < 8 → (m (a + i)).getLsbD j = x.getLsbD (8 * i + j)) : read32 m a = x := by
  apply BitVec.eq_of_getLsbD_eq
  intro k hk
  unfold read32
  rw [BitVec.getLsbD_append, BitVec.getLsbD_append, BitVec.getLsbD_append]
  have h0 := h 0 (by omega)
  have h1 := h 1 (by omega)
  have h2 := h 2 (by omega)
  have h3 := h 3 (by omega)
  by_cases e0 : k < 8
  · rw [if_pos e0]
    have := h0 k e0
    rw [show 8 * 0 + k = k by omega] at this
    exact this
  · rw [if_neg e0]
    by_cases e1 : k - 8 < 8
    · rw [if_pos e1]
      have := h1 (k - 8) e1
      rw [show 8 * 1 + (k - 8) = k by omega] at this
      exact this
    · rw [if_neg e1]
      by_cases e2 : k - 8 - 8 < 8
      · rw [if_pos e2]
        have := h2 (k - 8 - 8) e2
        rw [show 8 * 2 + (k - 8 - 8) = k by omega] at this
        exact this
      · rw [if_neg e2]
        have := h3 (k - 8 - 8 - 8) (by omega)
        rw [show 8 * 3 + (k - 8 - 8 - 8) = k by omega] at this
        exact this

theorem readHeader_write (m : Mem) (a : Nat) (h : Header) : readHeader (writeHeader m a h) a = h := by
  have hb : ∀ i, i < 8 → writeHeader m a h (a + i) = h.byte i := by
    intro i hi
    unfold writeHeader
    rw [if_pos ⟨by omega, by omega⟩, show a + i - a = i by omega]
  have h1 : read32 (writeHeader m a h) a = h.padding := by
    apply read32_ext
    intro i hi j hj
    rw [hb i (by omega), getLsbD_byte h i j hj (by omega), if_pos (by omega)]
  have h2 : read32 (writeHeader m a h) (a + 4) = h.id := by
    apply read32_ext
    intro i hi j hj
    rw [show a + 4 + i = a + (4 + i) by omega, hb (4 + i) (by omega), getLsbD_byte h (4 + i) j hj (by omega), if_neg (by omega)]
    congr 1
    omega
  unfold readHeader
  rw [h1, h2]

theorem readHeader_congr {m m' : Mem} {a : Nat} (h : ∀ x, a ≤ x → x < a + 8 → m x = m' x) : readHeader m a = readHeader m' a := by
  unfold readHeader read32
  rw [h a (by omega) (by omega), h (a + 1) (by omega) (by omega), h (a + 2) (by omega) (by omega), h (a + 3) (by omega) (by omega),
    h (a + 4) (by omega) (by omega), h (a + 4 + 1) (by omega) (by omega), h (a + 4 + 2) (by omega) (by omega), h (a + 4 + 3) (by omega) (by omega)]

theorem writeHeader_out {m : Mem} {a x : Nat} {h : Header} (hx : x < a ∨ a + 8 ≤ x) : writeHeader m a h x = m x := by
  unfold writeHeader
  rw [if_neg (by omega)]

/-- `align_up_with_header` gives the lowest aligned address that leaves room for the header. -/
theorem alignUpWithHeader_ok {head align hs : BitVec 64} (ha : IsPowerOfTwo align.toNat) (hno : head.toNat + align.toNat + hs.toNat < 2 ^ 64) :
    ∃ p, alignUpWithHeader head align hs = .ok p ∧ p.toNat = alignUpN (head.toNat + hs.toNat) align.toNat := by
  have hpos := pow2_pos ha
  have hp : (alignUp head align).toNat = alignUpN head.toNat align.toNat := toNat_alignUp ha (by omega)
  have hle := alignUpN_le head.toNat align.toNat
  have hge := alignUpN_ge head.toNat align.toNat hpos
  have hsp := alignUpN_spec head.toNat align.toNat hpos
  have hpad : (alignUp head align - head).toNat = alignUpN head.toNat align.toNat - head.toNat := by
    rw [BitVec.toNat_sub_of_le (by rw [BitVec.le_def, hp]; exact hge), hp]
  have hne : align ≠ 0#64 := by
    intro e
    rw [e] at hpos
    exact absurd hpos (by decide)
  unfold alignUpWithHeader
  simp only
  generalize hP : alignUpN head.toNat align.toNat = P at *
  by_cases hc : alignUp head align - head < hs
  · rw [if_pos hc, if_neg hne]
    rw [BitVec.lt_def, hpad] at hc
    have hrest : (hs - (alignUp head align - head)).toNat = hs.toNat - (P - head.toNat) := by
      rw [BitVec.toNat_sub_of_le (by rw [BitVec.le_def, hpad]; omega), hpad]
    generalize hr : hs - (alignUp head align - head) = rest at *
    have hdm := Nat.div_add_mod rest.toNat align.toNat
    have hml := Nat.mod_lt rest.toNat hpos
    have hdl : rest.toNat / align.toNat ≤ rest.toNat := Nat.div_le_self _ _
    have hmul : align.toNat * (rest.toNat / align.toNat) ≤ rest.toNat := Nat.mul_div_le _ _
    have hdiv : (rest / align).toNat = rest.toNat / align.toNat := BitVec.toNat_udiv
    have hmod : (rest % align).toNat = rest.toNat % align.toNat := BitVec.toNat_umod
    -- the result is the least multiple
    have key : ∀ c, (c * align.toNat ≥ rest.toNat) → (∀ d, d * align.toNat ≥ rest.toNat → c * align.toNat ≤ d * align.toNat) →
        P + c * align.toNat = alignUpN (head.toNat + hs.toNat) align.toNat := by
      intro c h1 h2
      refine isAlignUp_unique (v := head.toNat + hs.toNat) (a := align.toNat) ⟨?_, ?_, ?_⟩ (alignUpN_spec _ _ hpos)
      · exact Nat.dvd_add hsp.1 (Nat.dvd_mul_left _ _)
      · omega
      · intro m hm hmv
        have hPm : P ≤ m := hsp.2.2 m hm (by omega)
        obtain ⟨d, hd⟩ := (Nat.dvd_sub hm hsp.1)
        have := h2 d (by rw [Nat.mul_comm, ← hd]; omega)
        rw [Nat.mul_comm d, ← hd] at this
        omega
    by_cases hz : rest % align > 0#64
    · rw [if_pos hz]
      refine ⟨_, rfl, ?_⟩
      have hz' : 0 < rest.toNat % align.toNat := by
        have : 0#64 < rest % align := hz
        rw [BitVec.lt_def, hmod] at this
        exact this
      have h1 : (1#64 + rest / align).toNat = 1 + rest.toNat / align.toNat := by
        rw [toNat_add_lt (by rw [hdiv]; change 1 + _ < _; omega), hdiv]; rfl
      have h2 : (align * (1#64 + rest / align)).toNat = align.toNat * (1 + rest.toNat / align.toNat) := by
        rw [BitVec.toNat_mul, h1, Nat.mod_eq_of_lt]
        rw [Nat.mul_add, Nat.mul_one]; omega
      rw [toNat_add_lt (by rw [hp, h2, Nat.mul_add, Nat.mul_one]; omega), hp, h2, Nat.mul_comm align.toNat]
      refine key _ ?_ ?_
      · rw [Nat.mul_comm, Nat.mul_add, Nat.mul_one]; omega
      · intro d hd
        apply Nat.mul_le_mul_right
        rcases Nat.lt_or_ge (rest.toNat / align.toNat) d with h | h
        · omega
        · have := Nat.mul_le_mul_right align.toNat h
          rw [Nat.mul_comm (rest.toNat / align.toNat)] at this
          omega
    · rw [if_neg hz]
      refine ⟨_, rfl, ?_⟩
      have hz' : rest.toNat % align.toNat = 0 := by
        have : ¬ 0#64 < rest % align := hz
        rw [BitVec.lt_def, hmod] at this
        change ¬ 0 < _ at this
        omega
      have h2 : (align * (rest / align)).toNat = align.toNat * (rest.toNat / align.toNat) := by
        rw [BitVec.toNat_mul, hdiv, Nat.mod_eq_of_lt]
        omega
      rw [toNat_add_lt (by rw [hp, h2]; omega), hp, h2, Nat.mul_comm align.toNat]
      refine key _ ?_ ?_
      · rw [Nat.mul_comm]; omega
      · intro d hd
        rw [Nat.mul_comm (rest.toNat / align.toNat)]
        omega
  · rw [if_neg hc]
    rw [BitVec.lt_def, hpad] at hc
    refine ⟨_, rfl, ?_⟩
    rw [hp]
    refine isAlignUp_unique (v := head.toNat + hs.toNat) (a := align.toNat) ⟨hsp.1, by omega, fun m hm hmv => hsp.2.2 m hm (by omega)⟩ (alignUpN_spec _ _ hpos)

end Verif.Alloc.Stack
