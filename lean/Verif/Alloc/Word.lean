import Verif.Common

/-! Bytes of memory, and 64-bit numbers in it (little-endian). -/
namespace Verif.Alloc

/-- Bytes of memory by address. -/
abbrev Mem := Nat → BitVec 8

/-- Store a 64-bit number at address `a`: lowest byte first. -/
def write64 (m : Mem) (a : Nat) (v : BitVec 64) : Mem := fun x => if a ≤ x ∧ x < a + 8 then BitVec.ofNat 8 (v.toNat / 256 ^ (x - a)) else m x

/-- `n` bytes as a number, lowest byte first. -/
def readLE (m : Mem) (a : Nat) : Nat → Nat
  | 0 => 0
  | n + 1 => (m a).toNat + 256 * readLE m (a + 1) n

/-- The 64-bit number at address `a`. -/
def read64 (m : Mem) (a : Nat) : BitVec 64 := BitVec.ofNat 64 (readLE m a 8)

/-- `memcpy` (the regions do not overlap). -/
def copy (m : Mem) (dst src n : Nat) : Mem := fun x => if dst ≤ x ∧ x < dst + n then m (src + (x - dst)) else m x

theorem readLE_eq (m : Mem) : ∀ (n a v : Nat), v < 256 ^ n → (∀ i, i < n → (m (a + i)).toNat = v / 256 ^ i % 256) → readLE m a n = v
  | 0, a, v, hv, _ => by
    have : v < 1 := hv
    change 0 = v
    omega
  | n + 1, a, v, hv, h => by
    change (m a).toNat + 256 * readLE m (a + 1) n = v
    have h0 : (m a).toNat = v / 256 ^ 0 % 256 := h 0 (by omega)
    rw [Nat.pow_zero, Nat.div_one] at h0
    rw [h0, readLE_eq m n (a + 1) (v / 256)]
    · omega
    · rw [Nat.div_lt_iff_lt_mul (by decide)]
      rwa [Nat.pow_succ] at hv
    · intro i hi
      have := h (i + 1) (by omega)
      rw [show a + (i + 1) = a + 1 + i by omega] at this
      rw [this, Nat.div_div_eq_div_mul, Nat.pow_succ, Nat.mul_comm 256]

theorem readLE_congr {m m' : Mem} : ∀ (n a : Nat), (∀ x, a ≤ x → x < a + n → m x = m' x) → readLE m a n = readLE m' a n
  | 0, _, _ => rfl
  | n + 1, a, h => by
    change (m a).toNat + 256 * readLE m (a + 1) n = (m' a).toNat + 256 * readLE m' (a + 1) n
    rw [h a (by omega) (by omega), readLE_congr n (a + 1) (fun x h1 h2 => h x (by omega) (by omega))]

theorem read64_congr {m m' : Mem} {a : Nat} (h : ∀ x, a ≤ x → x < a + 8 → m x = m' x) : read64 m a = read64 m' a := by
  unfold read64
  rw [readLE_congr 8 a h]

theorem read64_write (m : Mem) (a : Nat) (v : BitVec 64) : read64 (write64 m a v) a = v := by
  unfold read64
  rw [readLE_eq _ 8 a v.toNat]
  · exact BitVec.eq_of_toNat_eq (by rw [BitVec.toNat_ofNat, Nat.mod_eq_of_lt v.isLt])
  · exact v.isLt
  · intro i hi
    unfold write64
    rw [if_pos ⟨by omega, by omega⟩, Nat.add_sub_cancel_left, BitVec.toNat_ofNat]

theorem write64_out {m : Mem} {a x : Nat} {v : BitVec 64} (h : x < a ∨ a + 8 ≤ x) : write64 m a v x = m x := if_neg (by omega)

theorem copy_out {m : Mem} {dst src n x : Nat} (h : x < dst ∨ dst + n ≤ x) : copy m dst src n x = m x := if_neg (by omega)

theorem copy_in {m : Mem} {dst src n i : Nat} (h : i < n) : copy m dst src n (dst + i) = m (src + i) := by
  unfold copy
  rw [if_pos ⟨by omega, by omega⟩, Nat.add_sub_cancel_left]

end Verif.Alloc
