import Verif.Alloc.Spec
import Verif.Bits.Props

/-! Aligned addresses. -/
namespace Verif.Alloc
open Verif.Bits Spec

theorem alignUpN_spec (v a : Nat) (ha : 0 < a) : IsAlignUp v a (alignUpN v a) := by
  unfold alignUpN
  refine ⟨Nat.dvd_mul_left _ _, ?_, ?_⟩
  · have h1 := Nat.div_add_mod (v + (a - 1)) a
    have h2 := Nat.mod_lt (v + (a - 1)) ha
    rw [Nat.mul_comm] at h1; omega
  · rintro m ⟨c, rfl⟩ hm
    rw [Nat.mul_comm a c]
    apply Nat.mul_le_mul_right
    have : (v + (a - 1)) / a < c + 1 := by
      rw [Nat.div_lt_iff_lt_mul ha, Nat.add_mul, Nat.mul_comm c]; omega
    omega

theorem isAlignUp_unique {v a r r' : Nat} (h : IsAlignUp v a r) (h' : IsAlignUp v a r') : r = r' :=
  Nat.le_antisymm (h.2.2 r' h'.1 h'.2.1) (h'.2.2 r h.1 h.2.1)

theorem alignUpN_ge (v a : Nat) (ha : 0 < a) : v ≤ alignUpN v a := (alignUpN_spec v a ha).2.1
theorem alignUpN_dvd (v a : Nat) : a ∣ alignUpN v a := Nat.dvd_mul_left _ _
theorem alignUpN_le (v a : Nat) : alignUpN v a ≤ v + (a - 1) := Nat.div_mul_le_self _ _

theorem pow2_pos {a : Nat} (h : IsPowerOfTwo a) : 0 < a := by
  obtain ⟨k, rfl⟩ := h
  exact Nat.two_pow_pos k

theorem toNat_alignUp {v a : BitVec 64} (ha : IsPowerOfTwo a.toNat) (hno : v.toNat + (a.toNat - 1) < 2 ^ 64) :
    (alignUp v a).toNat = alignUpN v.toNat a.toNat :=
  isAlignUp_unique (C17_align_up v a ha hno) (alignUpN_spec _ _ (pow2_pos ha))

theorem toNat_ofNat_lt {n : Nat} (h : n < 2 ^ 64) : (BitVec.ofNat 64 n).toNat = n := by
  rw [BitVec.toNat_ofNat, Nat.mod_eq_of_lt h]

theorem toNat_add_lt {a b : BitVec 64} (h : a.toNat + b.toNat < 2 ^ 64) : (a + b).toNat = a.toNat + b.toNat := by
  rw [BitVec.toNat_add, Nat.mod_eq_of_lt h]

/-- Alignment at the beginning of a block stays when lower blocks are unaligned: the first address at or above the top. -/
theorem laid_cons {lo hi : Nat} {l : List Block} (h : Laid lo hi l) (b : Block) (h1 : ∀ c ∈ l, c.addr + c.size ≤ b.addr) (h0 : lo ≤ b.addr) (h2 : b.addr + b.size ≤ hi)
    (h3 : b.align ∣ b.addr) : Laid lo hi (b :: l) where
  inside := fun c hc => by
    rcases List.mem_cons.mp hc with hc | hc
    · subst hc; exact ⟨h0, h2⟩
    · exact h.inside c hc
  aligned := fun c hc => by
    rcases List.mem_cons.mp hc with hc | hc
    · subst hc; exact h3
    · exact h.aligned c hc
  apart := List.pairwise_cons.mpr ⟨fun c hc => Or.inr (h1 c hc), h.apart⟩

/-- Newer blocks lie behind older ones. -/
def Up : List Block → Prop := fun l => l.Pairwise (fun b c => c.addr + c.size ≤ b.addr)

theorem up_top {lo hi : Nat} {l : List Block} (hl : Laid lo hi l) (h : Up l) : ∀ c ∈ l, c.addr + c.size ≤ top lo l := by
  cases l with
  | nil => intro c hc; cases hc
  | cons b l =>
    intro c hc
    rcases List.mem_cons.mp hc with hc | hc
    · subst hc; exact Nat.le_refl _
    · have := (List.pairwise_cons.mp h).1 c hc
      change _ ≤ b.addr + b.size
      omega

theorem top_le {lo hi : Nat} {l : List Block} (hl : Laid lo hi l) (hlo : lo ≤ hi) : lo ≤ top lo l ∧ top lo l ≤ hi := by
  cases l with
  | nil => exact ⟨Nat.le_refl _, hlo⟩
  | cons b l =>
    have := hl.inside b (by simp)
    change lo ≤ b.addr + b.size ∧ b.addr + b.size ≤ hi
    omega

theorem laid_tail {lo hi : Nat} {b : Block} {l : List Block} (h : Laid lo hi (b :: l)) : Laid lo hi l where
  inside := fun c hc => h.inside c (by simp [hc])
  aligned := fun c hc => h.aligned c (by simp [hc])
  apart := (List.pairwise_cons.mp h.apart).2

end Verif.Alloc
