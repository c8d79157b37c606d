import Verif.NMem.Spec
import Verif.Alloc.Lemmas

namespace Verif.NMem
open Verif.Bits Spec

theorem page_pow2 : IsPowerOfTwo (4096#64).toNat := ⟨12, rfl⟩

theorem down_toNat (p : BitVec 64) : (alignDown p 4096#64).toNat = 4096 * (p.toNat / 4096) := by
  obtain ⟨h1, h2, h3⟩ := C17_align_down p 4096#64 page_pow2
  have e : (4096#64).toNat = 4096 := rfl
  rw [e] at h1 h3
  have h4 := h3 (4096 * (p.toNat / 4096)) (Nat.dvd_mul_right _ _) (by omega)
  omega

theorem up_toNat (p : BitVec 64) (h : p.toNat + 4095 < 2 ^ 64) : (alignUp p 4096#64).toNat = 4096 * ((p.toNat + 4095) / 4096) := by
  obtain ⟨h1, h2, h3⟩ := C17_align_up p 4096#64 page_pow2 h
  have e : (4096#64).toNat = 4096 := rfl
  rw [e] at h1 h3
  have h4 := h3 (4096 * ((p.toNat + 4095) / 4096)) (Nat.dvd_mul_right _ _) (by omega)
  omega

theorem size_toNat (ptr size : BitVec 64) (hb : ptr.toNat + size.toNat ≤ 2 ^ 47) :
    (alignUp (size + (ptr - alignDown ptr 4096#64)) 4096#64).toNat = 4096 * ((size.toNat + ptr.toNat % 4096 + 4095) / 4096) := by
  have hd := down_toNat ptr
  have e : (ptr - alignDown ptr 4096#64).toNat = ptr.toNat % 4096 := by
    rw [BitVec.toNat_sub_of_le (by rw [BitVec.le_def]; omega)]; omega
  have e2 : (size + (ptr - alignDown ptr 4096#64)).toNat = size.toNat + ptr.toNat % 4096 := by
    rw [BitVec.toNat_add, e]; omega
  rw [up_toNat _ (by omega), e2]

theorem touches_iff {a n k : Nat} (hn : 0 < n) : Touches a n k ↔ a / 4096 ≤ k ∧ 4096 * k < a + n := by
  constructor
  · rintro ⟨x, h1, h2, h3⟩; omega
  · rintro ⟨h1, h2⟩
    by_cases h : a ≤ 4096 * k
    · exact ⟨4096 * k, h, h2, by omega⟩
    · exact ⟨a, Nat.le_refl _, by omega, by omega⟩

/-- The protection of all touched pages changes. -/
theorem mprotect_ok {os : OS} (h : os.psize = 4096) {a n : Nat} (ha : 4096 ∣ a) (hm : ∀ k, a / 4096 ≤ k → 4096 * k < a + n → os.page k ≠ .unmapped) (prot : Page) :
    mprotect os a n prot = some { os with page := fun k => if a / 4096 ≤ k ∧ 4096 * k < a + n then prot else os.page k } := by
  unfold mprotect
  rw [if_neg (by rw [h]; omega), if_pos]
  · congr 2
    funext k
    simp only [OS.overlaps, h, decide_eq_true_eq, Nat.mul_comm]
  · unfold OS.allPages
    rw [List.all_eq_true]
    intro i hi
    have hi := List.mem_range.mp hi
    rw [h]
    exact decide_eq_true (hm _ (by omega) (by omega))

theorem mprotect_none {os : OS} (h : os.psize = 4096) {a n x : Nat} (hx : a ≤ x ∧ x < a + n) (hu : os.page (x / 4096) = .unmapped) (prot : Page) :
    mprotect os a n prot = none := by
  unfold mprotect
  split
  · rfl
  · rw [if_neg]
    unfold OS.allPages
    rw [List.all_eq_true]
    intro hh
    have := hh (x - a) (List.mem_range.mpr (by omega))
    rw [show a + (x - a) = x by omega, h, hu] at this
    exact absurd this (by decide)

end Verif.NMem
