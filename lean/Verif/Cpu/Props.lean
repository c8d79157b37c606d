import Verif.Cpu.Model

/-! Property theorems for the tests of processor features: C94. -/
namespace Verif.Cpu

/-- Specification: bit `bit` of register `i` at a level. -/
def Reports (p : Processor) (level i bit : Nat) : Prop := ∃ x, (p.cpuid level)[i]? = some x ∧ x.getLsbD bit = true

/-- A processor with all four registers at the level. -/
def Complete (p : Processor) (level : Nat) : Prop := p.has level = true ∧ (p.cpuid level).length = 4

theorem shift_ne_zero (x : U32) (b : Nat) : (x >>> b != 0#32) = true ↔ ∃ j, b ≤ j ∧ x.getLsbD j = true := by
  rw [bne_iff_ne]
  constructor
  · intro h
    apply Classical.byContradiction
    intro hn
    apply h
    apply BitVec.eq_of_getLsbD_eq
    intro i hi
    rw [BitVec.getLsbD_ushiftRight, BitVec.getLsbD_zero]
    cases hb : x.getLsbD (b + i) with
    | false => rfl
    | true => exact absurd ⟨b + i, by omega, hb⟩ hn
  · rintro ⟨j, hj, hx⟩ h
    have := congrArg (fun v => BitVec.getLsbD v (j - b)) h
    simp only [BitVec.getLsbD_ushiftRight, BitVec.getLsbD_zero] at this
    rw [show b + (j - b) = j by omega, hx] at this
    exact absurd this (by decide)

theorem sshift_ne_zero (x : U32) (b : Nat) (hb : b < 32) : (x.sshiftRight b != 0#32) = true ↔ ∃ j, b ≤ j ∧ x.getLsbD j = true := by
  rw [bne_iff_ne]
  constructor
  · intro h
    apply Classical.byContradiction
    intro hn
    apply h
    have hall : ∀ j, b ≤ j → x.getLsbD j = false := fun j hj => by
      cases hb : x.getLsbD j with
      | false => rfl
      | true => exact absurd ⟨j, hj, hb⟩ hn
    apply BitVec.eq_of_getLsbD_eq
    intro i hi
    rw [BitVec.getLsbD_sshiftRight, BitVec.getLsbD_zero]
    have hm : x.msb = false := by rw [BitVec.msb_eq_getLsbD_last]; exact hall 31 (by omega)
    rw [hm, hall (b + i) (by omega)]
    simp
  · rintro ⟨j, hj, hx⟩ h
    have hj32 : j < 32 := by
      apply Classical.byContradiction
      intro hc
      rw [BitVec.getLsbD_of_ge x j (by omega)] at hx
      cases hx
    have := congrArg (fun v => BitVec.getLsbD v (j - b)) h
    simp only [BitVec.getLsbD_sshiftRight, BitVec.getLsbD_zero] at this
    rw [show b + (j - b) = j by omega, if_pos hj32, hx] at this
    simp at this
    omega

/-- What the test answers: whether that bit or any higher one is set. -/
theorem C94_answer (c : Compiler) (p : Processor) (level i bit : Nat) (hp : Complete p level) (hi : i < 4) (hb : bit < 32) :
    ∃ r, test_cpuid_register c p level i bit = .ok r ∧ (r = true ↔ ∃ j, bit ≤ j ∧ Reports p level i j) := by
  obtain ⟨x, hx⟩ : ∃ x, (p.cpuid level)[i]? = some x := ⟨(p.cpuid level)[i]'(by rw [hp.2]; exact hi), List.getElem?_eq_getElem _⟩
  have hR : (∃ j, bit ≤ j ∧ Reports p level i j) ↔ ∃ j, bit ≤ j ∧ x.getLsbD j = true := by
    constructor
    · rintro ⟨j, h1, y, h2, h3⟩
      rw [hx] at h2
      cases h2
      exact ⟨j, h1, h3⟩
    · rintro ⟨j, h1, h3⟩
      exact ⟨j, h1, x, hx, h3⟩
  cases c with
  | msvc => exact ⟨x.sshiftRight bit != 0#32, by simp only [test_cpuid_register, reg, hx, R.ok_bind, if_pos hb], by rw [hR]; exact sshift_ne_zero x bit hb⟩
  | other => exact ⟨x >>> bit != 0#32, by simp only [test_cpuid_register, reg, hx, R.ok_bind, if_pos hb, hp.1, if_true], by rw [hR]; exact shift_ne_zero x bit⟩

/-- **C94**, the part that holds: a processor with the feature is recognised. -/
theorem C94_recognised_partial (c : Compiler) (p : Processor) :
    (Complete p 0x80000001 → Reports p 0x80000001 2 5 → test_cpu_support_lzcnt c p = .ok true) ∧
    (Complete p 1 → Reports p 1 2 23 → test_cpu_support_popcount c p = .ok true) := by
  constructor
  · intro hp h
    obtain ⟨r, e, hr⟩ := C94_answer c p 0x80000001 2 5 hp (by decide) (by decide)
    rw [hr.2 ⟨5, by decide, h⟩] at e
    exact e
  · intro hp h
    obtain ⟨r, e, hr⟩ := C94_answer c p 1 2 23 hp (by decide) (by decide)
    rw [hr.2 ⟨23, by decide, h⟩] at e
    exact e

/-- **C94** fails: on every virtual machine (bit 31 of `ecx` at level 1 says that there is a hypervisor), `test_cpu_support_popcount` answers yes, with or without
the instruction. -/
theorem C94_popcount_hypervisor (c : Compiler) (p : Processor) (hp : Complete p 1) (h : Reports p 1 2 31) : test_cpu_support_popcount c p = .ok true := by
  obtain ⟨r, e, hr⟩ := C94_answer c p 1 2 23 hp (by decide) (by decide)
  rw [hr.2 ⟨31, by decide, h⟩] at e
  exact e

/-- A processor with no feature but the given bit of `ecx`, and levels up to `0x80000001` or only up to 1. -/
def plain (bit : Nat) (extended : Bool) : Processor :=
  { cpuid := fun _ => [0#32, 0#32, BitVec.ofNat 32 (2 ^ bit), 0#32], has := fun l => l = 1 || extended }

theorem C94_wrong : Complete (plain 31 true) 1 ∧ ¬ Reports (plain 31 true) 1 2 23 ∧ test_cpu_support_popcount .other (plain 31 true) = .ok true ∧
    ¬ Reports (plain 8 true) 0x80000001 2 5 ∧ test_cpu_support_lzcnt .other (plain 8 true) = .ok true ∧
    test_cpu_support_lzcnt .msvc (plain 8 true) = .ok true := by
  refine ⟨⟨by decide, by decide⟩, ?_, by decide, ?_, by decide, by decide⟩
  · rintro ⟨x, h1, h2⟩
    cases h1
    exact absurd h2 (by decide)
  · rintro ⟨x, h1, h2⟩
    cases h1
    exact absurd h2 (by decide)

/-- A processor without the level: not-initialised variables are read. -/
theorem C94_missing_level (p : Processor) (h : p.has 0x80000001 = false) : test_cpu_support_lzcnt .other p = .error .ub := by
  simp [test_cpu_support_lzcnt, test_cpuid_register, h]

example : test_cpu_support_popcount .other (plain 23 true) = .ok true ∧ test_cpu_support_popcount .other (plain 22 true) = .ok false ∧
    test_cpu_support_lzcnt .other (plain 5 true) = .ok true ∧ test_cpu_support_lzcnt .msvc (plain 4 true) = .ok false := by decide
example : Complete (plain 23 true) 1 ∧ Reports (plain 23 true) 1 2 23 := ⟨⟨by decide, by decide⟩, _, rfl, by decide⟩
example : (plain 5 false).has 0x80000001 = false := by decide

end Verif.Cpu
