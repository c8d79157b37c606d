import Verif.NMem.Lemmas

namespace Verif.NMem
open Verif.Bits Spec

/-- The pages that `commit` and `decommit` change. -/
def Changed (ptr size k : Nat) : Prop :=
  ptr / 4096 ≤ k ∧ 4096 * k < 4096 * (ptr / 4096) + 4096 * ((size + ptr % 4096 + 4095) / 4096)

instance (p n k : Nat) : Decidable (Changed p n k) := by unfold Changed; exact inferInstance

theorem changed_iff {p n k : Nat} (hn : 0 < n) : Changed p n k ↔ Touches p n k := by
  rw [touches_iff hn]; unfold Changed; omega

theorem changed_aligned {p n k : Nat} (ha : 4096 ∣ p) : Changed p n k ↔ Touches p n k := by
  rcases Nat.eq_zero_or_pos n with hn | hn
  · subst hn
    unfold Changed Touches
    constructor
    · intro h; omega
    · rintro ⟨x, h⟩; omega
  · exact changed_iff hn

theorem commit_ok {os : OS} (h : os.psize = 4096) {ptr size : BitVec 64} (hb : ptr.toNat + size.toNat ≤ 2 ^ 47)
    (hm : ∀ k, Changed ptr.toNat size.toNat k → os.page k ≠ .unmapped) :
    commit os ptr size = .ok { os with page := fun k => if Changed ptr.toNat size.toNat k then .readWrite else os.page k } ∧
    decommit os ptr size = .ok { os with page := fun k => if Changed ptr.toNat size.toNat k then .noAccess else os.page k } := by
  have key := fun prot => mprotect_ok h (a := (alignDown ptr 4096#64).toNat) (n := (alignUp (size + (ptr - alignDown ptr 4096#64)) 4096#64).toNat)
    (by rw [down_toNat]; exact Nat.dvd_mul_right _ _) (by
      intro k h1 h2
      rw [down_toNat] at h1 h2
      rw [size_toNat ptr size hb] at h2
      exact hm k ⟨by omega, h2⟩) prot
  have e : ∀ k, ((alignDown ptr 4096#64).toNat / 4096 ≤ k ∧ 4096 * k < (alignDown ptr 4096#64).toNat + (alignUp (size + (ptr - alignDown ptr 4096#64)) 4096#64).toNat) ↔
      Changed ptr.toNat size.toNat k := by
    intro k
    rw [down_toNat, size_toNat ptr size hb]
    unfold Changed
    rw [Nat.mul_div_cancel_left _ (by decide : 0 < 4096)]
  constructor
  · unfold commit
    dsimp only
    rw [key]
    simp only [e]
  · unfold decommit
    dsimp only
    rw [key]
    simp only [e]

theorem commit_fail {os : OS} (h : os.psize = 4096) {ptr size : BitVec 64} (hb : ptr.toNat + size.toNat ≤ 2 ^ 47) {x : Nat}
    (hx : ptr.toNat ≤ x ∧ x < ptr.toNat + size.toNat) (hu : os.page (x / 4096) = .unmapped) :
    commit os ptr size = .error .assert ∧ decommit os ptr size = .error .assert := by
  have key := fun prot => mprotect_none h (a := (alignDown ptr 4096#64).toNat) (n := (alignUp (size + (ptr - alignDown ptr 4096#64)) 4096#64).toNat)
    (x := x) (by rw [down_toNat, size_toNat ptr size hb]; omega) hu prot
  constructor
  · unfold commit; dsimp only; rw [key]
  · unfold decommit; dsimp only; rw [key]

/-! ### prefault -/

theorem read_ok {os : OS} (h : os.psize = 4096) {a : Nat} (hp : os.page (a / 4096) = .readWrite) : read os a = .ok (os.mem a) := by
  unfold read; rw [h, if_pos hp]

theorem read_fail {os : OS} (h : os.psize = 4096) {a : Nat} (hp : os.page (a / 4096) ≠ .readWrite) : read os a = .error .ub := by
  unfold read; rw [h, if_neg hp]

theorem loop_ok {os : OS} (h : os.psize = 4096) {fin : BitVec 64} (hf : fin.toNat ≤ 2 ^ 47) :
    ∀ (fuel : Nat) (ptr : BitVec 64), 4096 ∣ ptr.toNat → ptr.toNat ≤ 2 ^ 48 → fin.toNat ≤ ptr.toNat + 4096 * fuel →
    (∀ k, ptr.toNat ≤ 4096 * k → 4096 * k < fin.toNat → os.page k = .readWrite) →
    ∃ l, prefaultLoop os fin fuel ptr = .ok l ∧ (∀ r ∈ l, ptr.toNat ≤ r ∧ r < fin.toNat) ∧
      (∀ k, ptr.toNat ≤ 4096 * k → 4096 * k < fin.toNat → 4096 * k ∈ l) := by
  intro fuel
  induction fuel with
  | zero =>
    intro ptr _ _ hfu _
    have : ¬ ptr < fin := by rw [BitVec.lt_def]; omega
    refine ⟨[], ?_, by simp, ?_⟩
    · unfold prefaultLoop; rw [if_neg this]
    · intro k h1 h2; omega
  | succ fuel ih =>
    intro ptr hd hp hfu hk
    unfold prefaultLoop
    by_cases hlt : ptr < fin
    · rw [if_pos hlt]
      have hlt' := BitVec.lt_def.mp hlt
      have hn : (ptr + 4096#64).toNat = ptr.toNat + 4096 := by
        rw [BitVec.toNat_add]; have e : (4096#64).toNat = 4096 := rfl; rw [e]; omega
      obtain ⟨l, hl, h1, h2⟩ := ih (ptr + 4096#64) (by omega) (by omega) (by omega) (fun k h1 h2 => hk k (by omega) h2)
      rw [read_ok h (hk (ptr.toNat / 4096) (by omega) (by omega)), R.ok_bind, hl, R.ok_bind]
      refine ⟨_, rfl, ?_, ?_⟩
      · intro r hr
        rcases List.mem_cons.mp hr with hr | hr
        · omega
        · have := h1 r hr; omega
      · intro k k1 k2
        by_cases hkk : 4096 * k = ptr.toNat
        · rw [hkk]; exact List.mem_cons_self
        · exact List.mem_cons_of_mem _ (h2 k (by omega) k2)
    · rw [if_neg hlt]
      rw [BitVec.lt_def] at hlt
      exact ⟨[], rfl, by simp, fun k h1 h2 => by omega⟩

theorem loop_fail {os : OS} (h : os.psize = 4096) {fin : BitVec 64} (hf : fin.toNat ≤ 2 ^ 47) (k : Nat) (hk : 4096 * k < fin.toNat) (hu : os.page k ≠ .readWrite) :
    ∀ (fuel : Nat) (ptr : BitVec 64), 4096 ∣ ptr.toNat → ptr.toNat ≤ 4096 * k → prefaultLoop os fin fuel ptr = .error .ub := by
  intro fuel
  induction fuel with
  | zero =>
    intro ptr _ hp
    unfold prefaultLoop
    rw [if_pos (by rw [BitVec.lt_def]; omega)]
  | succ fuel ih =>
    intro ptr hd hp
    unfold prefaultLoop
    rw [if_pos (by rw [BitVec.lt_def]; omega)]
    by_cases hr : os.page (ptr.toNat / 4096) = .readWrite
    · rw [read_ok h hr, R.ok_bind]
      have hne : ptr.toNat ≠ 4096 * k := by
        intro e; rw [e, Nat.mul_div_cancel_left _ (by decide)] at hr; exact hu hr
      have hn : (ptr + 4096#64).toNat = ptr.toNat + 4096 := by
        rw [BitVec.toNat_add]; have e : (4096#64).toNat = 4096 := rfl; rw [e]; omega
      rw [ih (ptr + 4096#64) (by omega) (by omega)]; rfl
    · rw [read_fail h hr]; rfl

end Verif.NMem
