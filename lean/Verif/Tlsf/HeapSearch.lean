import Verif.Tlsf.HeapList
/-!
# Finding a free block
-/
namespace Verif.Tlsf
open Spec

variable {C : Cfg} {P : Nat → Prop} {m0 : Nat → Nat} {s : St} {pre post L : List Blk} {b n p : Blk}

theorem ffs_ok {w : BitVec 32} (h : w ≠ 0#32) : ∃ i : Nat, ffs w = (i : Int) ∧ i < 32 ∧ w.getLsbD i = true := by
  unfold ffs
  cases e : (List.range 32).find? fun i => w.getLsbD i with
  | some i =>
    have h1 := List.find?_some e
    have h2 := List.mem_of_find?_eq_some e
    exact ⟨i, rfl, List.mem_range.mp h2, h1⟩
  | none =>
    exfalso
    obtain ⟨k, hk, hb⟩ := bv_ne_zero.mp h
    have := List.find?_eq_none.mp e k (List.mem_range.mpr hk)
    exact this hb

theorem mask_bit (w : BitVec 32) (k i : Nat) (hi : i < 32) : (w &&& (BitVec.allOnes 32 <<< k)).getLsbD i = (w.getLsbD i && decide (k ≤ i)) := by
  rw [BitVec.getLsbD_and, BitVec.getLsbD_shiftLeft, BitVec.getLsbD_allOnes]
  congr 1
  by_cases h : i < k
  · have : ¬ k ≤ i := by omega
    simp [h, hi]
  · have : k ≤ i := by omega
    have h2 : i - k < 32 := by omega
    simp [h, hi, this, h2]

theorem idx_ok {i j : Nat} (hi : i < 25) (hj : j < 32) : idx ((i : Int), (j : Int)) = .ok (i, j) := by
  unfold idx
  dsimp only
  rw [if_pos (by omega)]
  rfl

/-- `search_suitable_block` finds the head of a list in the class or in a later one, or there is none. -/
theorem search_ok {F : Nat → Nat → List Nat} (hF : Lists C s L F) {fl sl : Nat} (hi : fl < 25) (hj : sl < 32) :
    (search s fl sl = .ok (0, fl, sl) ∧ ∀ i j, i < 25 → j < 32 → ClassLe fl sl i j → F i j = []) ∨
    (∃ x i j, search s fl sl = .ok (x, i, j) ∧ i < 25 ∧ j < 32 ∧ ClassLe fl sl i j ∧ x ∈ F i j) := by
  have hhead : ∀ i j, i < 25 → j < 32 → (s.sl i).getLsbD j = true → s.heads i j ∈ F i j := by
    intro i j hi hj hb
    have := (hF.slb i j hi hj).mp hb
    rw [hF.hd i j hi hj]
    rcases @head_mem_or (F i j) C.ctl with a | ⟨a, _⟩
    · exact a
    · exact absurd a this
  unfold search
  dsimp only
  by_cases hm : s.sl fl &&& (BitVec.allOnes 32 <<< sl) = 0#32
  · rw [if_pos hm]
    have hrow : ∀ j, j < 32 → sl ≤ j → F fl j = [] := by
      intro j hj' hle
      cases e : F fl j with
      | nil => rfl
      | cons x t =>
        exfalso
        have hb := (hF.slb fl j hi hj').mpr (by rw [e]; simp)
        have := mask_bit (s.sl fl) sl j hj'
        rw [hm, hb, decide_eq_true hle, BitVec.getLsbD_zero] at this
        cases this
    by_cases hf : s.fl &&& (BitVec.allOnes 32 <<< (fl + 1)) = 0#32
    · rw [if_pos hf]
      refine Or.inl ⟨rfl, ?_⟩
      intro i j hi' hj' hle
      rcases hle with hlt | ⟨rfl, hle⟩
      · cases e : F i j with
        | nil => rfl
        | cons x t =>
          exfalso
          have hb := (hF.slb i j hi' hj').mpr (by rw [e]; simp)
          have hne := (hF.flb i hi').mpr (bv_ne_zero.mpr ⟨j, hj', hb⟩)
          have := mask_bit s.fl (fl + 1) i (by omega)
          rw [hf, hne, decide_eq_true (show fl + 1 ≤ i by omega), BitVec.getLsbD_zero] at this
          cases this
      · exact hrow j hj' hle
    · rw [if_neg hf]
      obtain ⟨i, e, hi32, hb⟩ := ffs_ok hf
      rw [mask_bit _ _ _ hi32, Bool.and_eq_true, decide_eq_true_eq] at hb
      have hi' : i < 25 := by
        rcases Nat.lt_or_ge i 25 with a | a
        · exact a
        · have := hF.flhi i a
          rw [hb.1] at this
          cases this
      have hne := (hF.flb i hi').mp hb.1
      obtain ⟨j, ej, hj', hbj⟩ := ffs_ok hne
      refine Or.inr ⟨s.heads i j, i, j, ?_, hi', hj', Or.inl (by omega), hhead i j hi' hj' hbj⟩
      rw [e]
      have e0 := idx_ok (j := 0) hi' (by omega)
      change idx ((i : Int), 0) = _ at e0
      rw [e0, R.ok_bind]
      dsimp only
      rw [ccAssert_true (decide_eq_true hne), R.ok_bind, ej, idx_ok hi' hj', R.ok_bind]
      rfl
  · rw [if_neg hm]
    obtain ⟨j, ej, hj', hbj⟩ := ffs_ok hm
    rw [mask_bit _ _ _ hj', Bool.and_eq_true, decide_eq_true_eq] at hbj
    refine Or.inr ⟨s.heads fl j, fl, j, ?_, hi, hj', Or.inr ⟨rfl, hbj.2⟩, hhead fl j hi hj' hbj.1⟩
    rw [ej, idx_ok hi hj', R.ok_bind]
    rfl

/-- A class that holds a smaller size than the request has no size above 33/32 of the request. -/
theorem class_tight {i j v z z' : Nat} (h8 : v % 8 = 0) (hc : InClass i j z) (hc' : InClass i j z') (hv : z' < v) : 32 * z < 33 * v := by
  obtain ⟨a, c⟩ := hc
  obtain ⟨a', _⟩ := hc'
  unfold lower at a'
  unfold upper at c
  by_cases h : i = 0
  · rw [if_pos h] at a' c
    omega
  · rw [if_neg h] at a' c
    rw [Nat.add_mul, Nat.one_mul] at c
    have e : 2 ^ (i + 7) = 2 ^ (i + 2) * 32 := by rw [show i + 7 = i + 2 + 5 by omega, Nat.pow_add 2 (i + 2) 5]
    rw [e] at a' c
    generalize 2 ^ (i + 2) = q at a' c
    generalize j * q = r at a' c
    omega

/-- `block_locate_free`. -/
theorem locateFree_ok (h : H C P m0 s L) {v : BitVec 64} (hv : v.toNat < 2 ^ 32) (h8 : v.toNat % 8 = 0) :
    (locateFree C s v = .ok (s, 0) ∧ (v.toNat ≠ 0 → ∀ x ∈ L, x.listed = true → 32 * x.size < 33 * v.toNat)) ∨
    (∃ s' pre b post, L = pre ++ b :: post ∧ b.listed = true ∧ v.toNat ≤ b.size ∧ v.toNat ≠ 0 ∧ locateFree C s v = .ok (s', b.addr) ∧
      H C P m0 s' (pre ++ { b with listed := false } :: post)) := by
  unfold locateFree
  by_cases h0 : v = 0#64
  · rw [if_neg (by simp [h0])]
    exact Or.inl ⟨rfl, fun e => absurd (by rw [h0]; rfl) e⟩
  · rw [if_pos h0]
    have hpos : 0 < v.toNat := by
      rcases Nat.eq_zero_or_pos v.toNat with e | e
      · exact absurd (BitVec.eq_of_toNat_eq e) h0
      · exact e
    obtain ⟨fl, sl, e, f1, f2, f3, f4⟩ := C39_search v hpos hv (by omega)
    rw [e, R.ok_bind]
    obtain ⟨F, hF⟩ := h.lists
    have hnull : (∀ i j, i < 25 → j < 32 → ClassLe fl sl i j → F i j = []) → ∀ x ∈ L, x.listed = true → 32 * x.size < 33 * v.toNat := by
      intro hno x hx hl
      have kx := h.blk x hx
      obtain ⟨i, j, hi, hj, hc⟩ : ∃ i j, i < 25 ∧ j < 32 ∧ InClass i j x.size := by
        obtain ⟨i, j, _, a⟩ := classOf_ok kx
        exact ⟨i, j, a⟩
      have hin : x.addr ∈ F i j := (hF.mem i j _ hi hj).mpr ⟨x, hx, rfl, hl, hc⟩
      have hnle : ¬ ClassLe fl sl i j := by
        intro hle
        rw [hno i j hi hj hle] at hin
        cases hin
      by_cases hex : ∃ z', InClass i j z' ∧ z' < v.toNat
      · obtain ⟨z', hz, hlt⟩ := hex
        exact class_tight h8 hc hz hlt
      · exfalso
        refine hnle (f4 i j hj fun z hz => ?_)
        rcases Nat.lt_or_ge z v.toNat with a | a
        · exact absurd ⟨z, hz, a⟩ hex
        · exact a
    dsimp only
    by_cases hlt : (fl : Int) < 25
    · rw [if_pos hlt]
      have hfl : fl < 25 := by omega
      rw [idx_ok hfl f2, R.ok_bind]
      dsimp only
      rcases search_ok hF hfl f2 with ⟨e', hno⟩ | ⟨x, i, j, e', hi, hj, hle, hx⟩
      · rw [e', R.ok_bind]
        dsimp only
        rw [if_neg (by simp)]
        exact Or.inl ⟨rfl, fun _ => hnull hno⟩
      · rw [e', R.ok_bind]
        dsimp only
        obtain ⟨b, hb, rfl, hl, hc⟩ := (hF.mem i j x hi hj).mp hx
        obtain ⟨pre, post, eL⟩ := List.append_of_mem hb
        subst eL
        have k := h.mid
        have hge : v.toNat ≤ b.size := f3 i j b.size hj hle hc
        have hp := k.pos
        rw [if_pos (by omega), ld_hdr k, R.ok_bind, wSize_hdr k.sal, ccAssert_true (decide_eq_true hge), R.ok_bind]
        obtain ⟨s', e2, h2⟩ := removeFree_ok h hl hi hj hc
        rw [e2, R.ok_bind]
        exact Or.inr ⟨s', pre, b, post, rfl, hl, hge, by omega, rfl, h2⟩
    · rw [if_neg hlt]
      refine Or.inl ⟨rfl, fun _ => hnull ?_⟩
      intro i j hi hj hle
      exfalso
      unfold ClassLe at hle
      omega

end Verif.Tlsf
