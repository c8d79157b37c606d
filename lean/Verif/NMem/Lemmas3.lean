import Verif.NMem.Lemmas2

namespace Verif.NMem
open Verif.Bits Spec

/-- The operating system agrees with the specification. -/
structure Inv (s : S) (os : OS) : Prop where
  psize : os.psize = 4096
  range : ∀ r ∈ s.res, 4096 ∣ r.1 ∧ 0 < r.1 ∧ 0 < r.2 ∧ r.1 + r.2 ≤ 2 ^ 47
  apart : ∀ r ∈ s.res, ∀ q ∈ s.res, r = q ∨ r.1 + r.2 ≤ q.1 ∨ q.1 + q.2 ≤ r.1
  mapped : ∀ k, os.page k ≠ .unmapped ↔ ∃ r ∈ s.res, r.1 ≤ 4096 * k ∧ 4096 * k < r.1 + r.2
  com : ∀ x, s.com x = true → (∃ r ∈ s.res, r.1 ≤ x ∧ x < r.1 + r.2) ∧ os.page (x / 4096) = .readWrite
  val : ∀ x, (∃ r ∈ s.res, r.1 ≤ x ∧ x < r.1 + r.2) → os.mem x = s.val x
  resident : ∀ k, os.resident k = true → os.page k ≠ .unmapped

theorem inv_start : Inv S.start (boot 4096) where
  psize := rfl
  range := by intro r h; cases h
  apart := by intro r h; cases h
  mapped := by
    intro k
    constructor
    · intro h; exact absurd rfl h
    · rintro ⟨r, h, _⟩; cases h
  com := by intro x h; cases h
  val := by rintro x ⟨r, h, _⟩; cases h
  resident := by intro k h; cases h

theorem inside_iff {a n x : Nat} : inside a n x = true ↔ a ≤ x ∧ x < a + n := by unfold inside; exact decide_eq_true_iff

/-- Pages of a range that was reserved. -/
theorem mapped_of {s : S} {os : OS} (I : Inv s os) {r : Nat × Nat} (hr : r ∈ s.res) {p n k : Nat} (h1 : r.1 ≤ p) (h2 : p + n ≤ r.1 + r.2) (hk : Changed p n k) :
    os.page k ≠ .unmapped := by
  obtain ⟨hd, _, _, _⟩ := I.range r hr
  refine (I.mapped k).mpr ⟨r, hr, ?_, ?_⟩
  · unfold Changed at hk; omega
  · unfold Changed at hk; omega

theorem step_reserve {s : S} {os : OS} (I : Inv s os) {size : BitVec 64} {room : Option (BitVec 64)} (h : Allowed s (.reserve size room)) :
    ∃ os', step os (.reserve size room) = .ok (os', out s (.reserve size room)) ∧ Inv (next s (.reserve size room)) os' := by
  obtain ⟨hs, a, rfl, hd, h0, hb, hfree⟩ := h
  have hps := I.psize
  refine ⟨_, by
    simp only [step, reserve, mmap]
    rw [if_neg (by rw [hps]; omega)]
    rfl, ?_⟩
  have hov : ∀ k, os.overlaps a.toNat size.toNat k = true ↔ a.toNat ≤ 4096 * k ∧ 4096 * k < a.toNat + size.toNat := by
    intro k; unfold OS.overlaps; rw [decide_eq_true_iff, hps]; omega
  -- pages of older ranges are elsewhere
  have hold : ∀ r ∈ s.res, ∀ x, r.1 ≤ x → x < r.1 + r.2 → ¬ os.overlaps a.toNat size.toNat (x / 4096) = true := by
    intro r hr x h1 h2 ho
    rw [hov] at ho
    obtain ⟨hd', _, _, _⟩ := I.range r hr
    rcases hfree r hr with hf | hf <;> omega
  constructor
  · exact hps
  · intro r hr
    rcases List.mem_cons.mp hr with rfl | hr
    · exact ⟨hd, h0, hs, hb⟩
    · exact I.range r hr
  · intro r hr q hq
    rcases List.mem_cons.mp hr with rfl | hr
    · rcases List.mem_cons.mp hq with rfl | hq
      · exact .inl rfl
      · exact .inr (hfree q hq)
    · rcases List.mem_cons.mp hq with rfl | hq
      · exact .inr (hfree r hr).symm
      · exact I.apart r hr q hq
  · intro k
    dsimp only
    by_cases ho : os.overlaps a.toNat size.toNat k = true
    · rw [if_pos ho]
      exact ⟨fun _ => ⟨_, List.mem_cons_self, (hov k).mp ho⟩, fun _ => nofun⟩
    · rw [if_neg ho, I.mapped k]
      constructor
      · rintro ⟨r, hr, h1⟩; exact ⟨r, List.mem_cons_of_mem _ hr, h1⟩
      · rintro ⟨r, hr, h1⟩
        rcases List.mem_cons.mp hr with rfl | hr
        · exact absurd ((hov k).mpr h1) ho
        · exact ⟨r, hr, h1⟩
  · intro x hx
    obtain ⟨⟨r, hr, h1, h2⟩, h3⟩ := I.com x hx
    refine ⟨⟨r, List.mem_cons_of_mem _ hr, h1, h2⟩, ?_⟩
    dsimp only
    rw [if_neg (hold r hr x h1 h2), h3]
  · rintro x ⟨r, hr, h1, h2⟩
    dsimp only [next]
    rcases List.mem_cons.mp hr with rfl | hr
    · dsimp only at h1 h2
      rw [if_pos (inside_iff.mpr ⟨h1, h2⟩), hps, if_pos ((hov _).mpr (by omega))]
    · have := hold r hr x h1 h2
      rw [hps, if_neg this, if_neg]
      · exact I.val x ⟨r, hr, h1, h2⟩
      · intro hi
        have hi := inside_iff.mp hi
        exact this ((hov _).mpr (by omega))
  · intro k
    dsimp only
    split
    · intro h; cases h
    · exact I.resident k

theorem step_free {s : S} {os : OS} (I : Inv s os) {ptr size : BitVec 64} (h : Allowed s (.free ptr size)) :
    ∃ os', step os (.free ptr size) = .ok (os', out s (.free ptr size)) ∧ Inv (next s (.free ptr size)) os' := by
  have hps := I.psize
  have hr0 : (ptr.toNat, size.toNat) ∈ s.res := h
  obtain ⟨hd, h0, hs, hb⟩ := I.range _ hr0
  dsimp only at hd h0 hs hb
  refine ⟨_, by
    simp only [step, free, munmap]
    rw [if_neg (by rw [hps]; omega)]
    rfl, ?_⟩
  have hov : ∀ k, os.overlaps ptr.toNat size.toNat k = true ↔ ptr.toNat ≤ 4096 * k ∧ 4096 * k < ptr.toNat + size.toNat := by
    intro k; unfold OS.overlaps; rw [decide_eq_true_iff, hps]; omega
  have hin : ∀ r, r ∈ s.res.filter (· ≠ (ptr.toNat, size.toNat)) ↔ r ∈ s.res ∧ r ≠ (ptr.toNat, size.toNat) := by
    intro r; rw [List.mem_filter, decide_eq_true_iff]
  -- other ranges are elsewhere
  have hoth : ∀ r ∈ s.res, r ≠ (ptr.toNat, size.toNat) → ∀ x, r.1 ≤ x → x < r.1 + r.2 → ¬ os.overlaps ptr.toNat size.toNat (x / 4096) = true := by
    intro r hr hne x h1 h2 ho
    rw [hov] at ho
    obtain ⟨hd', _, _, _⟩ := I.range r hr
    rcases I.apart r hr _ hr0 with hf | hf | hf
    · exact hne hf
    · dsimp only at hf; omega
    · dsimp only at hf; omega
  constructor
  · exact hps
  · intro r hr; exact I.range r ((hin r).mp hr).1
  · intro r hr q hq; exact I.apart r ((hin r).mp hr).1 q ((hin q).mp hq).1
  · intro k
    dsimp only
    by_cases ho : os.overlaps ptr.toNat size.toNat k = true
    · rw [if_pos ho]
      refine ⟨fun h => absurd rfl h, ?_⟩
      rintro ⟨r, hr, h1, h2⟩
      obtain ⟨hr, hne⟩ := (hin r).mp hr
      have := hoth r hr hne (4096 * k) h1 h2
      rw [Nat.mul_div_cancel_left _ (by decide)] at this
      exact absurd ho this
    · rw [if_neg ho, I.mapped k]
      constructor
      · rintro ⟨r, hr, h1⟩
        refine ⟨r, (hin r).mpr ⟨hr, ?_⟩, h1⟩
        rintro rfl
        exact ho ((hov k).mpr h1)
      · rintro ⟨r, hr, h1⟩; exact ⟨r, ((hin r).mp hr).1, h1⟩
  · intro x hx
    dsimp only [next] at hx
    by_cases hi : inside ptr.toNat size.toNat x = true
    · rw [if_pos hi] at hx; cases hx
    · rw [if_neg hi] at hx
      obtain ⟨⟨r, hr, h1, h2⟩, h3⟩ := I.com x hx
      have hne : r ≠ (ptr.toNat, size.toNat) := by rintro rfl; exact hi (inside_iff.mpr ⟨h1, h2⟩)
      refine ⟨⟨r, (hin r).mpr ⟨hr, hne⟩, h1, h2⟩, ?_⟩
      dsimp only
      rw [if_neg (hoth r hr hne x h1 h2), h3]
  · rintro x ⟨r, hr, h1, h2⟩
    exact I.val x ⟨r, ((hin r).mp hr).1, h1, h2⟩
  · intro k
    dsimp only
    split
    · intro h; cases h
    · exact I.resident k

theorem step_commit {s : S} {os : OS} (I : Inv s os) {ptr size : BitVec 64} (h : Allowed s (.commit ptr size)) :
    ∃ os', step os (.commit ptr size) = .ok (os', out s (.commit ptr size)) ∧ Inv (next s (.commit ptr size)) os' := by
  obtain ⟨r, hr, h1, h2⟩ := h
  obtain ⟨hd, h0, hs, hb⟩ := I.range r hr
  have hm := fun k => mapped_of I hr h1 h2 (k := k)
  refine ⟨_, by
    show (commit os ptr size >>= _) = _
    rw [(commit_ok I.psize (by omega) hm).1]
    rfl, ?_⟩
  constructor
  · exact I.psize
  · exact I.range
  · exact I.apart
  · intro k
    dsimp only
    by_cases hk : Changed ptr.toNat size.toNat k
    · rw [if_pos hk]; exact ⟨fun _ => (I.mapped k).mp (hm k hk), fun _ => nofun⟩
    · rw [if_neg hk]; exact I.mapped k
  · intro x hx
    dsimp only [next] at hx ⊢
    by_cases hi : inside ptr.toNat size.toNat x = true
    · have hi' := inside_iff.mp hi
      refine ⟨⟨r, hr, by omega, by omega⟩, ?_⟩
      rw [if_pos]
      exact (changed_iff (by omega)).mpr ⟨x, hi'.1, hi'.2, rfl⟩
    · rw [if_neg hi] at hx
      refine ⟨(I.com x hx).1, ?_⟩
      split
      · rfl
      · exact (I.com x hx).2
  · exact I.val
  · intro k hk
    dsimp only at hk ⊢
    split
    · nofun
    · exact I.resident k hk

theorem step_decommit {s : S} {os : OS} (I : Inv s os) {ptr size : BitVec 64} (h : Allowed s (.decommit ptr size)) :
    ∃ os', step os (.decommit ptr size) = .ok (os', out s (.decommit ptr size)) ∧ Inv (next s (.decommit ptr size)) os' := by
  obtain ⟨ha, r, hr, h1, h2, h3⟩ := h
  obtain ⟨hd, h0, hs, hb⟩ := I.range r hr
  have hm := fun k => mapped_of I hr h1 h2 (k := k)
  refine ⟨_, by
    show (decommit os ptr size >>= _) = _
    rw [(commit_ok I.psize (by omega) hm).2]
    rfl, ?_⟩
  constructor
  · exact I.psize
  · exact I.range
  · exact I.apart
  · intro k
    dsimp only
    by_cases hk : Changed ptr.toNat size.toNat k
    · rw [if_pos hk]; exact ⟨fun _ => (I.mapped k).mp (hm k hk), fun _ => nofun⟩
    · rw [if_neg hk]; exact I.mapped k
  · intro x hx
    dsimp only [next] at hx ⊢
    by_cases hi : inside ptr.toNat size.toNat x = true
    · rw [if_pos hi] at hx; cases hx
    · rw [if_neg hi] at hx
      obtain ⟨⟨q, hq, h4, h5⟩, h6⟩ := I.com x hx
      refine ⟨⟨q, hq, h4, h5⟩, ?_⟩
      rw [if_neg, h6]
      intro hc
      rw [changed_aligned ha] at hc
      obtain ⟨y, h7, h8, h9⟩ := hc
      have hi' : ¬ (ptr.toNat ≤ x ∧ x < ptr.toNat + size.toNat) := fun hh => hi (inside_iff.mpr hh)
      rcases h3 with h3 | h3
      · omega
      · obtain ⟨hd', _, _, _⟩ := I.range q hq
        rcases I.apart r hr q hq with hf | hf | hf
        · subst hf; omega
        · omega
        · omega
  · exact I.val
  · intro k hk
    dsimp only at hk ⊢
    split
    · nofun
    · exact I.resident k hk

end Verif.NMem
