import Verif.Tlsf.HeapOps
/-!
# Allocation
-/
namespace Verif.Tlsf
open Spec Verif.Bits Verif.Alloc Verif.Alloc.Spec

variable {C : Cfg} {P : Nat → Prop} {m0 : Nat → Nat} {s : St} {pre post L : List Blk} {b n p : Blk}

/-- What `adjust_request_size` returns for a request. -/
structure Adj (size r : Nat) : Prop where
  lt : r < 2 ^ 32
  al : r % 8 = 0
  min : r = 0 ∨ 24 ≤ r
  fit : size ≤ 2 ^ 64 - 8 → r ≠ 0 → size ≤ r
  some : 0 < size → size ≤ 2 ^ 32 - 8 → r ≠ 0
  none : size = 0 → r = 0
  small : size ≤ 2 ^ 64 - 8 → r ≤ size + 24
  eq : 0 < size → size ≤ 2 ^ 32 - 8 → r = Nat.max ((size + 7) / 8 * 8) 24

theorem adjust_ok (v : BitVec 64) : ∃ r : BitVec 64, adjustRequestSize v 8#64 = .ok r ∧ Adj v.toNat r.toNat := by
  have hlt := v.isLt
  by_cases h0 : v.toNat = 0
  · refine ⟨0#64, (C39_adjust v).1 h0, ?_⟩
    exact ⟨by decide, by decide, Or.inl rfl, fun _ e => absurd rfl e, fun e => by omega, fun _ => rfl, fun _ => by simp, fun e => by omega⟩
  · by_cases h1 : v.toNat ≤ 2 ^ 32 - 8
    · obtain ⟨r, e, e0, e1, e2, e3, e4⟩ := (C39_adjust v).2.1 (by omega) h1
      refine ⟨r, e, e4, by omega, Or.inr e2, fun _ _ => e1, fun _ _ => by omega, fun e => absurd e h0, fun _ => ?_, fun _ _ => e0⟩
      have := alignUpN_le v.toNat 8
      rw [e0]
      exact Nat.max_le.mpr ⟨by omega, by omega⟩
    · by_cases h2 : v.toNat ≤ 2 ^ 64 - 8
      · refine ⟨0#64, (C39_adjust v).2.2 (by omega) h2, ?_⟩
        exact ⟨by decide, by decide, Or.inl rfl, fun _ e => absurd rfl e, fun _ _ => by omega, fun _ => rfl, fun _ => by simp, fun _ _ => by omega⟩
      · refine ⟨24#64, C39_huge_request_accepted v (by omega), ?_⟩
        exact ⟨by decide, by decide, Or.inr (by decide), fun _ => by omega, fun _ _ => by omega, fun _ => by omega, fun _ => by omega, fun _ _ => by omega⟩

/-- What is known about a free block and its neighbour. -/
theorem good_free {post : List Blk} (h : H C P m0 s (pre ++ b :: post)) (g : Good false (pre ++ b :: post)) (hf : b.free = true) :
    ∃ n post', post = n :: post' ∧ Good false pre ∧ b.pfree = outF false pre ∧ outF false pre = false ∧
      n.free = false ∧ n.listed = n.free ∧ Good n.free post' := by
  obtain ⟨n, post', e, _, _, _⟩ := h.next (h.mid.fr hf)
  subst e
  obtain ⟨g1, g2, g3, g4, g5, g6, g7, g8, g9, g10⟩ := good_append.mp g
  refine ⟨n, post', rfl, g1, g2, g3 hf, ?_, g8, g10⟩
  cases e : n.free with
  | false => rfl
  | true =>
    have := g7 e
    rw [hf] at this
    cases this

theorem good_listed {e : Bool} (g : Good e L) : ∀ x ∈ L, x.listed = x.free := by
  intro x hx
  obtain ⟨l1, l2, rfl⟩ := List.append_of_mem hx
  exact (good_append.mp g).2.2.2.1

/-- `tlsf_malloc`. -/
theorem malloc_ok (h : H C P m0 s L) (g : Good false L) (size : BitVec 64) :
    ∃ r, Adj size.toNat r ∧
    ((malloc C s size = .ok (s, 0) ∧ (r ≠ 0 → ∀ x ∈ L, x.free = true → 32 * x.size < 33 * r)) ∨
     (∃ s' L' a z, malloc C s size = .ok (s', a + 16) ∧ r ≠ 0 ∧ r ≤ z ∧ a % 8 = 0 ∧ H C P m0 s' L' ∧ Good false L' ∧ pools L' = pools L ∧
      (used L').Perm ((a, z) :: used L) ∧ (∀ x, a + 8 ≤ x → x < a + 16 + z → ¬ P x))) := by
  obtain ⟨r, e, ha⟩ := adjust_ok size
  refine ⟨r.toNat, ha, ?_⟩
  unfold malloc
  rw [e, R.ok_bind]
  rcases locateFree_ok h ha.lt ha.al with ⟨e1, hno⟩ | ⟨s1, pre, b, post, rfl, hl, hge, hr0, e1, h1⟩
  · refine Or.inl ⟨?_, ?_⟩
    · rw [e1, R.ok_bind]
      rfl
    · intro hr x hx hf
      exact hno hr x hx (by rw [good_listed g x hx]; exact hf)
  · right
    have hf := h.mid.lst hl
    have hmin := ha.min
    obtain ⟨n, post', rfl, g1, g2, g3, g4, g5, g6⟩ := good_free h g hf
    rw [e1, R.ok_bind]
    obtain ⟨s2, L', z, e2, h2, a1, a2, a3, a4, a5⟩ := prepareUsed_good h1 hf rfl ha.al (by omega) hge g1 g2 ⟨g4, g5, g6⟩
    change prepareUsed C s1 b.addr r.toNat = _ at e2
    refine ⟨s2, L', b.addr, z, e2, hr0, a2, h.mid.al, h2, a1, ?_, ?_, a5⟩
    · rw [a3, pools_append, pools_append, pools_big (by exact h.mid.fr hf), pools_big (h.mid.fr hf)]
    · rw [a4, used_append, used_free hf]
      exact List.perm_middle

/-! ### Aligned allocation -/

theorem alignPtr_eq (p a : Nat) : alignPtr p a = alignUpN p a := rfl

theorem alignUpN_dvd_eq {v a : Nat} (ha : 0 < a) (h : a ∣ v) : alignUpN v a = v :=
  Nat.le_antisymm ((alignUpN_spec v a ha).2.2 v h (Nat.le_refl _)) (alignUpN_ge v a ha)

theorem alignUpN_add (p a : Nat) (ha : 0 < a) (h : a ∣ p) (k : Nat) : alignUpN (p + k) a = p + alignUpN k a := by
  unfold alignUpN
  obtain ⟨c, rfl⟩ := h
  rw [show a * c + k + (a - 1) = k + (a - 1) + c * a by rw [Nat.mul_comm]; omega, Nat.add_mul_div_right _ _ ha, Nat.add_mul, Nat.mul_comm c a]
  omega

theorem ptrDiff_ok {q p : Nat} (h : p ≤ q) (h2 : q - p < 2 ^ 64) : ptrDiff q p = q - p := by
  unfold ptrDiff
  rw [show q + 2 ^ 64 - p = (q - p) + 2 ^ 64 by omega, Nat.add_mod_right, Nat.mod_eq_of_lt h2]

/-- The gap leads to an aligned address, is nothing or leaves room for a block, and is bounded. -/
theorem gapOf_ok {p a : Nat} (h8 : p % 8 = 0) (ha : IsPowerOfTwo a) (hlt : a < 2 ^ 32) :
    (p + gapOf p a) % a = 0 ∧ gapOf p a % 8 = 0 ∧ (gapOf p a = 0 ∨ 32 ≤ gapOf p a) ∧ gapOf p a ≤ a + 24 ∧ (a ≤ 8 → gapOf p a = 0) := by
  have hpos := pow2_pos ha
  obtain ⟨k, hk⟩ := ha
  by_cases hk3 : k ≤ 3
  · have hdv : a ∣ 8 := by
      rw [hk]; exact Nat.pow_dvd_pow 2 hk3
    have hdp : a ∣ p := Nat.dvd_trans hdv (Nat.dvd_of_mod_eq_zero h8)
    have hz : gapOf p a = 0 := by
      unfold gapOf
      dsimp only
      rw [alignPtr_eq, alignUpN_dvd_eq hpos hdp, ptrDiff_ok (Nat.le_refl _) (by omega), if_neg (by omega)]
      omega
    rw [hz]
    exact ⟨Nat.mod_eq_zero_of_dvd (by simpa using hdp), rfl, Or.inl rfl, by omega, fun _ => rfl⟩
  · have hd8 : 16 ∣ a := by
      rw [hk]; exact Nat.pow_dvd_pow 2 (show 4 ≤ k by omega)
    have ha16 : 16 ≤ a := Nat.le_of_dvd hpos hd8
    have hge := alignUpN_ge p a hpos
    have hle := alignUpN_le p a
    have hdv := alignUpN_dvd p a
    have hd8' : 16 ∣ alignUpN p a := Nat.dvd_trans hd8 hdv
    unfold gapOf
    dsimp only
    rw [alignPtr_eq, alignPtr_eq]
    generalize hq : alignUpN p a = q at *
    rw [ptrDiff_ok hge (by omega)]
    by_cases hg : q - p ≠ 0 ∧ q - p < 32
    · rw [if_pos hg, alignUpN_add q a hpos hdv]
      have hkey : ∃ t, alignUpN (max (32 - (q - p)) a) a = t ∧ a ∣ t ∧ t ≤ a + 16 ∧ 32 ≤ q - p + t ∧ q - p + t ≤ a + 24 := by
        refine ⟨_, rfl, alignUpN_dvd _ _, ?_⟩
        by_cases hm : 32 - (q - p) ≤ a
        · rw [Nat.max_eq_right hm, alignUpN_dvd_eq hpos (Nat.dvd_refl a)]
          omega
        · have h16 : a = 16 := by
            have : a < 32 := by omega
            rcases Nat.lt_or_ge k 5 with a1 | a1
            · have : k = 4 := by omega
              rw [hk, this]
            · have := Nat.pow_le_pow_right (show 0 < 2 by omega) a1
              omega
          subst h16
          rw [Nat.max_eq_left (by omega)]
          unfold alignUpN
          omega
      obtain ⟨t, ht, h1, h2, h3, h4⟩ := hkey
      rw [ht, ptrDiff_ok (by omega) (by omega)]
      refine ⟨?_, ?_, Or.inr (by omega), by omega, by omega⟩
      · rw [show p + (q + t - p) = q + t by omega]
        exact Nat.mod_eq_zero_of_dvd ((Nat.dvd_add_iff_right hdv).mp h1)
      · have h16t : 16 ∣ t := Nat.dvd_trans hd8 h1
        omega
    · rw [if_neg hg]
      refine ⟨?_, by omega, by omega, by omega, by omega⟩
      rw [show p + (q - p) = q by omega]
      exact Nat.mod_eq_zero_of_dvd hdv

/-- The size asked for by `tlsf_memalign`. -/
theorem memalign_size {align adj : BitVec 64} (ha : IsPowerOfTwo align.toNat) (hal : align.toNat ≤ 2 ^ 62) (hadj : adj.toNat < 2 ^ 32) :
    ∃ g : BitVec 64, adjustRequestSize (adj + align + 32#64) align = .ok g ∧ g.toNat < 2 ^ 32 ∧
      (8 < align.toNat → g.toNat % 8 = 0 ∧ (g.toNat = 0 ∨ adj.toNat + align.toNat + 32 ≤ g.toNat)) ∧
      g.toNat ≤ adj.toNat + 2 * align.toNat + 32 ∧ (g.toNat = 0 → 2 ^ 32 < adj.toNat + 2 * align.toNat + 32) := by
  have hpos := pow2_pos ha
  have hsum : (adj + align + 32#64).toNat = adj.toNat + align.toNat + 32 := by
    rw [BitVec.toNat_add, BitVec.toNat_add]
    have : (32#64).toNat = 32 := rfl
    rw [this]
    omega
  have hne : adj + align + 32#64 ≠ 0#64 := by
    intro e
    rw [e] at hsum
    have : (0#64).toNat = 0 := rfl
    omega
  have hup := toNat_alignUp (v := adj + align + 32#64) ha (by rw [hsum]; omega)
  rw [hsum] at hup
  have hge := alignUpN_ge (adj.toNat + align.toNat + 32) align.toNat hpos
  have hdv := alignUpN_dvd (adj.toNat + align.toNat + 32) align.toNat
  have hle := alignUpN_le (adj.toNat + align.toNat + 32) align.toNat
  unfold adjustRequestSize
  rw [if_pos hne, alignUp_ok ha, R.ok_bind]
  generalize hw : Verif.Bits.alignUp (adj + align + 32#64) align = w at hup
  rw [← hup] at hge hdv hle
  by_cases hlt : w < blockSizeMax
  · rw [if_pos hlt]
    have hlt' : w.toNat < 4294967296 := hlt
    have hgt : w > blockSizeMin := by
      change 24 < w.toNat
      omega
    rw [if_pos hgt]
    refine ⟨w, rfl, hlt', fun h8 => ⟨?_, Or.inr hge⟩, by omega, by omega⟩
    obtain ⟨k, hk⟩ := ha
    have hd8 : 8 ∣ align.toNat := by
      rw [hk]
      refine Nat.pow_dvd_pow 2 (show 3 ≤ k from ?_)
      rcases Nat.lt_or_ge k 3 with a | a
      · have := Nat.pow_lt_pow_right (show 1 < 2 by omega) a
        omega
      · exact a
    exact Nat.mod_eq_zero_of_dvd (Nat.dvd_trans hd8 hdv)
  · rw [if_neg hlt]
    have hlt' : ¬ w.toNat < 4294967296 := hlt
    refine ⟨0#64, rfl, by decide, fun _ => ⟨rfl, Or.inl rfl⟩, by simp, fun _ => by omega⟩

/-- `tlsf_memalign`, for a power of two up to 2^62. -/
theorem memalign_ok (h : H C P m0 s L) (g : Good false L) {align : BitVec 64} (ha : IsPowerOfTwo align.toNat) (hal : align.toNat ≤ 2 ^ 62)
    (size : BitVec 64) :
    ∃ r, Adj size.toNat r ∧
    ((memalign C s align size = .ok (s, 0) ∧ (r ≠ 0 → r + 2 * align.toNat + 32 ≤ 2 ^ 32 → ∀ x ∈ L, x.free = true → 32 * x.size < 33 * (r + 2 * align.toNat + 32))) ∨
     (∃ s' L' a z, memalign C s align size = .ok (s', a + 16) ∧ r ≠ 0 ∧ r ≤ z ∧ a % 8 = 0 ∧ (a + 16) % align.toNat = 0 ∧ H C P m0 s' L' ∧ Good false L' ∧
      pools L' = pools L ∧ (used L').Perm ((a, z) :: used L) ∧ (∀ x, a + 8 ≤ x → x < a + 16 + z → ¬ P x))) := by
  obtain ⟨r, e, hr⟩ := adjust_ok size
  refine ⟨r.toNat, hr, ?_⟩
  obtain ⟨wg, ew, hw1, hw2, hw3, hw4⟩ := memalign_size ha hal hr.lt
  unfold memalign
  rw [e, R.ok_bind, ew, R.ok_bind]
  dsimp only
  have h8n : (8#64).toNat = 8 := rfl
  have hasz : ∃ q : BitVec 64, (if r ≠ 0#64 ∧ align > 8#64 then wg else r) = q ∧ q.toNat < 2 ^ 32 ∧ q.toNat % 8 = 0 ∧
      (q.toNat ≠ 0 → r.toNat ≠ 0 ∧ (8 < align.toNat → r.toNat + align.toNat + 32 ≤ q.toNat) ∧ r.toNat ≤ q.toNat) ∧
      (r.toNat ≠ 0 → r.toNat + 2 * align.toNat + 32 ≤ 2 ^ 32 → q.toNat ≠ 0 ∧ q.toNat ≤ r.toNat + 2 * align.toNat + 32) := by
    by_cases hc : r ≠ 0#64 ∧ align > 8#64
    · rw [if_pos hc]
      have h8 : 8 < align.toNat := hc.2
      obtain ⟨a1, a2⟩ := hw2 h8
      refine ⟨wg, rfl, hw1, a1, fun hq => ?_, fun _ hs => ⟨fun e => by have := hw4 e; omega, hw3⟩⟩
      have a3 : r.toNat + align.toNat + 32 ≤ wg.toNat := by
        rcases a2 with a2 | a2
        · exact absurd a2 hq
        · exact a2
      refine ⟨fun e => hc.1 (BitVec.eq_of_toNat_eq e), fun _ => a3, by omega⟩
    · rw [if_neg hc]
      refine ⟨r, rfl, hr.lt, hr.al, fun hq => ⟨hq, fun h8 => ?_, Nat.le_refl _⟩, fun h0 _ => ⟨h0, by omega⟩⟩
      exfalso
      apply hc
      refine ⟨fun e => hq (by rw [e]; rfl), h8⟩
  obtain ⟨q, eq, hq1, hq2, hq3, hq4⟩ := hasz
  rw [eq]
  rcases locateFree_ok h hq1 hq2 with ⟨e1, hno⟩ | ⟨s1, pre, b, post, rfl, hl, hge, hq0, e1, h1⟩
  · left
    refine ⟨by rw [e1, R.ok_bind]; rfl, ?_⟩
    intro h0 hs x hx hxf
    obtain ⟨q0, q1⟩ := hq4 h0 hs
    have := hno q0 x hx ((good_listed g x hx).trans hxf)
    omega
  · right
    obtain ⟨hr0, hr1, hr2⟩ := hq3 hq0
    have hf := h.mid.lst hl
    have hmin := hr.min
    have hbal := h.mid.al
    have hbp := h.mid.pos
    have hsz := h.mid.lt
    have hsal := h.mid.sal
    obtain ⟨n, post', rfl, g1, g2, g3, g4, g5, g6⟩ := good_free h g hf
    rw [e1, R.ok_bind]
    dsimp only
    rw [if_pos (show b.addr ≠ 0 by omega)]
    have hgap : align.toNat < 2 ^ 32 := by
      rcases Nat.lt_or_ge 8 align.toNat with a | a
      · have := hr1 a
        omega
      · omega
    obtain ⟨p1, p2, p3, p4, p5⟩ := gapOf_ok (p := b.addr + 16) (by omega) ha hgap
    generalize gapOf (b.addr + 16) align.toNat = gap at *
    by_cases hg0 : gap = 0
    · rw [if_neg (by omega)]
      obtain ⟨s2, L', z, e2, h2, a1, a2, a3, a4, a5⟩ := prepareUsed_good h1 hf rfl hr.al (by omega) (by change r.toNat ≤ b.size; omega) g1 g2 ⟨g4, g5, g6⟩
      change prepareUsed C s1 b.addr r.toNat = _ at e2
      refine ⟨s2, L', b.addr, z, e2, hr0, a2, hbal, ?_, h2, a1, ?_, ?_, a5⟩
      · rw [hg0] at p1; exact p1
      · rw [a3, pools_append, pools_append, pools_big (by exact h.mid.fr hf), pools_big (h.mid.fr hf)]
      · rw [a4, used_append, used_free hf]
        exact List.perm_middle
    · rw [if_pos hg0]
      have h8 : 8 < align.toNat := by
        rcases Nat.lt_or_ge 8 align.toNat with a | a
        · exact a
        · exact absurd (p5 a) hg0
      have hr3 := hr1 h8
      rw [ccAssert_true (decide_eq_true (show gap ≥ 32 by omega)), R.ok_bind]
      obtain ⟨s2, e2, h2⟩ := trimFreeLeading_ok h1 hf rfl (g := gap) p2 (by omega) (by change 32 + gap ≤ b.size; omega)
      change trimFreeLeading C s1 b.addr gap = _ at e2
      rw [e2, R.ok_bind]
      dsimp only
      rw [app_swap] at h2
      have hg' : Good false (pre ++ [{ b with size := gap - 8, linked := true, listed := true }]) := by
        rw [good_append]
        exact ⟨g1, g2, fun _ => g3, hf.symm, fun _ => rfl, trivial⟩
      have hout : outF false (pre ++ [{ b with size := gap - 8, linked := true, listed := true }]) = true := by
        rw [outF_append]
        exact hf
      obtain ⟨s3, L', z, e3, h3, a1, a2, a3, a4, a5⟩ := prepareUsed_good h2 rfl rfl hr.al (by omega) (by change r.toNat ≤ b.size - gap; omega)
        (e := false) hg' hout.symm ⟨g4, g5, g6⟩
      change prepareUsed C s2 (b.addr + gap) r.toNat = _ at e3
      refine ⟨s3, L', b.addr + gap, z, e3, hr0, a2, by omega, ?_, h3, a1, ?_, ?_, a5⟩
      · rw [← p1]; congr 1; omega
      · rw [a3, pools_append, pools_append, pools_append, pools_big (by change gap - 8 ≠ 0; omega), pools_big (by change b.size - gap ≠ 0; omega),
          pools_big (h.mid.fr hf), pools_pf]
        simp [pools]
      · have hu : used [{ b with size := gap - 8, linked := true, listed := true }] = [] :=
          used_free (b := { b with size := gap - 8, linked := true, listed := true }) hf []
        rw [a4, used_append, used_append, hu, used_free hf, used_pf, List.append_nil]
        exact List.perm_middle

end Verif.Tlsf
