import Verif.Tlsf.HeapApi
import Mathlib.Data.List.Induction
/-!
# Giving blocks back, and resizing them in place
-/
namespace Verif.Tlsf
open Spec

variable {C : Cfg} {P : Nat → Prop} {m0 : Nat → Nat} {s : St} {pre post L : List Blk} {b n p : Blk}

/-- A list whose last block is free ends with that block. -/
theorem outF_true {l : List Blk} (h : outF false l = true) : ∃ l' p, l = l' ++ [p] ∧ p.free = true := by
  induction l using List.reverseRecOn with
  | nil => cases h
  | append_singleton l' p _ =>
    refine ⟨l', p, rfl, ?_⟩
    rw [outF_append] at h
    exact h

/-- The last part of `tlsf_free`: the block is merged with the next one and filed. -/
theorem free_tail (h : H C P m0 s (pre ++ b :: { n with pfree := true } :: post)) (hf : b.free = true) (hl : b.listed = false)
    (hlk : b.linked = true) (hp : b.pfree = false) (g1 : Good false pre) (g2 : outF false pre = false)
    (gn : n.listed = n.free) (gp : Good n.free post) :
    ∃ s' L', (do let s ← mergeNext C s b.addr; blockInsert C s b.addr) = .ok s' ∧ H C P m0 s' L' ∧ Good false L' ∧
      used L' = used pre ++ used (n :: post) ∧ pools L' = pools pre ++ pools (n :: post) := by
  have hb0 := h.mid.fr hf
  rcases Bool.eq_false_or_eq_true n.free with hn | hn
  · obtain ⟨s1, e1, h1⟩ := mergeNext_ok h hb0 hl (by change n.listed = true; rw [gn, hn])
    rw [e1, R.ok_bind]
    obtain ⟨s2, e2, h2⟩ := blockInsert_ok h1 hl hf
    change blockInsert C s1 b.addr = _ at e2
    have hn0 : n.size ≠ 0 := by
      have h' : H C P m0 s ((pre ++ [b]) ++ { n with pfree := true } :: post) := by rw [← app_swap]; exact h
      exact h'.mid.fr hn
    refine ⟨s2, _, e2, h2, ?_, ?_, ?_⟩
    · rw [good_append]
      refine ⟨g1, ?_, fun _ => g2, hf.symm, fun _ => rfl, ?_⟩
      · rw [g2]; exact hp
      · change Good b.free post
        rw [hf, ← hn]; exact gp
    · rw [used_append, used_free (b := { b with size := b.size + n.size + 8, linked := true, listed := true }) hf, used_free hn]
    · rw [pools_append, pools_big (b := { b with size := b.size + n.size + 8, linked := true, listed := true }) (by
        change b.size + n.size + 8 ≠ 0; omega), pools_big hn0]
  · have e1 := mergeNext_none h hb0 (by exact hn)
    rw [e1, R.ok_bind]
    obtain ⟨s2, e2, h2⟩ := blockInsert_ok h hl hf
    refine ⟨s2, _, e2, h2, ?_, ?_, ?_⟩
    · rw [good_append]
      refine ⟨g1, ?_, fun _ => g2, hf.symm, fun _ => hlk, hf.symm, ?_, gn, ?_, gp⟩
      · rw [g2]; exact hp
      · intro e; change n.free = true at e; rw [hn] at e; cases e
      · intro e; change n.free = true at e; rw [hn] at e; cases e
    · rw [used_append, used_free (b := { b with listed := true }) hf, used_pf]
    · rw [pools_append, pools_big (b := { b with listed := true }) hb0, pools_pf]

/-- `tlsf_free`. -/
theorem free_ok (h : H C P m0 s (pre ++ b :: post)) (g : Good false (pre ++ b :: post)) (hf : b.free = false) (hb : b.size ≠ 0)
    (hq : ∀ a, b.addr + 8 ≤ a → a < b.addr + 16 + b.size → ¬ P a) :
    ∃ s' L', free C s (b.addr + 16) = .ok s' ∧ H C P m0 s' L' ∧ Good false L' ∧ used L' = used pre ++ used post ∧
      pools L' = pools (pre ++ b :: post) := by
  obtain ⟨n, post', rfl, hn1, _, _⟩ := h.next hb
  obtain ⟨g1, g2, g3, g4, g5, g6, g7, g8, g9, g10⟩ := good_append.mp g
  have hbl : b.listed = false := by rw [g4]; exact hf
  have w2 : (!wFree b.hdr) = true := by rw [wFree_hdr h.mid.sal, hf]; rfl
  unfold free
  dsimp only
  rw [if_pos (by omega), Nat.add_sub_cancel, ld_hdr h.mid, R.ok_bind, ccAssert_true w2, R.ok_bind]
  obtain ⟨s1, e1, h1⟩ := markFree_ok h hb hq
  rw [e1, R.ok_bind]
  rcases Bool.eq_false_or_eq_true b.pfree with hp | hp
  · obtain ⟨pre', p, rfl, hpf⟩ := outF_true (l := pre) (by rw [← g2]; exact hp)
    obtain ⟨k1, k2, k3, k4, k5, _⟩ := good_append.mp g1
    have h1' : H C P m0 s1 (pre' ++ p :: { b with free := true, linked := true } :: { n with pfree := true } :: post') := by
      rw [app_swap]; exact h1
    obtain ⟨s2, e2, h2⟩ := mergePrev_ok h1' (b := { b with free := true, linked := true }) hp (by rw [k4]; exact hpf) (k5 hpf) hb hbl rfl
    change mergePrev C s1 b.addr = _ at e2
    rw [e2, R.ok_bind]
    dsimp only
    have hpp : p.pfree = false := by rw [k2]; exact k3 hpf
    obtain ⟨s3, L', e3, h3, a1, a2, a3⟩ := free_tail h2 hpf rfl rfl hpp k1 (k3 hpf) g8 g10
    refine ⟨s3, L', e3, h3, a1, ?_, ?_⟩
    · rw [a2, used_append, used_free hpf]; simp [used]
    · rw [a3, pools_append, pools_append, pools_big hb, pools_big (h1'.mid.fr hpf)]; simp [pools]
  · have e2 := mergePrev_none h1 (b := { b with free := true, linked := true }) hp
    change mergePrev C s1 b.addr = _ at e2
    rw [e2, R.ok_bind]
    dsimp only
    obtain ⟨s3, L', e3, h3, a1, a2, a3⟩ := free_tail h1 rfl hbl rfl hp g1 (by rw [← g2]; exact hp) g8 g10
    refine ⟨s3, L', e3, h3, a1, a2, ?_⟩
    rw [a3, pools_append, pools_big hb]

/-- The end of `tlsf_realloc` in place: the rest of the block is given back. -/
theorem trim_good (h : H C P m0 s (pre ++ b :: n :: post)) (g1 : Good false pre) (g2 : b.pfree = outF false pre) (hf : b.free = false)
    (hl : b.listed = false) (gn : n.pfree = false) (gnl : n.listed = n.free) (gnk : n.free = true → n.linked = true) (gp : Good n.free post)
    {z : Nat} (h8 : z % 8 = 0) (h24 : 24 ≤ z) (hz : z ≤ b.size)
    (hq : ∀ a, b.addr + 16 + z ≤ a → a < b.addr + 16 + b.size → ¬ P a) :
    ∃ s' L' z', trimUsed C s b.addr z = .ok s' ∧ z ≤ z' ∧ H C P m0 s' L' ∧ Good false L' ∧
      used L' = used pre ++ (b.addr, z') :: used (n :: post) ∧ pools L' = pools pre ++ pools (n :: post) := by
  by_cases hs : 32 + z ≤ b.size
  · obtain ⟨s1, L2, e1, h1, hc⟩ := trimUsed_ok h hf hl gnl h8 h24 hs hq
    refine ⟨s1, _, z, e1, Nat.le_refl _, h1, ?_, ?_, ?_⟩
    · rw [good_append]
      refine ⟨g1, g2, ?_, ?_, ?_, ?_⟩
      · intro e; change b.free = true at e; rw [hf] at e; cases e
      · change b.listed = b.free; rw [hf]; exact hl
      · intro e; change b.free = true at e; rw [hf] at e; cases e
      · change Good b.free L2
        rw [hf]
        rcases hc with ⟨hn, rfl⟩ | ⟨hn, rfl⟩
        · refine ⟨rfl, fun _ => rfl, rfl, fun _ => rfl, rfl, ?_, gnl, gnk, gp⟩
          intro e; change n.free = true at e; rw [hn] at e; cases e
        · refine ⟨rfl, fun _ => rfl, rfl, fun _ => rfl, ?_⟩
          change Good true post
          rw [← hn]; exact gp
    · rw [used_append, used_used (b := { b with size := z, linked := false }) hf (by change z ≠ 0; omega)]
      congr 2
      rcases hc with ⟨hn, rfl⟩ | ⟨hn, rfl⟩
      · rw [used_free rfl, used_pf]
      · rw [used_free rfl, used_free hn]
    · rw [pools_append, pools_big (b := { b with size := z, linked := false }) (by change z ≠ 0; omega)]
      congr 1
      rcases hc with ⟨hn, rfl⟩ | ⟨hn, rfl⟩
      · rw [pools_big (by change b.size - (z + 8) ≠ 0; omega), pools_pf]
      · have h' : H C P m0 s ((pre ++ [b]) ++ n :: post) := by rw [← app_swap]; exact h
        rw [pools_big (by change b.size - (z + 8) + n.size + 8 ≠ 0; omega), pools_big (h'.mid.fr hn)]
  · refine ⟨s, _, b.size, trimUsed_none h hf hs, hz, h, ?_, ?_, ?_⟩
    · rw [good_append]
      refine ⟨g1, g2, ?_, ?_, ?_, ?_, ?_, gnl, gnk, gp⟩
      · intro e; rw [hf] at e; cases e
      · rw [hf]; exact hl
      · intro e; rw [hf] at e; cases e
      · rw [hf]; exact gn
      · intro _; exact hf
    · rw [used_append, used_used hf (by omega)]
    · rw [pools_append, pools_big (by omega)]

/-- The part of `tlsf_realloc` that keeps the address. -/
def inPlace (C : Cfg) (s : St) (b cur z : Nat) : R St := do
  let s ← (if z > cur then do
      let s ← mergeNext C s b
      markUsed C s b
    else pure s : R St)
  trimUsed C s b z

theorem inPlace_ok (h : H C P m0 s (pre ++ b :: n :: post)) (g : Good false (pre ++ b :: n :: post)) (hf : b.free = false) (hb : b.size ≠ 0)
    {z : Nat} (h8 : z % 8 = 0) (h24 : 24 ≤ z) (hc : z ≤ b.size ∨ (n.free = true ∧ z ≤ b.size + n.size + 8))
    (hq : ∀ a, b.addr + 16 + z ≤ a → a < b.addr + 16 + b.size → ¬ P a) :
    ∃ s' L' z', inPlace C s b.addr b.size z = .ok s' ∧ z ≤ z' ∧ H C P m0 s' L' ∧ Good false L' ∧
      used L' = used pre ++ (b.addr, z') :: used (n :: post) ∧ pools L' = pools (pre ++ b :: n :: post) := by
  obtain ⟨g1, g2, g3, g4, g5, g6, g7, g8, g9, g10⟩ := good_append.mp g
  have hbl : b.listed = false := by rw [g4]; exact hf
  have hpools : pools (pre ++ b :: n :: post) = pools pre ++ pools (n :: post) := by rw [pools_append, pools_big hb]
  unfold inPlace
  by_cases hz : z ≤ b.size
  · rw [if_neg (by omega), R.pure_eq, R.ok_bind]
    obtain ⟨s', L', z', e1, a1, h1, a2, a3, a4⟩ := trim_good h g1 g2 hf hbl (by rw [g6]; exact hf) g8 g9 g10 h8 h24 hz hq
    exact ⟨s', L', z', e1, a1, h1, a2, a3, a4.trans hpools.symm⟩
  · have hz2 : n.free = true ∧ z ≤ b.size + n.size + 8 := by
      rcases hc with a | a
      · exact absurd a hz
      · exact a
    rw [if_pos (by omega)]
    have h' : H C P m0 s ((pre ++ [b]) ++ n :: post) := by rw [← app_swap]; exact h
    have kn := h'.mid
    have hn0 := kn.fr hz2.1
    obtain ⟨n2, post2, rfl, _, _, _⟩ := h'.next hn0
    obtain ⟨k1, k2, k3, k4, k5⟩ := g10
    have hn2f : n2.free = false := by
      cases e : n2.free with
      | false => rfl
      | true =>
        have := k2 e
        rw [hz2.1] at this
        cases this
    obtain ⟨_, _, e0, hn1, _, _⟩ := h.next hb
    cases e0
    obtain ⟨s1, e1, h1⟩ := mergeNext_ok h hb hbl (by rw [g8]; exact hz2.1)
    rw [e1, R.ok_bind]
    obtain ⟨s2, e2, h2⟩ := markUsed_ok h1 (b := { b with size := b.size + n.size + 8, linked := true }) (by change b.size + n.size + 8 ≠ 0; omega) hbl
    change markUsed C s1 b.addr = _ at e2
    rw [e2, R.ok_bind]
    obtain ⟨s', L', z', e3, a1, h3, a2, a3, a4⟩ := trim_good h2 (n := { n2 with pfree := false }) (z := z) g1 g2 rfl hbl rfl k3 k4 k5 h8 h24 (by
      change z ≤ b.size + n.size + 8; omega) (by
      intro a b1 b2
      change b.addr + 16 + z ≤ a at b1
      change a < b.addr + 16 + (b.size + n.size + 8) at b2
      exact kn.q hz2.1 a (by omega) (by omega))
    change trimUsed C s2 b.addr z = _ at e3
    refine ⟨s', L', z', e3, a1, h3, a2, ?_, ?_⟩
    · rw [a3, used_free hz2.1, used_pf]
    · rw [a4, hpools, pools_pf, pools_big hn0]

end Verif.Tlsf
