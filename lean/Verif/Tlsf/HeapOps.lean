import Verif.Tlsf.HeapSearch
/-!
# Merging, trimming, and the operations of the heap
-/
namespace Verif.Tlsf
open Spec

variable {C : Cfg} {P : Nat → Prop} {m0 : Nat → Nat} {s : St} {pre post L : List Blk} {b n p : Blk}

/-! ### Between the operations -/

/-- The state of the block in front of what follows. -/
def outF : Bool → List Blk → Bool
  | e, [] => e
  | _, b :: t => outF b.free t

/-- The flags tell the truth, no two free blocks are neighbours, and exactly the free blocks are listed. -/
def Good : Bool → List Blk → Prop
  | _, [] => True
  | e, b :: t => b.pfree = e ∧ (b.free = true → e = false) ∧ b.listed = b.free ∧ (b.free = true → b.linked = true) ∧ Good b.free t

theorem outF_append (e : Bool) (l1 l2 : List Blk) : outF e (l1 ++ l2) = outF (outF e l1) l2 := by
  induction l1 generalizing e with
  | nil => rfl
  | cons b t ih => exact ih b.free

theorem good_append {e : Bool} {l1 l2 : List Blk} : Good e (l1 ++ l2) ↔ Good e l1 ∧ Good (outF e l1) l2 := by
  induction l1 generalizing e with
  | nil => exact ⟨fun h => ⟨trivial, h⟩, fun h => h.2⟩
  | cons b t ih =>
    constructor
    · rintro ⟨h1, h2, h3, h4, h5⟩
      obtain ⟨a, c⟩ := ih.mp h5
      exact ⟨⟨h1, h2, h3, h4, a⟩, c⟩
    · rintro ⟨⟨h1, h2, h3, h4, a⟩, c⟩
      exact ⟨h1, h2, h3, h4, ih.mpr ⟨a, c⟩⟩

/-- The blocks in use: address and size. -/
def used (L : List Blk) : List (Nat × Nat) := (L.filter fun b => !b.free && decide (b.size ≠ 0)).map fun b => (b.addr, b.size)

/-- The pools: address of the first block and of the sentinel. -/
def pools (L : List Blk) : List (Nat × Nat) := (L.filter fun b => decide (b.size = 0)).map fun b => (b.lo, b.hi)

theorem used_append (l1 l2 : List Blk) : used (l1 ++ l2) = used l1 ++ used l2 := by simp [used]
theorem pools_append (l1 l2 : List Blk) : pools (l1 ++ l2) = pools l1 ++ pools l2 := by simp [pools]

theorem used_cons (b : Blk) (l : List Blk) : used (b :: l) = (if b.free = false ∧ b.size ≠ 0 then [(b.addr, b.size)] else []) ++ used l := by
  unfold used
  by_cases h : b.free = false ∧ b.size ≠ 0
  · rw [if_pos h, List.filter_cons_of_pos (by simp [h.1, h.2])]
    rfl
  · rw [if_neg h, List.filter_cons_of_neg]
    · rfl
    · intro hh
      apply h
      simpa using hh

theorem pools_cons (b : Blk) (l : List Blk) : pools (b :: l) = (if b.size = 0 then [(b.lo, b.hi)] else []) ++ pools l := by
  unfold pools
  by_cases h : b.size = 0
  · rw [if_pos h, List.filter_cons_of_pos (by simp [h])]
    rfl
  · rw [if_neg h, List.filter_cons_of_neg (by simp [h])]
    rfl

theorem used_free {b : Blk} (h : b.free = true) (l : List Blk) : used (b :: l) = used l := by
  rw [used_cons, if_neg (by simp [h])]; rfl

theorem used_used {b : Blk} (h : b.free = false) (h0 : b.size ≠ 0) (l : List Blk) : used (b :: l) = (b.addr, b.size) :: used l := by
  rw [used_cons, if_pos ⟨h, h0⟩]; rfl

theorem used_same {b b' : Blk} (h : b'.free = b.free) (h0 : b'.size = b.size) (ha : b'.addr = b.addr) (l : List Blk) :
    used (b' :: l) = used (b :: l) := by
  rw [used_cons, used_cons, h, h0, ha]

theorem pools_big {b : Blk} (h0 : b.size ≠ 0) (l : List Blk) : pools (b :: l) = pools l := by
  rw [pools_cons, if_neg h0]; rfl

theorem pools_same {b b' : Blk} (h0 : b'.size = b.size) (h1 : b'.lo = b.lo) (h2 : b'.hi = b.hi) (l : List Blk) :
    pools (b' :: l) = pools (b :: l) := by
  rw [pools_cons, pools_cons, h0, h1, h2]

theorem pools_pf (b : Blk) (v : Bool) (l : List Blk) : pools ({ b with pfree := v } :: l) = pools (b :: l) :=
  pools_same (b := b) (b' := { b with pfree := v }) rfl rfl rfl l

theorem used_pf (b : Blk) (v : Bool) (l : List Blk) : used ({ b with pfree := v } :: l) = used (b :: l) :=
  used_same (b := b) (b' := { b with pfree := v }) rfl rfl rfl l

/-! ### Merging -/

theorem mergePrev_none (h : H C P m0 s (pre ++ b :: post)) (hp : b.pfree = false) : mergePrev C s b.addr = .ok (s, b.addr) := by
  unfold mergePrev
  rw [ld_hdr h.mid, R.ok_bind, wPrevFree_hdr h.mid.sal, hp]
  rfl

theorem mergePrev_ok (h : H C P m0 s (pre ++ p :: b :: post)) (hp : b.pfree = true) (hpl : p.listed = true) (hlk : p.linked = true)
    (hb : b.size ≠ 0) (hbl : b.listed = false) (hbf : b.free = true) :
    ∃ s', mergePrev C s b.addr = .ok (s', p.addr) ∧
      H C P m0 s' (pre ++ { p with size := p.size + b.size + 8, listed := false, linked := true } :: post) := by
  have kp := h.mid
  have h' : H C P m0 s ((pre ++ [p]) ++ b :: post) := by rw [← app_swap]; exact h
  have kb := h'.mid
  have hpf := kp.lst hpl
  have hp0 := kp.fr hpf
  have hmin := kp.min
  obtain ⟨n', post', e, hn1, _, _⟩ := h.next hp0
  cases e
  have hal := kb.al
  have hm : s.mem b.addr = p.addr := by rw [hn1]; exact (kp.lnk hlk).2
  have hpp := kp.pos
  have w1 : wPrevFree b.hdr = true := (wPrevFree_hdr kb.sal).trans hp
  have w2 : wFree p.hdr = true := (wFree_hdr kp.sal).trans hpf
  unfold mergePrev
  rw [ld_hdr kb, R.ok_bind, if_pos w1]
  unfold blockPrev
  rw [ld_hdr kb, R.ok_bind, ccAssert_true w1, R.ok_bind, ld_ok hal (kp.ok _ (by omega) (by omega)), R.ok_bind, hm,
    ccAssert_true (decide_eq_true (by omega)), R.ok_bind, ld_hdr kp, R.ok_bind, ccAssert_true w2, R.ok_bind]
  obtain ⟨s1, e1, h1⟩ := blockRemove_ok h hpl
  rw [e1, R.ok_bind]
  obtain ⟨s2, e2, h2⟩ := absorb_ok h1 hp0 hb rfl hbl hbf
  change absorb C s1 p.addr b.addr = _ at e2
  rw [e2, R.ok_bind]
  exact ⟨s2, rfl, h2⟩

theorem mergeNext_none (h : H C P m0 s (pre ++ b :: n :: post)) (hb : b.size ≠ 0) (hn : n.free = false) : mergeNext C s b.addr = .ok s := by
  obtain ⟨n', post', e, hn1, _, _⟩ := h.next hb
  cases e
  have h' : H C P m0 s ((pre ++ [b]) ++ n :: post) := by rw [← app_swap]; exact h
  have kn := h'.mid
  have hpp := kn.pos
  unfold mergeNext
  rw [blockNext_ok h.mid hb, R.ok_bind, ← hn1, ccAssert_true (decide_eq_true (by omega)), R.ok_bind, ld_hdr kn, R.ok_bind, wFree_hdr kn.sal, hn]
  rfl

theorem mergeNext_ok (h : H C P m0 s (pre ++ b :: n :: post)) (hb : b.size ≠ 0) (hbl : b.listed = false) (hn : n.listed = true) :
    ∃ s', mergeNext C s b.addr = .ok s' ∧ H C P m0 s' (pre ++ { b with size := b.size + n.size + 8, linked := true } :: post) := by
  obtain ⟨n', post', e, hn1, _, _⟩ := h.next hb
  cases e
  have h' : H C P m0 s ((pre ++ [b]) ++ n :: post) := by rw [← app_swap]; exact h
  have kn := h'.mid
  have hpp := kn.pos
  have hnf := kn.lst hn
  have w2 : wFree n.hdr = true := (wFree_hdr kn.sal).trans hnf
  unfold mergeNext
  rw [blockNext_ok h.mid hb, R.ok_bind, ← hn1, ccAssert_true (decide_eq_true (by omega)), R.ok_bind, ld_hdr kn, R.ok_bind, 
    if_pos w2, ld_hdr h.mid, R.ok_bind, wSize_hdr h.mid.sal, ccAssert_true (decide_eq_true hb), R.ok_bind]
  obtain ⟨s1, e1, h1⟩ := blockRemove_ok h' hn
  rw [e1, R.ok_bind]
  rw [← app_swap] at h1
  exact absorb_ok (b := { n with listed := false }) h1 hb (kn.fr hnf) hbl rfl hnf

/-! ### Trimming -/

theorem canSplit_ok (k : BOk C P s.mem b) (z : Nat) : canSplit C s b.addr z = .ok (decide (32 + z ≤ b.size)) := by
  unfold canSplit
  rw [ld_hdr k, R.ok_bind, wSize_hdr k.sal]
  rfl

theorem trimFree_none (h : H C P m0 s (pre ++ b :: post)) (hf : b.free = true) {z : Nat} (hz : ¬ 32 + z ≤ b.size) : trimFree C s b.addr z = .ok s := by
  unfold trimFree
  rw [ld_hdr h.mid, R.ok_bind, wFree_hdr h.mid.sal, hf, ccAssert_true rfl, R.ok_bind, canSplit_ok h.mid, R.ok_bind, decide_eq_false hz]
  rfl

theorem trimFree_ok (h : H C P m0 s (pre ++ b :: n :: post)) (hf : b.free = true) (hl : b.listed = false) {z : Nat} (h8 : z % 8 = 0) (h24 : 24 ≤ z)
    (hz : 32 + z ≤ b.size) :
    ∃ s', trimFree C s b.addr z = .ok s' ∧ H C P m0 s' (pre ++ { b with size := z, linked := true } ::
      ⟨b.addr + 8 + z, b.size - (z + 8), true, true, true, true, b.lo, b.hi⟩ :: { n with pfree := true } :: post) := by
  have k := h.mid
  have w2 : wFree b.hdr = true := (wFree_hdr k.sal).trans hf
  unfold trimFree
  rw [ld_hdr k, R.ok_bind, ccAssert_true w2, R.ok_bind, canSplit_ok k, R.ok_bind, decide_eq_true hz, if_pos rfl]
  obtain ⟨s1, g, e1, h1⟩ := split_ok h h8 h24 hz hl (fun a a1 a2 => k.q hf a (by omega) a2)
  rw [e1, R.ok_bind]
  dsimp only
  obtain ⟨s2, e2, h2⟩ := linkNext_ok h1 (show z ≠ 0 by omega) (k.q hf _ (by change b.addr + 8 ≤ b.addr + 8 + z; omega) (by change b.addr + 8 + z < _; omega))
  change linkNext C s1 b.addr = _ at e2
  rw [e2, R.ok_bind]
  dsimp only
  rw [app_swap] at h2
  obtain ⟨s3, e3, h3⟩ := modW_flags h2 (f := wSetPrevFree) true true (wSetPrevFree_hdr h2.mid.sal) (fun _ => rfl) h2.mid.fr h2.mid.q
  change modW C s2 (b.addr + 8 + z) _ = _ at e3
  rw [e3, R.ok_bind]
  obtain ⟨s4, e4, h4⟩ := blockInsert_ok h3 rfl rfl
  change blockInsert C s3 (b.addr + 8 + z) = _ at e4
  rw [← app_swap] at h4
  exact ⟨s4, e4, h4⟩

theorem trimUsed_none (h : H C P m0 s (pre ++ b :: post)) (hf : b.free = false) {z : Nat} (hz : ¬ 32 + z ≤ b.size) : trimUsed C s b.addr z = .ok s := by
  have w2 : (!wFree b.hdr) = true := by rw [wFree_hdr h.mid.sal, hf]; rfl
  unfold trimUsed
  rw [ld_hdr h.mid, R.ok_bind, ccAssert_true w2, R.ok_bind, canSplit_ok h.mid, R.ok_bind, decide_eq_false hz]
  rfl

/-- The rest of a used block is given back; it is merged with the next block if that is free. -/
theorem trimUsed_ok (h : H C P m0 s (pre ++ b :: n :: post)) (hf : b.free = false) (hl : b.listed = false) (hnl : n.listed = n.free)
    {z : Nat} (h8 : z % 8 = 0) (h24 : 24 ≤ z) (hz : 32 + z ≤ b.size) (hq : ∀ a, b.addr + 16 + z ≤ a → a < b.addr + 16 + b.size → ¬ P a) :
    ∃ s' L2, trimUsed C s b.addr z = .ok s' ∧ H C P m0 s' (pre ++ { b with size := z, linked := false } :: L2) ∧
      ((n.free = false ∧ L2 = ⟨b.addr + 8 + z, b.size - (z + 8), true, false, true, true, b.lo, b.hi⟩ :: { n with pfree := true } :: post) ∨
       (n.free = true ∧ L2 = ⟨b.addr + 8 + z, b.size - (z + 8) + n.size + 8, true, false, true, true, b.lo, b.hi⟩ :: post)) := by
  have k := h.mid
  have w2 : (!wFree b.hdr) = true := by rw [wFree_hdr k.sal, hf]; rfl
  unfold trimUsed
  rw [ld_hdr k, R.ok_bind, ccAssert_true w2, R.ok_bind, canSplit_ok k, R.ok_bind, decide_eq_true hz, if_pos rfl]
  obtain ⟨s1, g, e1, h1⟩ := split_ok h h8 h24 hz hl hq
  rw [e1, R.ok_bind]
  dsimp only
  rw [app_swap] at h1
  obtain ⟨s3, e3, h3⟩ := modW_flags h1 (f := wSetPrevUsed) true false (wSetPrevUsed_hdr h1.mid.sal) (fun _ => rfl) h1.mid.fr h1.mid.q
  change modW C s1 (b.addr + 8 + z) _ = _ at e3
  rw [e3, R.ok_bind]
  rcases Bool.eq_false_or_eq_true n.free with hnf | hnf
  rotate_left
  · have e5 := mergeNext_none h3 (show b.size - (z + 8) ≠ 0 by omega) (by exact hnf)
    change mergeNext C s3 (b.addr + 8 + z) = _ at e5
    rw [e5, R.ok_bind]
    obtain ⟨s4, e4, h4⟩ := blockInsert_ok h3 rfl rfl
    change blockInsert C s3 (b.addr + 8 + z) = _ at e4
    rw [← app_swap] at h4
    exact ⟨s4, _, e4, h4, Or.inl ⟨hnf, rfl⟩⟩
  · obtain ⟨s5, e5, h5⟩ := mergeNext_ok h3 (show b.size - (z + 8) ≠ 0 by omega) rfl (by change n.listed = true; rw [hnl, hnf])
    change mergeNext C s3 (b.addr + 8 + z) = _ at e5
    rw [e5, R.ok_bind]
    obtain ⟨s4, e4, h4⟩ := blockInsert_ok h5 rfl rfl
    change blockInsert C s5 (b.addr + 8 + z) = _ at e4
    rw [← app_swap] at h4
    exact ⟨s4, _, e4, h4, Or.inr ⟨hnf, rfl⟩⟩

theorem trimFreeLeading_ok (h : H C P m0 s (pre ++ b :: n :: post)) (hf : b.free = true) (hl : b.listed = false) {g : Nat} (h8 : g % 8 = 0)
    (h24 : 32 ≤ g) (hz : 32 + g ≤ b.size) :
    ∃ s', trimFreeLeading C s b.addr g = .ok (s', b.addr + g) ∧
      H C P m0 s' (pre ++ { b with size := g - 8, linked := true, listed := true } ::
        ⟨b.addr + g, b.size - g, true, true, false, true, b.lo, b.hi⟩ :: { n with pfree := true } :: post) := by
  have k := h.mid
  unfold trimFreeLeading
  rw [canSplit_ok k, R.ok_bind, decide_eq_true hz, if_pos rfl]
  obtain ⟨s1, g', e1, h1⟩ := split_ok h (z := g - 8) (by omega) (by omega) (by omega) hl (fun a a1 a2 => k.q hf a (by omega) a2)
  have er : b.addr + 8 + (g - 8) = b.addr + g := by omega
  have es : b.size - (g - 8 + 8) = b.size - g := by omega
  rw [er] at e1
  rw [er, es] at h1
  rw [e1, R.ok_bind]
  dsimp only
  rw [app_swap] at h1
  obtain ⟨s3, e3, h3⟩ := modW_flags h1 (f := wSetPrevFree) true true (wSetPrevFree_hdr h1.mid.sal) (fun _ => rfl) h1.mid.fr h1.mid.q
  change modW C s1 (b.addr + g) _ = _ at e3
  rw [e3, R.ok_bind]
  rw [← app_swap] at h3
  obtain ⟨s2, e2, h2⟩ := linkNext_ok h3 (show g - 8 ≠ 0 by omega) (by
    refine k.q hf _ ?_ ?_
    · change b.addr + 8 ≤ b.addr + 8 + (g - 8); omega
    · change b.addr + 8 + (g - 8) < _; omega)
  change linkNext C s3 b.addr = _ at e2
  rw [e2, R.ok_bind]
  dsimp only
  obtain ⟨s4, e4, h4⟩ := blockInsert_ok h2 hl hf
  change blockInsert C s2 b.addr = _ at e4
  rw [e4, R.ok_bind]
  exact ⟨s4, rfl, h4⟩

/-! ### Putting a free block to use -/

/-- `block_prepare_used` on a free block that has been taken off the lists. -/
theorem prepareUsed_ok (h : H C P m0 s (pre ++ b :: n :: post)) (hf : b.free = true) (hl : b.listed = false) {z : Nat} (h8 : z % 8 = 0) (h24 : 24 ≤ z)
    (hz : z ≤ b.size) :
    ∃ s' z' L2, prepareUsed C s b.addr z = .ok (s', b.addr + 16) ∧ z ≤ z' ∧ z' ≤ b.size ∧
      H C P m0 s' (pre ++ { b with size := z', free := false, linked := false } :: L2) ∧
      ((z' = b.size ∧ L2 = { n with pfree := false } :: post) ∨
       (z' = z ∧ 32 + z ≤ b.size ∧ L2 = ⟨b.addr + 8 + z, b.size - (z + 8), true, false, true, true, b.lo, b.hi⟩ :: { n with pfree := true } :: post)) := by
  have k := h.mid
  have hp := k.pos
  unfold prepareUsed
  rw [if_pos (by omega), ccAssert_true (decide_eq_true (by omega)), R.ok_bind]
  by_cases hs : 32 + z ≤ b.size
  · obtain ⟨s1, e1, h1⟩ := trimFree_ok h hf hl h8 h24 hs
    rw [e1, R.ok_bind]
    obtain ⟨s2, e2, h2⟩ := markUsed_ok h1 (show z ≠ 0 by omega) hl
    change markUsed C s1 b.addr = _ at e2
    rw [e2, R.ok_bind]
    exact ⟨s2, z, _, rfl, Nat.le_refl _, hz, h2, Or.inr ⟨rfl, hs, rfl⟩⟩
  · rw [trimFree_none h hf hs, R.ok_bind]
    obtain ⟨s2, e2, h2⟩ := markUsed_ok h (by omega) hl
    rw [e2, R.ok_bind]
    exact ⟨s2, b.size, _, rfl, hz, Nat.le_refl _, h2, Or.inl ⟨rfl, rfl⟩⟩

/-- The same with the facts that hold between the operations. -/
theorem prepareUsed_good (h : H C P m0 s (pre ++ b :: n :: post)) (hf : b.free = true) (hl : b.listed = false) {z : Nat} (h8 : z % 8 = 0)
    (h24 : 24 ≤ z) (hz : z ≤ b.size) {e : Bool} (g1 : Good e pre) (g2 : b.pfree = outF e pre)
    (g3 : n.free = false ∧ n.listed = n.free ∧ Good n.free post) :
    ∃ s' L' z', prepareUsed C s b.addr z = .ok (s', b.addr + 16) ∧ H C P m0 s' L' ∧ Good e L' ∧ z ≤ z' ∧
      pools L' = pools (pre ++ b :: n :: post) ∧ used L' = used pre ++ (b.addr, z') :: used (n :: post) ∧
      (∀ x, b.addr + 8 ≤ x → x < b.addr + 16 + z' → ¬ P x) := by
  obtain ⟨s', z', L2, e1, a1, a2, h1, hc⟩ := prepareUsed_ok h hf hl h8 h24 hz
  have hz0 : z' ≠ 0 := by omega
  refine ⟨s', _, z', e1, h1, ?_, a1, ?_, ?_, fun x x1 x2 => h.mid.q hf x x1 (by omega)⟩
  · rw [good_append]
    refine ⟨g1, g2, (fun e => nomatch e), hl, (fun e => nomatch e), ?_⟩
    rcases hc with ⟨_, rfl⟩ | ⟨_, _, rfl⟩
    · exact ⟨rfl, (fun _ => rfl), g3.2.1, (fun ee => by change n.free = true at ee; rw [g3.1] at ee; cases ee), g3.2.2⟩
    · exact ⟨rfl, (fun _ => rfl), rfl, (fun _ => rfl), rfl, (fun ee => by change n.free = true at ee; rw [g3.1] at ee; cases ee), g3.2.1,
        (fun ee => by change n.free = true at ee; rw [g3.1] at ee; cases ee), g3.2.2⟩
  · rw [pools_append, pools_append, pools_big (by exact hz0), pools_big (by omega)]
    congr 1
    rcases hc with ⟨_, rfl⟩ | ⟨_, hh, rfl⟩
    · exact pools_pf _ _ _
    · rw [pools_big (by change b.size - (z + 8) ≠ 0; omega)]
      exact pools_pf _ _ _
  · rw [used_append, used_used rfl (by exact hz0)]
    congr 2
    rcases hc with ⟨_, rfl⟩ | ⟨_, hh, rfl⟩
    · exact used_pf _ _ _
    · rw [used_free rfl]
      exact used_pf _ _ _

end Verif.Tlsf
