import Verif.Tlsf.HeapInv
/-!
# The steps on headers and on the order of the blocks
-/
namespace Verif.Tlsf
open Spec

variable {C : Cfg} {P : Nat → Prop} {m0 : Nat → Nat} {s : St} {pre post : List Blk} {b n p : Blk}

theorem H.mid (h : H C P m0 s (pre ++ b :: post)) : BOk C P s.mem b := h.blk b (by simp)

theorem H.out (h : H C P m0 s (pre ++ b :: post)) : ∀ x ∈ pre ++ post, x.addr + 16 + x.size ≤ b.addr + 8 ∨ b.addr + 16 + b.size ≤ x.addr + 8 := by
  intro x hx
  obtain ⟨h1, h2⟩ := sep_mid h.sep
  rcases List.mem_append.mp hx with hx | hx
  · exact h1 x hx
  · exact h2 x hx

theorem H.next (h : H C P m0 s (pre ++ b :: post)) (hb : b.size ≠ 0) :
    ∃ n post', post = n :: post' ∧ n.addr = b.addr + 8 + b.size ∧ n.lo = b.lo ∧ n.hi = b.hi :=
  tile_next (e' := none) h.tile hb

theorem ld_ok {a : Nat} (h1 : a % 8 = 0) (h2 : C.ok a = true) : ld C s a = .ok (s.mem a) := by
  unfold ld; rw [if_pos ⟨h1, h2⟩]

theorem sto_ok {a v : Nat} (h1 : a % 8 = 0) (h2 : C.ok a = true) : sto C s a v = .ok { s with mem := updM s.mem a v } := by
  unfold sto; rw [if_pos ⟨h1, h2⟩]

/-- The header of a block is read. -/
theorem ld_hdr (k : BOk C P s.mem b) : ld C s (b.addr + 8) = .ok b.hdr := by
  have := k.al
  rw [ld_ok (by omega) (k.ok _ (by omega) (by omega)), k.hdr]

/-- One block gets other flags; memory changes inside the block only. -/
theorem H_one (h : H C P m0 s (pre ++ b :: post)) {m' : Nat → Nat} (b' : Blk)
    (e1 : b'.addr = b.addr) (e2 : b'.size = b.size) (e3 : b'.lo = b.lo) (e4 : b'.hi = b.hi) (e5 : b'.listed = b.listed)
    (hch : ∀ a, (a < b.addr + 8 ∨ b.addr + 16 + b.size ≤ a) → m' a = s.mem a)
    (hP : ∀ a, P a → m' a = s.mem a)
    (hf : b.listed = true → m' (b.addr + 16) = s.mem (b.addr + 16) ∧ m' (b.addr + 24) = s.mem (b.addr + 24))
    (hh : m' (b.addr + 8) = b'.hdr)
    (hlnk : b'.linked = true → b.size ≠ 0 ∧ m' (b.addr + 8 + b.size) = b.addr)
    (hlst : b.listed = true → b'.free = true)
    (hfr : b'.free = true → b.size ≠ 0)
    (hq : b'.free = true → ∀ a, b.addr + 8 ≤ a → a < b.addr + 16 + b.size → ¬ P a) :
    H C P m0 { s with mem := m' } (pre ++ b' :: post) := by
  have k := h.mid
  have h' : H C P m0 s (pre ++ ([b] ++ post)) := h
  refine H_replace (mid' := [b']) (A := b.addr + 8) (Z := b.addr + 16 + b.size) h' h.out k.ctl ?_ hch hP ?_ (List.pairwise_singleton _ _) ?_ ?_ ?_ ?_
  · intro x hx; rw [List.mem_singleton.mp hx, e1, e2]; omega
  · intro x hx; rw [List.mem_singleton.mp hx]
    refine ⟨?_, ?_, ?_, ?_, ?_, ?_, ?_, ?_, ?_, ?_, ?_, ?_, ?_, ?_, ?_, ?_, ?_⟩
    all_goals (try rw [e1]) 
    all_goals (try rw [e2])
    all_goals (try rw [e3])
    all_goals (try rw [e4])
    · exact k.al
    · exact k.sal
    · exact k.min
    · exact k.pos
    · exact k.lo
    · exact k.hi0
    · exact k.hi
    · exact k.rng
    · exact k.top
    · exact k.ok
    · exact k.ctl
    · exact hh
    · exact hlnk
    · rw [e5]; exact hlst
    · exact hfr
    · exact k.qh
    · exact hq
  · intro e e' ht
    obtain ⟨t1, t2, t3⟩ := ht
    refine ⟨?_, ?_, ?_⟩
    · rw [e1, e3, e4]; exact t1
    · rw [e1, e3]; exact t2
    · unfold Blk.nxt at t3 ⊢
      rw [e1, e2, e3, e4]; exact t3
  · intro x hx hl
    rw [List.mem_singleton.mp hx] at hl ⊢
    exact ⟨b', by simp, e1, by rw [e5]; exact hl, e2⟩
  · intro x hx hl
    rw [List.mem_singleton.mp hx] at hl ⊢
    exact ⟨b, by simp, e1.symm, by rw [← e5]; exact hl, e2.symm⟩
  · intro x hx hl
    rw [List.mem_singleton.mp hx] at hl ⊢
    exact hf hl

/-- The same memory, but less is claimed about it. -/
theorem H_unlink (h : H C P m0 s (pre ++ b :: post)) : H C P m0 s (pre ++ { b with linked := false } :: post) := by
  have k := h.mid
  exact H_one h { b with linked := false } rfl rfl rfl rfl rfl (fun _ _ => rfl) (fun _ _ => rfl) (fun _ => ⟨rfl, rfl⟩) k.hdr
    (fun e => nomatch e) k.lst k.fr k.q

/-- The flags in the header of a block are changed. -/
theorem modW_flags (h : H C P m0 s (pre ++ b :: post)) {f : Nat → Nat} (fr pf : Bool)
    (hf : f b.hdr = Blk.hdr { b with free := fr, pfree := pf })
    (hlst : b.listed = true → fr = true)
    (hfr : fr = true → b.size ≠ 0)
    (hq : fr = true → ∀ a, b.addr + 8 ≤ a → a < b.addr + 16 + b.size → ¬ P a) :
    ∃ s', modW C s b.addr f = .ok s' ∧ H C P m0 s' (pre ++ { b with free := fr, pfree := pf } :: post) := by
  have k := h.mid
  have := k.al
  unfold modW
  rw [ld_hdr k, R.ok_bind, sto_ok (by omega) (k.ok _ (by omega) (by omega))]
  refine ⟨_, rfl, ?_⟩
  refine H_one h { b with free := fr, pfree := pf } rfl rfl rfl rfl rfl ?_ ?_ ?_ ?_ ?_ hlst hfr hq
  · intro a ha; exact updM_ne (by omega)
  · intro a ha; exact updM_ne (fun e => k.qh (e ▸ ha))
  · intro _; exact ⟨updM_ne (by omega), updM_ne (by omega)⟩
  · rw [updM_same, hf]
  · intro hl
    obtain ⟨l1, l2⟩ := k.lnk hl
    exact ⟨l1, (updM_ne (by omega)).trans l2⟩

theorem blockNext_ok (k : BOk C P s.mem b) (hb : b.size ≠ 0) : blockNext C s b.addr = .ok (b.addr + 8 + b.size) := by
  unfold blockNext
  rw [ld_hdr k, R.ok_bind, wSize_hdr k.sal, ccAssert_true (decide_eq_true hb), R.ok_bind]
  rfl

theorem linkNext_ok (h : H C P m0 s (pre ++ b :: post)) (hb : b.size ≠ 0) (hq : ¬ P (b.addr + 8 + b.size)) :
    ∃ s', linkNext C s b.addr = .ok (s', b.addr + 8 + b.size) ∧ H C P m0 s' (pre ++ { b with linked := true } :: post) := by
  have k := h.mid
  have := k.al
  have := k.sal
  have := k.min
  unfold linkNext
  rw [blockNext_ok k hb, R.ok_bind, sto_ok (by omega) (k.ok _ (by omega) (by omega)), R.ok_bind]
  refine ⟨_, rfl, ?_⟩
  refine H_one h { b with linked := true } rfl rfl rfl rfl rfl ?_ ?_ ?_ ?_ ?_ k.lst k.fr k.q
  · intro a ha; exact updM_ne (by omega)
  · intro a ha; exact updM_ne (fun e => hq (e ▸ ha))
  · intro _; exact ⟨updM_ne (by omega), updM_ne (by omega)⟩
  · rw [updM_ne (by omega)]; exact k.hdr
  · intro _
    exact ⟨hb, updM_same _ _ _⟩

theorem app_swap (pre : List Blk) (b n : Blk) (post : List Blk) : pre ++ b :: n :: post = (pre ++ [b]) ++ n :: post := by simp

/-- `block_mark_as_free`. -/
theorem markFree_ok (h : H C P m0 s (pre ++ b :: n :: post)) (hb : b.size ≠ 0)
    (hq : ∀ a, b.addr + 8 ≤ a → a < b.addr + 16 + b.size → ¬ P a) :
    ∃ s', markFree C s b.addr = .ok s' ∧
      H C P m0 s' (pre ++ { b with free := true, linked := true } :: { n with pfree := true } :: post) := by
  have hn : n.addr = b.addr + 8 + b.size := by
    obtain ⟨n', post', e, e1, _⟩ := h.next hb
    cases e; exact e1
  unfold markFree
  obtain ⟨s1, e1, h1⟩ := linkNext_ok h hb (hq _ (by omega) (by omega))
  rw [e1, R.ok_bind]
  dsimp only
  rw [app_swap] at h1
  obtain ⟨s2, e2, h2⟩ := modW_flags h1 (f := wSetPrevFree) n.free true (wSetPrevFree_hdr h1.mid.sal) h1.mid.lst h1.mid.fr h1.mid.q
  rw [← hn, e2, R.ok_bind]
  rw [← app_swap] at h2
  exact modW_flags h2 (f := wSetFree) true b.pfree (wSetFree_hdr h2.mid.sal) (fun _ => rfl) (fun _ => hb) (fun _ => hq)

/-- `block_mark_as_used`. -/
theorem markUsed_ok (h : H C P m0 s (pre ++ b :: n :: post)) (hb : b.size ≠ 0) (hl : b.listed = false) :
    ∃ s', markUsed C s b.addr = .ok s' ∧
      H C P m0 s' (pre ++ { b with free := false, linked := false } :: { n with pfree := false } :: post) := by
  have hn : n.addr = b.addr + 8 + b.size := by
    obtain ⟨n', post', e, e1, _⟩ := h.next hb
    cases e; exact e1
  unfold markUsed
  rw [blockNext_ok h.mid hb, R.ok_bind]
  rw [app_swap] at h
  obtain ⟨s2, e2, h2⟩ := modW_flags h (f := wSetPrevUsed) n.free false (wSetPrevUsed_hdr h.mid.sal) h.mid.lst h.mid.fr h.mid.q
  rw [← hn, e2, R.ok_bind]
  rw [← app_swap] at h2
  obtain ⟨s3, e3, h3⟩ := modW_flags h2 (f := wSetUsed) false b.pfree (wSetUsed_hdr h2.mid.sal) (fun e => by rw [hl] at e; cases e)
    (fun e => nomatch e) (fun e => nomatch e)
  exact ⟨s3, e3, H_unlink h3⟩

/-- `block_split`: the block has to be out of the free lists. -/
theorem split_ok (h : H C P m0 s (pre ++ b :: n :: post)) {z : Nat} (hz : z % 8 = 0) (hz1 : 24 ≤ z) (hz2 : 32 + z ≤ b.size)
    (hl : b.listed = false) (hq : ∀ a, b.addr + 16 + z ≤ a → a < b.addr + 16 + b.size → ¬ P a) :
    ∃ s' g, split C s b.addr z = .ok (s', b.addr + 8 + z) ∧
      H C P m0 s' (pre ++ { b with size := z, linked := false } ::
        ⟨b.addr + 8 + z, b.size - (z + 8), true, g, false, true, b.lo, b.hi⟩ :: { n with pfree := true } :: post) := by
  have k := h.mid
  have := k.al
  have := k.sal
  have := k.pos
  have := k.lo
  have := k.hi
  have hb0 : b.size ≠ 0 := by omega
  unfold split
  dsimp only
  rw [ld_hdr k, R.ok_bind, wSize_hdr k.sal, ccAssert_true (decide_eq_true (by omega)), R.ok_bind,
    ccAssert_true (decide_eq_true (by omega)), R.ok_bind]
  generalize hr : b.addr + 8 + z = r
  generalize hs : b.size - (z + 8) = rs
  -- the size of the second part is written
  have hok : ∀ a, b.addr + 8 ≤ a → a < b.addr + 16 + b.size → C.ok a = true := k.ok
  unfold modW
  rw [ld_ok (by omega) (hok _ (by omega) (by omega)), R.ok_bind, sto_ok (by omega) (hok _ (by omega) (by omega)), R.ok_bind]
  generalize hw : s.mem (r + 8) = w
  rw [ld_ok (by omega) (hok _ (by omega) (by omega)), R.ok_bind]
  dsimp only
  have hws : wSize (updM s.mem (r + 8) (wSetSize w rs) (r + 8)) ≥ 24 := by
    rw [updM_same]
    unfold wSize wSetSize; omega
  rw [ccAssert_true (decide_eq_true hws), R.ok_bind]
  rw [ld_ok (by omega) (hok _ (by omega) (by omega)), R.ok_bind, sto_ok (by omega) (hok _ (by omega) (by omega)), R.ok_bind]
  dsimp only
  rw [updM_ne (by omega), k.hdr, wSetSize_hdr k.sal]
  -- the two blocks
  have h' : H C P m0 s (pre ++ ([b] ++ n :: post)) := h
  have hb1 : BOk C P (updM (updM s.mem (r + 8) (wSetSize w rs)) (b.addr + 8) (Blk.hdr { b with size := z })) { b with size := z, linked := false } := by
    refine ⟨k.al, hz, Or.inr hz1, k.pos, k.lo, fun e => ?_, fun e => ?_, k.rng, k.top, ?_, ?_, ?_, (fun e => nomatch e), ?_, ?_, k.qh, ?_⟩
    · exfalso; change z = 0 at e; omega
    · change b.addr + 8 + z ≤ b.hi; omega
    · intro a ha1 ha2
      change b.addr + 8 ≤ a at ha1
      change a < b.addr + 16 + z at ha2
      exact k.ok a ha1 (by omega)
    · have := k.ctl
      change b.addr + 16 + z ≤ C.ctl ∨ C.ctl + 32 ≤ b.addr + 8
      omega
    · exact updM_same _ _ _
    · intro e; change b.listed = true at e; rw [hl] at e; cases e
    · intro _; change z ≠ 0; omega
    · intro e a ha1 ha2
      change b.addr + 8 ≤ a at ha1
      change a < b.addr + 16 + z at ha2
      exact k.q e a ha1 (by omega)
  have hb2 : BOk C P (updM (updM s.mem (r + 8) (wSetSize w rs)) (b.addr + 8) (Blk.hdr { b with size := z }))
      ⟨r, rs, wFree w, wPrevFree w, false, false, b.lo, b.hi⟩ := by
    refine ⟨?_, ?_, Or.inr ?_, ?_, ?_, fun e => ?_, fun e => ?_, k.rng, k.top, ?_, ?_, ?_, (fun e => nomatch e), (fun e => nomatch e), ?_, ?_, ?_⟩
    · change r % 8 = 0; omega
    · change rs % 8 = 0; omega
    · change 24 ≤ rs; omega
    · change 0 < r; omega
    · change b.lo ≤ r; omega
    · exfalso; change rs = 0 at e; omega
    · change r + 8 + rs ≤ b.hi; omega
    · intro a ha1 ha2
      change r + 8 ≤ a at ha1
      change a < r + 16 + rs at ha2
      exact k.ok a (by omega) (by omega)
    · have := k.ctl
      change r + 16 + rs ≤ C.ctl ∨ C.ctl + 32 ≤ r + 8
      omega
    · change updM _ _ _ (r + 8) = _
      rw [updM_ne (by omega), updM_same]
      exact wSetSize_any _ _ _ _ _
    · intro _; change rs ≠ 0; omega
    · change ¬ P (r + 8)
      exact hq _ (by omega) (by omega)
    · intro e a ha1 ha2
      change r + 8 ≤ a at ha1
      change a < r + 16 + rs at ha2
      exact hq a (by omega) (by omega)
  have h2 : H C P m0 { s with mem := updM (updM s.mem (r + 8) (wSetSize w rs)) (b.addr + 8) (Blk.hdr { b with size := z }) }
      (pre ++ ([{ b with size := z, linked := false }, ⟨r, rs, wFree w, wPrevFree w, false, false, b.lo, b.hi⟩] ++ n :: post)) := by
    refine H_replace (A := b.addr + 8) (Z := b.addr + 16 + b.size) h' h.out k.ctl ?_ ?_ ?_ ?_ ?_ ?_ ?_ ?_ ?_
    · intro x hx
      rcases List.mem_cons.mp hx with e | hx
      · rw [e]; change b.addr + 8 ≤ b.addr + 8 ∧ b.addr + 16 + z ≤ _; omega
      · rw [List.mem_singleton.mp hx]; change b.addr + 8 ≤ r + 8 ∧ r + 16 + rs ≤ _; omega
    · intro a ha
      rw [updM_ne (by omega), updM_ne (by omega)]
    · intro a ha
      have n1 : a ≠ b.addr + 8 := fun e => k.qh (e ▸ ha)
      have n2 : a ≠ r + 8 := fun e => hq (r + 8) (by omega) (by omega) (e ▸ ha)
      rw [updM_ne n1, updM_ne n2]
    · intro x hx
      rcases List.mem_cons.mp hx with e | hx
      · rw [e]; exact hb1
      · rw [List.mem_singleton.mp hx]; exact hb2
    · rw [List.pairwise_pair]
      unfold Sep
      change b.addr + 16 + z ≤ r + 8 ∨ _
      omega
    · intro e e' ht
      obtain ⟨t1, t2, t3⟩ := ht
      refine ⟨t1, t2, ?_, ?_, ?_⟩
      · intro v hv
        unfold Blk.nxt at hv
        rw [if_neg (show ¬ z = 0 by omega)] at hv
        injection hv with hv
        rw [← hv, ← hr]
      · intro hv
        unfold Blk.nxt at hv
        rw [if_neg (show ¬ z = 0 by omega)] at hv
        cases hv
      · unfold Blk.nxt at t3 ⊢
        rw [if_neg hb0] at t3
        rw [if_neg (show ¬ rs = 0 by omega)]
        change some (r + 8 + rs, b.lo, b.hi) = e'
        rw [show r + 8 + rs = b.addr + 8 + b.size by omega]
        exact t3
    · intro x hx hlx
      rw [List.mem_singleton.mp hx, hl] at hlx; cases hlx
    · intro x hx hlx
      rcases List.mem_cons.mp hx with e | hx
      · rw [e] at hlx; change b.listed = true at hlx; rw [hl] at hlx; cases hlx
      · rw [List.mem_singleton.mp hx] at hlx; cases hlx
    · intro x hx hlx
      rw [List.mem_singleton.mp hx, hl] at hlx; cases hlx
  have h3 : H C P m0 { s with mem := updM (updM s.mem (r + 8) (wSetSize w rs)) (b.addr + 8) (Blk.hdr { b with size := z }) }
      ((pre ++ [{ b with size := z, linked := false }]) ++ ⟨r, rs, wFree w, wPrevFree w, false, false, b.lo, b.hi⟩ :: n :: post) := by
    simpa using h2
  obtain ⟨s4, e4, h4⟩ := markFree_ok h3 (show rs ≠ 0 by omega) (by
    intro a ha1 ha2
    change r + 8 ≤ a at ha1
    change a < r + 16 + rs at ha2
    exact hq a (by omega) (by omega))
  change markFree C _ r = .ok s4 at e4
  rw [e4, R.ok_bind]
  refine ⟨s4, wPrevFree w, rfl, ?_⟩
  rw [app_swap]
  exact h4

/-- `block_absorb`: a free block is added to the block before it; both are out of the free lists. -/
theorem absorb_ok (h : H C P m0 s (pre ++ p :: b :: post)) (hp : p.size ≠ 0) (hb : b.size ≠ 0) (hlp : p.listed = false) (hlb : b.listed = false)
    (hfb : b.free = true) :
    ∃ s', absorb C s p.addr b.addr = .ok s' ∧ H C P m0 s' (pre ++ { p with size := p.size + b.size + 8, linked := true } :: post) := by
  have k := h.mid
  have h' : H C P m0 s ((pre ++ [p]) ++ b :: post) := by simpa using h
  have kb := h'.mid
  obtain ⟨n', post', e, hn1, hn2, hn3⟩ := h.next hp
  cases e
  have := k.al
  have := k.sal
  have := k.min
  have := k.hi hp
  have := kb.sal
  have := kb.min
  have := kb.hi hb
  unfold absorb
  rw [ld_hdr k, R.ok_bind, wSize_hdr k.sal, ccAssert_true (decide_eq_true hp), R.ok_bind, ld_hdr kb, R.ok_bind, wSize_hdr kb.sal,
    sto_ok (by omega) (k.ok _ (by omega) (by omega)), R.ok_bind]
  have hhdr : p.hdr + b.size + 8 = Blk.hdr { p with size := p.size + b.size + 8, linked := false } := by
    unfold Blk.hdr
    change p.size + p.free.toNat + 2 * p.pfree.toNat + b.size + 8 = p.size + b.size + 8 + p.free.toNat + 2 * p.pfree.toNat
    omega
  rw [hhdr]
  have h0 : H C P m0 s (pre ++ ([p, b] ++ post)) := h
  have hout1 := h.out
  have hout2 := h'.out
  have hqq : ∀ a, b.addr + 8 ≤ a → a < b.addr + 16 + b.size → ¬ P a := kb.q hfb
  have hnew : BOk C P (updM s.mem (p.addr + 8) (Blk.hdr { p with size := p.size + b.size + 8, linked := false }))
      { p with size := p.size + b.size + 8, linked := false } := by
    refine ⟨k.al, ?_, Or.inr ?_, k.pos, k.lo, fun e => ?_, fun e => ?_, k.rng, k.top, ?_, ?_, ?_, (fun e => nomatch e), ?_, ?_, k.qh, ?_⟩
    · change (p.size + b.size + 8) % 8 = 0; omega
    · change 24 ≤ p.size + b.size + 8; omega
    · exfalso; change p.size + b.size + 8 = 0 at e; omega
    · change p.addr + 8 + (p.size + b.size + 8) ≤ p.hi; omega
    · intro a ha1 ha2
      change p.addr + 8 ≤ a at ha1
      change a < p.addr + 16 + (p.size + b.size + 8) at ha2
      rcases Nat.lt_or_ge a (p.addr + 16 + p.size) with hlt | hge
      · exact k.ok a ha1 hlt
      · exact kb.ok a (by omega) (by omega)
    · have := k.ctl
      have := kb.ctl
      change p.addr + 16 + (p.size + b.size + 8) ≤ C.ctl ∨ C.ctl + 32 ≤ p.addr + 8
      omega
    · exact updM_same _ _ _
    · intro e; change p.listed = true at e; rw [hlp] at e; cases e
    · intro _; change p.size + b.size + 8 ≠ 0; omega
    · intro e a ha1 ha2
      change p.addr + 8 ≤ a at ha1
      change a < p.addr + 16 + (p.size + b.size + 8) at ha2
      rcases Nat.lt_or_ge a (p.addr + 16 + p.size) with hlt | hge
      · exact k.q e a ha1 hlt
      · exact hqq a (by omega) (by omega)
  have h2 : H C P m0 { s with mem := updM s.mem (p.addr + 8) (Blk.hdr { p with size := p.size + b.size + 8, linked := false }) }
      (pre ++ ([{ p with size := p.size + b.size + 8, linked := false }] ++ post)) := by
    refine H_replace (A := p.addr + 8) (Z := p.addr + 16 + (p.size + b.size + 8)) h0 ?_ hnew.ctl ?_ ?_ ?_ ?_ (List.pairwise_singleton _ _) ?_ ?_ ?_ ?_
    · intro x hx
      have a1 := hout1 x (by
        rcases List.mem_append.mp hx with hx | hx <;> simp [hx])
      have a2 := hout2 x (by
        rcases List.mem_append.mp hx with hx | hx <;> simp [hx])
      omega
    · intro x hx
      rw [List.mem_singleton.mp hx]
      exact ⟨Nat.le_refl _, Nat.le_refl _⟩
    · intro a ha
      rw [updM_ne (by omega)]
    · intro a ha
      exact updM_ne (fun e => k.qh (e ▸ ha))
    · intro x hx
      rw [List.mem_singleton.mp hx]; exact hnew
    · intro e e' ht
      obtain ⟨t1, t2, t3, t4, t5⟩ := ht
      refine ⟨t1, t2, ?_⟩
      unfold Blk.nxt at t5 ⊢
      rw [if_neg hb] at t5
      rw [if_neg (show ¬ p.size + b.size + 8 = 0 by omega)]
      change some (p.addr + 8 + (p.size + b.size + 8), p.lo, p.hi) = e'
      rw [show p.addr + 8 + (p.size + b.size + 8) = b.addr + 8 + b.size by omega, ← hn2, ← hn3]
      exact t5
    · intro x hx hlx
      rcases List.mem_cons.mp hx with e | hx
      · rw [e, hlp] at hlx; cases hlx
      · rw [List.mem_singleton.mp hx, hlb] at hlx; cases hlx
    · intro x hx hlx
      rw [List.mem_singleton.mp hx] at hlx; change p.listed = true at hlx; rw [hlp] at hlx; cases hlx
    · intro x hx hlx
      rcases List.mem_cons.mp hx with e | hx
      · rw [e, hlp] at hlx; cases hlx
      · rw [List.mem_singleton.mp hx, hlb] at hlx; cases hlx
  obtain ⟨s3, e3, h3⟩ := linkNext_ok (b := { p with size := p.size + b.size + 8, linked := false }) h2 (by
    change p.size + b.size + 8 ≠ 0; omega) (by
    change ¬ P (p.addr + 8 + (p.size + b.size + 8))
    exact hqq _ (by omega) (by omega))
  change linkNext C _ p.addr = _ at e3
  rw [e3, R.ok_bind]
  exact ⟨s3, rfl, h3⟩

end Verif.Tlsf
