import Verif.Tlsf.HeapFree
import Verif.Tlsf.HeapSpec
/-!
# User memory, and `tlsf_realloc`
-/
namespace Verif.Tlsf
open Spec

variable {C : Cfg} {P : Nat → Prop} {m0 : Nat → Nat} {s : St} {pre post L : List Blk} {b n p : Blk}

/-- The address belongs to the payload of a block in use. -/
def InUsed (L : List Blk) (a : Nat) : Prop := ∃ x ∈ L, x.free = false ∧ x.addr + 16 ≤ a ∧ a < x.addr + 16 + x.size

/-- The words to be kept can be chosen anew. -/
theorem H_rebase (h : H C P m0 s L) {P' : Nat → Prop} (hP : ∀ a, P' a → P a ∨ InUsed L a) : H C P' s.mem s L := by
  have hnot : ∀ y ∈ L, ∀ a, y.addr + 8 ≤ a → a < y.addr + 16 + y.size → (a < y.addr + 16 ∨ y.free = true) → ¬ InUsed L a := by
    rintro y hy a a1 a2 hc ⟨x, hx, xf, x1, x2⟩
    by_cases e : x.addr = y.addr
    · have := blk_unique h.sep hx hy e
      subst this
      rcases hc with hc | hc
      · omega
      · rw [xf] at hc; cases hc
    · have := blk_sep h.sep hx hy e
      unfold Sep at this
      omega
  have hctl : ∀ a, C.ctl ≤ a → a < C.ctl + 32 → ¬ InUsed L a := by
    rintro a a1 a2 ⟨x, hx, xf, x1, x2⟩
    have := (h.blk x hx).ctl
    omega
  refine ⟨h.cpos, h.cal, h.cok, ⟨?_, ?_⟩, ?_, h.sep, h.tile, fun _ _ => rfl, h.lists⟩
  · intro hh
    rcases hP _ hh with a | a
    · exact h.cq.1 a
    · exact hctl _ (by omega) (by omega) a
  · intro hh
    rcases hP _ hh with a | a
    · exact h.cq.2 a
    · exact hctl _ (by omega) (by omega) a
  · intro x hx
    have k := h.blk x hx
    refine ⟨k.al, k.sal, k.min, k.pos, k.lo, k.hi0, k.hi, k.rng, k.top, k.ok, k.ctl, k.hdr, k.lnk, k.lst, k.fr, ?_, ?_⟩
    · intro hh
      rcases hP _ hh with a | a
      · exact k.qh a
      · exact hnot x hx _ (by omega) (by omega) (Or.inl (by omega)) a
    · intro hf a a1 a2 hh
      rcases hP _ hh with a' | a'
      · exact k.q hf a a1 a2 a'
      · exact hnot x hx _ a1 a2 (Or.inr hf) a'

/-- Fewer words are kept. -/
theorem H_shrink (h : H C P m0 s L) {P' : Nat → Prop} {m1 : Nat → Nat} (hP : ∀ a, P' a → P a) (hm : ∀ a, P' a → m0 a = m1 a) : H C P' m1 s L := by
  refine ⟨h.cpos, h.cal, h.cok, ⟨fun a => h.cq.1 (hP _ a), fun a => h.cq.2 (hP _ a)⟩, ?_, h.sep, h.tile,
    fun a ha => (h.keep a (hP a ha)).trans (hm a ha), h.lists⟩
  intro x hx
  have k := h.blk x hx
  exact ⟨k.al, k.sal, k.min, k.pos, k.lo, k.hi0, k.hi, k.rng, k.top, k.ok, k.ctl, k.hdr, k.lnk, k.lst, k.fr, fun a => k.qh (hP _ a),
    fun hf a a1 a2 a3 => k.q hf a a1 a2 (hP _ a3)⟩

/-- The user writes to a block in use. -/
theorem H_write (h : H C P m0 s (pre ++ b :: post)) (hf : b.free = false) {m' : Nat → Nat}
    (hch : ∀ a, (a < b.addr + 16 ∨ b.addr + 16 + b.size ≤ a) → m' a = s.mem a) (hP : ∀ a, P a → m' a = s.mem a) :
    H C P m0 { s with mem := m' } (pre ++ { b with linked := false } :: post) := by
  have k := h.mid
  have hl : b.listed = false := by
    cases e : b.listed with
    | false => rfl
    | true => have := k.lst e; rw [hf] at this; cases this
  refine H_one h { b with linked := false } rfl rfl rfl rfl rfl (fun a ha => hch a (by omega)) hP (fun e => ?_) ?_ (fun e => nomatch e) k.lst k.fr k.q
  · rw [hl] at e; cases e
  · rw [hch _ (by omega)]; exact k.hdr

theorem good_unlink {e : Bool} (g : Good e (pre ++ b :: post)) (hf : b.free = false) : Good e (pre ++ { b with linked := false } :: post) := by
  obtain ⟨g1, g2, g3, g4, g5, g6⟩ := good_append.mp g
  refine good_append.mpr ⟨g1, g2, g3, g4, ?_, g6⟩
  intro e
  change b.free = true at e
  rw [hf] at e
  cases e

/-! ### `memcpy` -/

theorem copyWords_ok {n d p : Nat} (hd : d % 8 = 0) (hp : p % 8 = 0) (hokd : ∀ a, d ≤ a → a < d + 8 * n → C.ok a = true)
    (hokp : ∀ a, p ≤ a → a < p + 8 * n → C.ok a = true) (hdis : p + 8 * n ≤ d ∨ d + 8 * n ≤ p) :
    ∃ m', copyWords C s d p n = .ok { s with mem := m' } ∧ (∀ k, k < n → m' (d + 8 * k) = s.mem (p + 8 * k)) ∧
      (∀ a, (a < d ∨ d + 8 * n ≤ a) → m' a = s.mem a) := by
  induction n generalizing s d p with
  | zero => exact ⟨s.mem, rfl, fun k hk => by omega, fun _ _ => rfl⟩
  | succ n ih =>
    unfold copyWords
    rw [ld_ok hp (hokp _ (by omega) (by omega)), R.ok_bind, sto_ok hd (hokd _ (by omega) (by omega)), R.ok_bind]
    obtain ⟨m', e, h1, h2⟩ := @ih { s with mem := updM s.mem d (s.mem p) } (d + 8) (p + 8) (by omega) (by omega)
      (fun a a1 a2 => hokd a (by omega) (by omega)) (fun a a1 a2 => hokp a (by omega) (by omega)) (by omega)
    refine ⟨m', e, ?_, ?_⟩
    · intro k hk
      cases k with
      | zero =>
        rw [h2 _ (by omega)]
        exact updM_same _ _ _
      | succ k =>
        have := h1 k (by omega)
        rw [show d + 8 * (k + 1) = d + 8 + 8 * k by omega, this]
        dsimp only
        rw [updM_ne (by omega)]
        congr 1
        omega
    · intro a ha
      rw [h2 a (by omega)]
      exact updM_ne (by omega)

theorem byte_of_mod {x y r k : Nat} (hk : k < r) (h : x % 256 ^ r = y % 256 ^ r) : x / 256 ^ k % 256 = y / 256 ^ k % 256 := by
  have hd : 256 ^ k * 256 ∣ 256 ^ r := by
    rw [← Nat.pow_succ]; exact Nat.pow_dvd_pow 256 hk
  rw [← Nat.mod_mul_right_div_self x, ← Nat.mod_mul_right_div_self y, ← Nat.mod_mod_of_dvd x hd, ← Nat.mod_mod_of_dvd y hd, h]

theorem memcpy_ok {n d p : Nat} (hd : d % 8 = 0) (hp : p % 8 = 0) (hokd : ∀ a, d ≤ a → a < d + (n + 7) / 8 * 8 → C.ok a = true)
    (hokp : ∀ a, p ≤ a → a < p + (n + 7) / 8 * 8 → C.ok a = true) (hdis : p + (n + 7) / 8 * 8 ≤ d ∨ d + (n + 7) / 8 * 8 ≤ p) :
    ∃ m', memcpy C s d p n = .ok { s with mem := m' } ∧ (∀ i, i < n → byteAt m' (d + i) = byteAt s.mem (p + i)) ∧
      (∀ a, (a < d ∨ d + (n + 7) / 8 * 8 ≤ a) → m' a = s.mem a) := by
  unfold memcpy
  obtain ⟨m1, e1, h1, h2⟩ := copyWords_ok (C := C) (s := s) (n := n / 8) hd hp (fun a a1 a2 => hokd a a1 (by omega))
    (fun a a1 a2 => hokp a a1 (by omega)) (by omega)
  rw [e1, R.ok_bind]
  have hword : ∀ i, i < n / 8 * 8 → byteAt m1 (d + i) = byteAt s.mem (p + i) := by
    intro i hi
    unfold byteAt
    rw [show (d + i) / 8 * 8 = d + 8 * (i / 8) by omega, show (p + i) / 8 * 8 = p + 8 * (i / 8) by omega, h1 _ (by omega),
      show (d + i) % 8 = (p + i) % 8 by omega]
  by_cases hr : n % 8 = 0
  · rw [if_neg (by omega)]
    exact ⟨m1, rfl, fun i hi => hword i (by omega), fun a ha => h2 a (by omega)⟩
  · rw [if_pos hr, ld_ok (by omega) (hokp _ (by omega) (by omega)), R.ok_bind, ld_ok (by omega) (hokd _ (by omega) (by omega)), R.ok_bind,
      sto_ok (by omega) (hokd _ (by omega) (by omega))]
    dsimp only
    refine ⟨_, rfl, ?_, ?_⟩
    · intro i hi
      by_cases hi8 : i < n / 8 * 8
      · rw [← hword i hi8]
        unfold byteAt
        rw [updM_ne (by omega)]
      · unfold byteAt
        rw [show (d + i) / 8 * 8 = d + n / 8 * 8 by omega, show (p + i) / 8 * 8 = p + n / 8 * 8 by omega, updM_same,
          h2 (p + n / 8 * 8) (by omega), show (d + i) % 8 = (p + i) % 8 by omega]
        refine byte_of_mod (r := n % 8) (by omega) ?_
        rw [Nat.add_mul_mod_self_right, Nat.mod_mod]
    · intro a ha
      rw [updM_ne (by omega)]
      exact h2 a (by omega)

/-! ### The blocks in use are apart -/

/-- Two blocks in use have no byte in common. -/
def USep (u v : Nat × Nat) : Prop := u.1 + 16 + u.2 ≤ v.1 + 8 ∨ v.1 + 16 + v.2 ≤ u.1 + 8

theorem used_mem {u : Nat × Nat} : u ∈ used L ↔ ∃ x ∈ L, x.free = false ∧ x.size ≠ 0 ∧ u = (x.addr, x.size) := by
  unfold used
  rw [List.mem_map]
  constructor
  · rintro ⟨x, hx, rfl⟩
    rw [List.mem_filter] at hx
    simp only [Bool.and_eq_true, Bool.not_eq_true', decide_eq_true_eq] at hx
    exact ⟨x, hx.1, hx.2.1, hx.2.2, rfl⟩
  · rintro ⟨x, hx, hf, h0, rfl⟩
    refine ⟨x, ?_, rfl⟩
    rw [List.mem_filter]
    simp [hx, hf, h0]

theorem used_sep (h : L.Pairwise Sep) : (used L).Pairwise USep := by
  unfold used
  rw [List.pairwise_map]
  exact (h.filter _).imp fun h => h

theorem find_used {u : Nat × Nat} (h : u ∈ used L) : ∃ pre b post, L = pre ++ b :: post ∧ b.free = false ∧ b.size ≠ 0 ∧ u = (b.addr, b.size) := by
  obtain ⟨x, hx, hf, h0, e⟩ := used_mem.mp h
  obtain ⟨l1, l2, el⟩ := List.append_of_mem hx
  exact ⟨l1, x, l2, el, hf, h0, e⟩

/-! ### `tlsf_realloc` -/

/-- `tlsf_realloc` with a block in use and an accepted size. -/
theorem realloc_ok (h : H C P m0 s (pre ++ b :: post)) (g : Good false (pre ++ b :: post)) (hf : b.free = false) (hb : b.size ≠ 0)
    (hq : ∀ a, b.addr + 8 ≤ a → a < b.addr + 16 + b.size → ¬ P a) {size : BitVec 64} (h0 : 0 < size.toNat) (hsz : size.toNat ≤ 2 ^ 32 - 8) :
    realloc C s (b.addr + 16) size = .ok (s, 0) ∨
    (∃ s' L' a z, realloc C s (b.addr + 16) size = .ok (s', a + 16) ∧ size.toNat ≤ z ∧ a % 8 = 0 ∧ H C P m0 s' L' ∧ Good false L' ∧
      pools L' = pools (pre ++ b :: post) ∧ (used L').Perm ((a, z) :: (used pre ++ used post)) ∧
      ∀ i, i < min b.size size.toNat → byteAt s'.mem (a + 16 + i) = byteAt s.mem (b.addr + 16 + i)) := by
  obtain ⟨n, post', rfl, hn1, _, _⟩ := h.next hb
  have h' : H C P m0 s ((pre ++ [b]) ++ n :: post') := by rw [← app_swap]; exact h
  have k := h.mid
  have kn := h'.mid
  have hal := k.al
  have hsal := k.sal
  obtain ⟨r, er, hr⟩ := adjust_ok size
  have hr0 := hr.some h0 hsz
  have hrs := hr.fit (by omega) hr0
  have hrm := hr.min
  have hr8 := hr.al
  have hne : size ≠ 0#64 := by
    intro e
    rw [e] at h0
    exact absurd h0 (by decide)
  have w2 : (!wFree b.hdr) = true := by rw [wFree_hdr k.sal, hf]; rfl
  have wn : wFree n.hdr = n.free := wFree_hdr kn.sal
  unfold realloc
  rw [if_neg (fun e => hne e.2), if_neg (by omega)]
  dsimp only
  rw [Nat.add_sub_cancel, blockNext_ok k hb, R.ok_bind, ld_hdr k, R.ok_bind, ← hn1, ld_hdr kn, R.ok_bind, wSize_hdr k.sal, wSize_hdr kn.sal, er,
    R.ok_bind, ccAssert_true w2, R.ok_bind, wn]
  -- the words of the block that have to survive
  let P' : Nat → Prop := fun a => P a ∨ (b.addr + 16 ≤ a ∧ a < b.addr + 16 + b.size ∧ a < b.addr + 16 + r.toNat)
  have hP' : H C P' s.mem s (pre ++ b :: n :: post') := by
    refine H_rebase h ?_
    rintro a (ha | ⟨a1, a2, _⟩)
    · exact Or.inl ha
    · exact Or.inr ⟨b, by simp, hf, a1, a2⟩
  by_cases hc : r.toNat > b.size ∧ (n.free = false ∨ r.toNat > b.size + n.size + 8)
  · rw [if_pos hc]
    obtain ⟨r', hr', hm⟩ := malloc_ok hP' g size
    rcases hm with ⟨e1, _⟩ | ⟨s1, L1, a, z, e1, c1, c2, c3, h1, g1, p1, u1, q1⟩
    · left
      rw [e1, R.ok_bind]
      rfl
    · right
      rw [e1, R.ok_bind]
      dsimp only
      rw [if_pos (show a + 16 ≠ 0 by omega)]
      have hz : size.toNat ≤ z := Nat.le_trans (hr'.fit (by omega) c1) c2
      -- the new block and the old one
      have hub : (b.addr, b.size) ∈ used (pre ++ b :: n :: post') := used_mem.mpr ⟨b, by simp, hf, hb, rfl⟩
      obtain ⟨lp, nb, lq, rfl, nf, n0, ne⟩ := find_used (u1.mem_iff.mpr List.mem_cons_self)
      obtain ⟨rfl, rfl⟩ := Prod.mk.inj ne
      have husep : ∀ u ∈ used (pre ++ b :: n :: post'), USep (nb.addr, nb.size) u := by
        have hs := used_sep h1.sep
        have hs' := (u1.pairwise_iff (R := USep) (fun h => Or.symm h)).mp hs
        exact (List.pairwise_cons.mp hs').1
      have hbn := husep _ hub
      unfold USep at hbn
      dsimp only at hbn
      obtain ⟨bo, hbo, bf, b0, be⟩ := used_mem.mp (u1.mem_iff.mpr (List.mem_cons_of_mem _ hub))
      obtain ⟨be1, be2⟩ := Prod.mk.inj be
      have knb := h1.mid
      have kbo := h1.blk bo hbo
      have hnsal := knb.sal
      have hnal := knb.al
      have hokn : ∀ x, nb.addr + 16 ≤ x → x < nb.addr + 16 + (min b.size size.toNat + 7) / 8 * 8 → C.ok x = true :=
        fun x x1 x2 => knb.ok x (by omega) (by omega)
      have hokb : ∀ x, b.addr + 16 ≤ x → x < b.addr + 16 + (min b.size size.toNat + 7) / 8 * 8 → C.ok x = true :=
        fun x x1 x2 => k.ok x (by omega) (by omega)
      obtain ⟨m2, e2, d1, d2⟩ := memcpy_ok (C := C) (s := s1) (n := min b.size size.toNat) (d := nb.addr + 16) (p := b.addr + 16) (by omega) (by omega)
        hokn hokb (by omega)
      rw [e2, R.ok_bind]
      have h2 : H C P' s.mem { s1 with mem := m2 } (lp ++ { nb with linked := false } :: lq) := by
        refine H_write h1 nf (fun x hx => d2 x (by omega)) (fun x hx => ?_)
        refine d2 x ?_
        rcases Nat.lt_or_ge x (nb.addr + 16) with a1 | a1
        · exact Or.inl a1
        · rcases Nat.lt_or_ge x (nb.addr + 16 + nb.size) with a2 | a2
          · exact absurd hx (q1 x (by omega) a2)
          · exact Or.inr (by omega)
      have g2 := good_unlink g1 nf
      have u2 : used (lp ++ { nb with linked := false } :: lq) = used (lp ++ nb :: lq) := by
        rw [used_append, used_append]; congr 1
        exact used_same (b := nb) (b' := { nb with linked := false }) rfl rfl rfl _
      have p2 : pools (lp ++ { nb with linked := false } :: lq) = pools (lp ++ nb :: lq) := by
        rw [pools_append, pools_append]; congr 1
        exact pools_same (b := nb) (b' := { nb with linked := false }) rfl rfl rfl _
      -- the old block is freed; the new one has to survive
      let P3 : Nat → Prop := fun x => P x ∨ (nb.addr + 16 ≤ x ∧ x < nb.addr + 16 + nb.size)
      have h2P : H C P m0 { s1 with mem := m2 } (lp ++ { nb with linked := false } :: lq) :=
        H_shrink h2 (fun a ha => Or.inl ha) (fun a ha => h.keep a ha)
      have h3 : H C P3 m2 { s1 with mem := m2 } (lp ++ { nb with linked := false } :: lq) := by
        refine H_rebase h2P ?_
        rintro x (hx | ⟨x1, x2⟩)
        · exact Or.inl hx
        · exact Or.inr ⟨{ nb with linked := false }, by simp, nf, x1, x2⟩
      have hub2 : (b.addr, b.size) ∈ used (lp ++ { nb with linked := false } :: lq) := by
        rw [u2]; exact u1.mem_iff.mpr (List.mem_cons_of_mem _ hub)
      obtain ⟨fp, ob, fq, eL, of, o0, oe⟩ := find_used hub2
      obtain ⟨oe1, oe2⟩ := Prod.mk.inj oe
      rw [eL] at h3 g2 u2 p2
      obtain ⟨s4, L4, e4, h4, g4, u4, p4⟩ := free_ok h3 g2 of o0 (by
        rintro x x1 x2 (hx | ⟨x3, x4⟩)
        · rw [← oe1] at x1 x2
          rw [← oe2] at x2
          exact hq x x1 x2 hx
        · rw [← oe1] at x1 x2
          rw [← oe2] at x2
          omega)
      rw [← oe1] at e4
      rw [e4, R.ok_bind]
      refine ⟨s4, L4, nb.addr, nb.size, rfl, hz, c3, ?_, g4, ?_, ?_, ?_⟩
      · refine H_shrink h4 (fun a ha => Or.inl ha) (fun a ha => h2P.keep a ha)
      · rw [p4, p2, p1]
      · rw [u4]
        have e5 : used (fp ++ ob :: fq) = used fp ++ (b.addr, b.size) :: used fq := by
          rw [used_append, used_used of o0, oe1, oe2]
        have e6 : used (pre ++ b :: n :: post') = used pre ++ (b.addr, b.size) :: used (n :: post') := by
          rw [used_append, used_used hf hb]
        rw [← u2, e5, e6] at u1
        have u3 := (List.perm_middle.symm.trans u1).trans (List.Perm.cons _ List.perm_middle)
        exact ((u3.trans (List.Perm.swap _ _ _)).cons_inv)
      · intro i hi
        have hkeep : ∀ x, nb.addr + 16 ≤ x → x < nb.addr + 16 + nb.size → s4.mem x = m2 x := fun x x1 x2 => h4.keep x (Or.inr ⟨x1, x2⟩)
        have hk1 : ∀ x, b.addr + 16 ≤ x → x < b.addr + 16 + b.size → s1.mem x = s.mem x := fun x x1 x2 => h1.keep x (Or.inr ⟨x1, x2, by omega⟩)
        have e5 : byteAt s4.mem (nb.addr + 16 + i) = byteAt m2 (nb.addr + 16 + i) := by
          unfold byteAt
          rw [hkeep _ (by omega) (by omega)]
        have e6 : byteAt s1.mem (b.addr + 16 + i) = byteAt s.mem (b.addr + 16 + i) := by
          unfold byteAt
          rw [hk1 _ (by omega) (by omega)]
        rw [e5, d1 i hi, e6]
  · rw [if_neg hc]
    right
    have hc' : r.toNat ≤ b.size ∨ (n.free = true ∧ r.toNat ≤ b.size + n.size + 8) := by
      rcases Nat.lt_or_ge b.size r.toNat with a | a
      · right
        rcases Bool.eq_false_or_eq_true n.free with e | e
        · refine ⟨e, ?_⟩
          rcases Nat.lt_or_ge (b.size + n.size + 8) r.toNat with a' | a'
          · exact absurd ⟨a, Or.inr a'⟩ hc
          · exact a'
        · exact absurd ⟨a, Or.inl e⟩ hc
      · exact Or.inl a
    obtain ⟨s1, L1, z, e1, a1, h1, g1, u1, p1⟩ := inPlace_ok hP' g hf hb hr8 (by omega) hc' (by
      rintro x x1 x2 (hx | ⟨x3, x4, x5⟩)
      · exact hq x (by omega) x2 hx
      · omega)
    unfold inPlace at e1
    obtain ⟨s2, e2, e3⟩ := R.bind_eq_ok.mp e1
    rw [e2, R.ok_bind, e3, R.ok_bind]
    refine ⟨s1, L1, b.addr, z, rfl, by omega, hal, ?_, g1, p1, ?_, ?_⟩
    · exact H_shrink h1 (fun a ha => Or.inl ha) (fun a ha => h.keep a ha)
    · rw [u1]; exact List.perm_middle
    · intro i hi
      unfold byteAt
      rw [h1.keep _ (Or.inr ⟨by omega, by omega, by omega⟩)]

end Verif.Tlsf
