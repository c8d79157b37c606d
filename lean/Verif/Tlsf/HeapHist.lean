import Verif.Tlsf.HeapParts
import Verif.Tlsf.HeapRun
import Verif.Alloc.Owned
/-!
# The invariant along a history
-/
namespace Verif.Tlsf
open Spec Verif.Bits

variable {C : Cfg} {L : List Blk} {w : World} {G : List (Nat × Nat × Live)}

/-- A block handed out: its address, its size and the record. -/
structure GOk (m : Nat → Nat) (g : Nat × Nat × Live) : Prop where
  ptr : g.2.2.ptr = g.1 + 16
  fit : g.2.2.size ≤ g.2.1
  al8 : g.1 % 8 = 0
  al : g.2.2.ptr % g.2.2.align = 0
  data : ∀ i x, g.2.2.data i = some x → i < g.2.2.size ∧ byteAt m (g.2.2.ptr + i) = x

/-- The words of the blocks handed out. -/
def Kept (G : List (Nat × Nat × Live)) (a : Nat) : Prop := ∃ g ∈ G, g.1 + 16 ≤ a ∧ a < g.1 + 16 + g.2.1

theorem GOk.keep {m m' : Nat → Nat} {g : Nat × Nat × Live} (k : GOk m g) (h : ∀ a, g.1 + 16 ≤ a → a < g.1 + 16 + g.2.1 → m' a = m a) : GOk m' g := by
  refine ⟨k.ptr, k.fit, k.al8, k.al, ?_⟩
  intro i x e
  obtain ⟨h1, h2⟩ := k.data i x e
  refine ⟨h1, ?_⟩
  rw [← h2]
  have := k.ptr
  have := k.fit
  have := k.al8
  unfold byteAt
  rw [h _ (by omega) (by omega)]

structure WI (C : Cfg) (w : World) (L : List Blk) (G : List (Nat × Nat × Live)) : Prop where
  h : H C (fun _ => False) w.st.mem w.st L
  g : Good false L
  ps : pools L = w.pools.map fun p => (firstBlock p, lastBlock p)
  psz : ∀ p ∈ w.pools, 8 < p.1 ∧ 40 ≤ p.2
  gl : G.map (fun g => g.2.2) = w.live
  us : (used L).Perm (G.map fun g => (g.1, g.2.1))
  ok : ∀ g ∈ G, GOk w.st.mem g

theorem WI.inUsed (i : WI C w L G) {g : Nat × Nat × Live} (hg : g ∈ G) {a : Nat} (h1 : g.1 + 16 ≤ a) (h2 : a < g.1 + 16 + g.2.1) : InUsed L a := by
  have : (g.1, g.2.1) ∈ used L := i.us.mem_iff.mpr (List.mem_map.mpr ⟨g, hg, rfl⟩)
  obtain ⟨x, hx, hf, h0, e⟩ := used_mem.mp this
  obtain ⟨e1, e2⟩ := Prod.mk.inj e
  exact ⟨x, hx, hf, by omega, by omega⟩

theorem WI.rebase (i : WI C w L G) {G' : List (Nat × Nat × Live)} (hG : ∀ g ∈ G', g ∈ G) : H C (Kept G') w.st.mem w.st L := by
  refine H_rebase i.h ?_
  rintro a ⟨g, hg, h1, h2⟩
  exact Or.inr (i.inUsed (hG g hg) h1 h2)

theorem Hdrop {P : Nat → Prop} {m0 m1 : Nat → Nat} {s : St} (h : H C P m0 s L) : H C (fun _ => False) m1 s L :=
  H_shrink h (fun _ a => a.elim) (fun _ a => a.elim)

theorem gok_all {m0 : Nat → Nat} {s : St} {G' : List (Nat × Nat × Live)} (h : H C (Kept G') m0 s L) (hok : ∀ g ∈ G', GOk m0 g) :
    ∀ g ∈ G', GOk s.mem g :=
  fun g hg => (hok g hg).keep fun a h1 h2 => h.keep a ⟨g, hg, h1, h2⟩

theorem map_erase {α β : Type} (f : α → β) : ∀ (l : List α) (k : Nat), (l.eraseIdx k).map f = (l.map f).eraseIdx k
  | [], _ => rfl
  | _ :: _, 0 => rfl
  | a :: l, k + 1 => congrArg (f a :: ·) (map_erase f l k)

/-- A block named by the user. -/
theorem WI.pick (i : WI C w L G) {k : Nat} {v : Live} (hk : w.live[k]? = some v) :
    ∃ pre b post, L = pre ++ b :: post ∧ b.free = false ∧ b.size ≠ 0 ∧ GOk w.st.mem (b.addr, b.size, v) ∧
      (G.eraseIdx k).map (fun g => g.2.2) = w.live.eraseIdx k ∧ (used pre ++ used post).Perm ((G.eraseIdx k).map fun g => (g.1, g.2.1)) ∧
      (∀ a, b.addr + 8 ≤ a → a < b.addr + 16 + b.size → ¬ Kept (G.eraseIdx k) a) ∧ (∀ g ∈ G.eraseIdx k, g ∈ G) := by
  have hlen : k < G.length := by
    have := (List.getElem?_eq_some_iff.mp hk).1
    rw [← i.gl, List.length_map] at this
    exact this
  have hv : G[k].2.2 = v := by
    rw [← i.gl, List.getElem?_map, List.getElem?_eq_getElem hlen] at hk
    exact Option.some.inj hk
  have hp := Verif.Alloc.perm_eraseIdx hlen
  have hmem : G[k] ∈ G := List.getElem_mem hlen
  have hu : (G[k].1, G[k].2.1) ∈ used L := i.us.mem_iff.mpr (List.mem_map.mpr ⟨_, hmem, rfl⟩)
  obtain ⟨pre, b, post, rfl, hf, h0, e⟩ := find_used hu
  obtain ⟨e1, e2⟩ := Prod.mk.inj e
  have hgk : G[k] = (b.addr, b.size, v) := by rw [← e1, ← e2, ← hv]
  have hus : (used (pre ++ b :: post)).Perm ((b.addr, b.size) :: (G.eraseIdx k).map fun g => (g.1, g.2.1)) := by
    refine i.us.trans ?_
    have := (hp.map fun g => (g.1, g.2.1)).symm
    rw [hgk] at this
    exact this
  refine ⟨pre, b, post, rfl, hf, h0, ?_, ?_, ?_, ?_, ?_⟩
  · rw [← hgk]; exact i.ok _ hmem
  · rw [← i.gl]; exact map_erase _ _ _
  · rw [used_append, used_used hf h0] at hus
    exact (List.perm_middle.symm.trans hus).cons_inv
  · rintro a a1 a2 ⟨g, hg, g1, g2⟩
    have hs := (hus.pairwise_iff (R := USep) (fun h => Or.symm h)).mp (used_sep i.h.sep)
    have := (List.pairwise_cons.mp hs).1 (g.1, g.2.1) (List.mem_map.mpr ⟨g, hg, rfl⟩)
    unfold USep at this
    dsimp only at this
    omega
  · intro g hg
    exact hp.mem_iff.mp (List.mem_cons_of_mem _ hg)

/-! ### The operations -/

theorem record_ok (i : WI C w L G) {s' : St} {L' : List Blk} {a z size align : Nat} (h : H C (Kept G) w.st.mem s' L') (g : Good false L')
    (hp : pools L' = pools L) (hu : (used L').Perm ((a, z) :: used L)) (ha : a % 8 = 0) (hz : size ≤ z) (hal : (a + 16) % align = 0) :
    WI C (record w s' (a + 16) size align) L' ((a, z, ⟨a + 16, size, align, fun _ => none⟩) :: G) := by
  unfold record
  rw [if_neg (by omega)]
  refine ⟨Hdrop h, g, hp.trans i.ps, i.psz, ?_, ?_, ?_⟩
  · rw [List.map_cons, i.gl]
  · exact hu.trans (List.Perm.cons _ i.us)
  · intro q hq
    rcases List.mem_cons.mp hq with rfl | hq
    · exact ⟨rfl, hz, ha, hal, fun _ _ e => (nomatch e)⟩
    · exact gok_all h i.ok q hq

theorem record_none (i : WI C w L G) (size align : Nat) : WI C (record w w.st 0 size align) L G := by
  unfold record
  rw [if_pos rfl]
  exact i

theorem malloc_step (i : WI C w L G) {size : BitVec 64} (hs : size.toNat ≤ 2 ^ 64 - 8) {align : Nat} (hal : align = 8) :
    ∃ s' p L' G', malloc C w.st size = .ok (s', p) ∧ WI C (record w s' p size.toNat align) L' G' := by
  obtain ⟨r, hr, hm⟩ := malloc_ok (i.rebase fun g hg => hg) i.g size
  rcases hm with ⟨e, _⟩ | ⟨s', L', a, z, e, c1, c2, c3, h', g', p', u', _⟩
  · exact ⟨_, _, L, G, e, record_none i _ _⟩
  · refine ⟨_, _, L', _, e, record_ok i h' g' p' u' c3 (Nat.le_trans (hr.fit hs c1) c2) ?_⟩
    rw [hal]; omega

theorem memalign_step (i : WI C w L G) {align size : BitVec 64} (hs : size.toNat ≤ 2 ^ 64 - 8) (ha : IsPowerOfTwo align.toNat) (hal : align.toNat ≤ 2 ^ 62) :
    ∃ s' p L' G', memalign C w.st align size = .ok (s', p) ∧ WI C (record w s' p size.toNat align.toNat) L' G' := by
  obtain ⟨r, hr, hm⟩ := memalign_ok (i.rebase fun g hg => hg) i.g ha hal size
  rcases hm with ⟨e, _⟩ | ⟨s', L', a, z, e, c1, c2, c3, c4, h', g', p', u', _⟩
  · exact ⟨_, _, L, G, e, record_none i _ _⟩
  · exact ⟨_, _, L', _, e, record_ok i h' g' p' u' c3 (Nat.le_trans (hr.fit hs c1) c2) c4⟩

theorem free_step (i : WI C w L G) {k : Nat} {v : Live} (hk : w.live[k]? = some v) :
    ∃ s' L' G', free C w.st v.ptr = .ok s' ∧ WI C { w with st := s', live := w.live.eraseIdx k } L' G' := by
  obtain ⟨pre, b, post, rfl, hf, h0, k1, k2, k3, k4, k5⟩ := i.pick hk
  obtain ⟨s', L', e, h', g', u', p'⟩ := free_ok (i.rebase k5) i.g hf h0 k4
  have hp : v.ptr = b.addr + 16 := k1.ptr
  refine ⟨s', L', G.eraseIdx k, by rw [hp]; exact e, Hdrop h', g', p'.trans i.ps, i.psz, k2, by rw [u']; exact k3, ?_⟩
  exact gok_all h' fun g hg => i.ok g (k5 g hg)

theorem realloc_step (i : WI C w L G) {k : Nat} {v : Live} (hk : w.live[k]? = some v) {size : BitVec 64} (hs : size.toNat ≤ 2 ^ 32 - 8) (h0 : size ≠ 0#64) :
    ∃ s' p L' G', realloc C w.st v.ptr size = .ok (s', p) ∧
      WI C (if p = 0 then { w with st := s' } else { w with st := s', live := ⟨p, size.toNat, 8, fun i => if i < size.toNat then v.data i else none⟩ :: w.live.eraseIdx k }) L' G' := by
  obtain ⟨pre, b, post, rfl, hf, hb0, k1, k2, k3, k4, k5⟩ := i.pick hk
  have hpos : 0 < size.toNat := by
    rcases Nat.eq_zero_or_pos size.toNat with e | e
    · exact absurd (BitVec.eq_of_toNat_eq e) h0
    · exact e
  have hp : v.ptr = b.addr + 16 := k1.ptr
  rw [hp]
  rcases realloc_ok (i.rebase k5) i.g hf hb0 k4 hpos hs with e | ⟨s', L', a, z, e, c1, c2, h', g', p', u', d'⟩
  · exact ⟨_, _, _, _, e, by rw [if_pos rfl]; exact i⟩
  · refine ⟨_, _, L', (a, z, ⟨a + 16, size.toNat, 8, fun i => if i < size.toNat then v.data i else none⟩) :: G.eraseIdx k, e, ?_⟩
    rw [if_neg (by omega)]
    refine ⟨Hdrop h', g', p'.trans i.ps, i.psz, ?_, ?_, ?_⟩
    · rw [List.map_cons, k2]
    · exact u'.trans (List.Perm.cons _ k3)
    · intro q hq
      rcases List.mem_cons.mp hq with rfl | hq
      · refine ⟨rfl, c1, c2, by change (a + 16) % 8 = 0; omega, ?_⟩
        intro j x ex
        change (if j < size.toNat then v.data j else none) = some x at ex
        split at ex
        · rename_i hj
          obtain ⟨x1, x2⟩ := k1.data j x ex
          have hfit : v.size ≤ b.size := k1.fit
          change j < v.size at x1
          refine ⟨hj, ?_⟩
          change byteAt s'.mem (a + 16 + j) = x
          rw [d' j (by omega), ← x2]
          change _ = byteAt w.st.mem (v.ptr + j)
          rw [hp]
        · cases ex
      · exact gok_all h' (fun g hg => i.ok g (k5 g hg)) q hq

theorem byte_set {m : Nat → Nat} {a v x : Nat} (hv : v < 256) : byteAt (setByte m a v) x = if x = a then v else byteAt m x := by
  unfold byteAt setByte
  by_cases hw : x / 8 * 8 = a / 8 * 8
  · rw [hw, updM_same]
    generalize m (a / 8 * 8) = y
    have hj : a % 8 < 8 := by omega
    have hx : x % 8 < 8 := by omega
    have hxe : x = a ↔ x % 8 = a % 8 := by omega
    by_cases he : x = a
    · subst he
      rw [if_pos rfl]
      generalize x % 8 = j at *
      have hp : 0 < 256 ^ j := Nat.pow_pos (by omega)
      have hlt : y % 256 ^ j < 256 ^ j := Nat.mod_lt _ hp
      rw [Nat.pow_succ, show y / (256 ^ j * 256) * (256 ^ j * 256) + v * 256 ^ j + y % 256 ^ j = y % 256 ^ j + 256 ^ j * (y / (256 ^ j * 256) * 256 + v) by
        rw [Nat.mul_add, Nat.mul_comm (256 ^ j) v]
        have : 256 ^ j * (y / (256 ^ j * 256) * 256) = y / (256 ^ j * 256) * (256 ^ j * 256) := by
          rw [Nat.mul_left_comm]
        omega, Nat.add_mul_div_left _ _ hp, Nat.div_eq_of_lt hlt]
      omega
    · rw [if_neg he]
      have hne : x % 8 ≠ a % 8 := fun e => he (hxe.mpr e)
      generalize x % 8 = k at *
      generalize a % 8 = j at *
      rcases Nat.lt_or_ge k j with hkj | hkj
      · refine byte_of_mod (r := j) hkj ?_
        rw [Nat.pow_succ, show y / (256 ^ j * 256) * (256 ^ j * 256) + v * 256 ^ j + y % 256 ^ j = y % 256 ^ j + 256 ^ j * (y / (256 ^ j * 256) * 256 + v) by
          rw [Nat.mul_add, Nat.mul_comm (256 ^ j) v]
          have : 256 ^ j * (y / (256 ^ j * 256) * 256) = y / (256 ^ j * 256) * (256 ^ j * 256) := by
            rw [Nat.mul_left_comm]
          omega, Nat.add_mul_mod_self_left, Nat.mod_mod]
      · have hkj : j + 1 ≤ k := by omega
        obtain ⟨d, rfl⟩ := Nat.exists_eq_add_of_le hkj
        have hp : 0 < 256 ^ j := Nat.pow_pos (by omega)
        have hq : 0 < 256 ^ (j + 1) := Nat.pow_pos (by omega)
        have hlt : y % 256 ^ j < 256 ^ j := Nat.mod_lt _ hp
        have hsm : v * 256 ^ j + y % 256 ^ j < 256 ^ (j + 1) := by
          rw [Nat.pow_succ]
          have : v * 256 ^ j ≤ 255 * 256 ^ j := Nat.mul_le_mul_right _ (by omega)
          omega
        rw [Nat.pow_add 256 (j + 1) d, ← Nat.div_div_eq_div_mul, ← Nat.div_div_eq_div_mul, Nat.add_assoc, Nat.mul_comm (y / _), Nat.mul_add_div hq, Nat.div_eq_of_lt hsm, Nat.add_zero]
  · rw [updM_ne hw, if_neg (fun e => hw (by rw [e]))]

theorem write_step (i : WI C w L G) {k : Nat} {v : Live} (hk : w.live[k]? = some v) {j x : Nat} (hj : j < v.size) (hx : x < 256) :
    ∃ L' G', WI C { w with st := { w.st with mem := setByte w.st.mem (v.ptr + j) x }, live := { v with data := fun i => if i = j then some x else v.data i } :: w.live.eraseIdx k } L' G' := by
  obtain ⟨pre, b, post, rfl, hf, hb0, k1, k2, k3, k4, k5⟩ := i.pick hk
  have hp : v.ptr = b.addr + 16 := k1.ptr
  have hfit : v.size ≤ b.size := k1.fit
  have hal : b.addr % 8 = 0 := k1.al8
  have hch : ∀ a, (a < b.addr + 16 ∨ b.addr + 16 + b.size ≤ a) → setByte w.st.mem (v.ptr + j) x a = w.st.mem a := by
    intro a ha
    exact updM_ne (by omega)
  have h' := H_write (i.rebase k5) hf hch (by
    intro a ha
    by_cases hin : a < b.addr + 16 ∨ b.addr + 16 + b.size ≤ a
    · exact hch a hin
    · exact absurd ha (k4 a (by omega) (by omega)))
  refine ⟨_, (b.addr, b.size, { v with data := fun i => if i = j then some x else v.data i }) :: G.eraseIdx k, Hdrop h', good_unlink i.g hf, ?_, i.psz, ?_, ?_, ?_⟩
  · rw [← i.ps, pools_append, pools_append]; congr 1
    exact pools_same (b := b) (b' := { b with linked := false }) rfl rfl rfl _
  · rw [List.map_cons, k2]
  · have : used (pre ++ { b with linked := false } :: post) = used pre ++ (b.addr, b.size) :: used post := by
      rw [used_append]
      congr 1
      exact used_used (b := { b with linked := false }) hf hb0 _
    rw [this]
    exact List.perm_middle.trans (List.Perm.cons _ k3)
  · intro q hq
    rcases List.mem_cons.mp hq with rfl | hq
    · refine ⟨k1.ptr, k1.fit, k1.al8, k1.al, ?_⟩
      intro i' x' ex
      change (if i' = j then some x else v.data i') = some x' at ex
      change i' < v.size ∧ byteAt (setByte w.st.mem (v.ptr + j) x) (v.ptr + i') = x'
      rw [byte_set hx]
      by_cases e : i' = j
      · subst e
        rw [if_pos rfl] at ex ⊢
        cases ex
        exact ⟨hj, rfl⟩
      · rw [if_neg e] at ex
        rw [if_neg (by omega)]
        exact k1.data i' x' ex
    · exact gok_all h' (fun g hg => i.ok g (k5 g hg)) q hq

/-! ### Pools -/

theorem poolBytes_total (bytes : BitVec 64) : ∃ q, poolBytes bytes = .ok q := by
  have h8 : IsPowerOfTwo (8#64 : BitVec 64).toNat := ⟨3, rfl⟩
  unfold poolBytes alignDown
  rw [pow2_check h8, ccAssert_true rfl, R.ok_bind, R.pure_eq, R.ok_bind]
  split <;> exact ⟨_, rfl⟩

theorem WI.within (i : WI C w L G) {x : Blk} (hx : x ∈ L) : ∃ p ∈ w.pools, p.1 ≤ x.addr + 8 ∧ x.addr + 16 + x.size ≤ p.1 + p.2 ∧ x.lo = firstBlock p ∧ x.hi = lastBlock p := by
  have h1 := in_pools i.h hx
  rw [i.ps, List.mem_map] at h1
  obtain ⟨p, hp, e⟩ := h1
  obtain ⟨e1, e2⟩ := Prod.mk.inj e
  have k := i.h.blk x hx
  have := i.psz p hp
  have k1 := k.lo
  have k2 := k.hi
  have k3 := k.hi0
  unfold firstBlock at e1
  unfold lastBlock capacity at e2
  refine ⟨p, hp, by omega, ?_, e1.symm, e2.symm⟩
  by_cases h0 : x.size = 0
  · have := k3 h0
    omega
  · have := k2 h0
    omega

theorem addPool_step (i : WI C w L G) {base : Nat} {bytes : BitVec 64} (hl : Legal C w (.addPool base bytes)) :
    ∃ s' ad L', addPool C w.st base bytes = .ok (s', ad) ∧ WI C { w with st := s', pools := if ad then (base, bytes.toNat) :: w.pools else w.pools } L' G := by
  obtain ⟨l1, l2, l3, l4, l5, l6, l7⟩ := hl
  obtain ⟨q, hq⟩ := poolBytes_total bytes
  by_cases hb : base % 8 ≠ 0
  · refine ⟨w.st, false, L, ?_, i⟩
    unfold addPool
    rw [hq, R.ok_bind, if_pos hb]
    rfl
  · cases q with
    | none =>
      refine ⟨w.st, false, L, ?_, i⟩
      unfold addPool
      rw [hq, R.ok_bind, if_neg hb]
      rfl
    | some z =>
      obtain ⟨z1, z2, z3, z4, z5, _⟩ := (C39_pool_partial bytes l2).1 z hq
      have hz : z.toNat = capacity (base, bytes.toNat) := by
        unfold capacity
        dsimp only
        omega
      have hm : PoolMem C base z.toNat :=
        ⟨by omega, l1, by omega, z1, by omega, by omega, fun a a1 a2 => l5 a a1 (by omega), by unfold controlSize at l6; omega⟩
      obtain ⟨s', L', e, h', g', u', p'⟩ := addPool_ok (i.rebase fun g hg => hg) i.g hq hm (by
        intro x hx
        obtain ⟨p, hp, w1, w2, _⟩ := i.within hx
        have := l7 p hp
        omega) (by
        rintro a a1 a2 ⟨g, hg, g1, g2⟩
        obtain ⟨x, hx, _, x1, x2⟩ := i.inUsed hg g1 g2
        obtain ⟨p, hp, w1, w2, _⟩ := i.within hx
        have := l7 p hp
        omega)
      refine ⟨s', true, L', e, Hdrop h', g', ?_, ?_, i.gl, by rw [u']; exact i.us, gok_all h' i.ok⟩
      · change _ = ((base, bytes.toNat) :: w.pools).map _
        rw [p', i.ps, List.map_cons]
        unfold lastBlock
        rw [← hz]
        rfl
      · intro p hp
        rcases List.mem_cons.mp hp with rfl | hp
        · exact ⟨l1, by dsimp only; omega⟩
        · exact i.psz p hp

/-- What a list of blocks is followed by. -/
theorem tile_end {e : Option (Nat × Nat × Nat)} {v : Nat × Nat × Nat} : ∀ {l : List Blk}, Tile e l (some v) → e = some v ∨ ∃ x ∈ l, x.size ≠ 0 ∧ v = (x.addr + 8 + x.size, x.lo, x.hi)
  | [], h => Or.inl h
  | b :: t, h => by
    right
    rcases tile_end (l := t) h.2.2 with e' | ⟨x, hx, h0, e'⟩
    · unfold Blk.nxt at e'
      split at e'
      · cases e'
      · rename_i hb
        cases e'
        exact ⟨b, List.mem_cons_self, hb, rfl⟩
    · exact ⟨x, List.mem_cons_of_mem _ hx, h0, e'⟩

/-- A pool of one free block is taken away. -/
theorem removePool_ok {P : Nat → Prop} {m0 : Nat → Nat} {s : St} {pre post : List Blk} {B E : Blk} (h : H C P m0 s (pre ++ B :: E :: post))
    (g : Good false (pre ++ B :: E :: post)) (hf : B.free = true) (hE : E.size = 0) (hlo : B.addr = B.lo) :
    ∃ s', removePool C s (B.addr + 8) = .ok s' ∧ H C P m0 s' (pre ++ post) ∧ Good false (pre ++ post) := by
  have h' : H C P m0 s ((pre ++ [B]) ++ E :: post) := by rw [← app_swap]; exact h
  have kB := h.mid
  have kE := h'.mid
  have hB0 := kB.fr hf
  have hmin := kB.min
  obtain ⟨g1, g2, g3, g4, g5, g6, g7, g8, g9, g10⟩ := good_append.mp g
  have hEf : E.free = false := by
    cases e : E.free with
    | false => rfl
    | true => exact absurd hE (kE.fr e)
  have hl : B.listed = true := by rw [g4]; exact hf
  obtain ⟨n, post', en, hn1, _, _⟩ := h.next hB0
  cases en
  have w1 : wFree B.hdr = true := (wFree_hdr kB.sal).trans hf
  have w2 : (!wFree E.hdr) = true := by rw [wFree_hdr kE.sal, hEf]; rfl
  have w3 : decide (wSize E.hdr = 0) = true := by rw [wSize_hdr kE.sal]; exact decide_eq_true hE
  obtain ⟨s1, e1, h1⟩ := blockRemove_ok h hl
  refine ⟨s1, ?_, ?_, ?_⟩
  · unfold removePool
    rw [Nat.add_sub_cancel]
    dsimp only
    rw [ld_hdr kB, R.ok_bind, ccAssert_true w1, R.ok_bind, blockNext_ok kB hB0, R.ok_bind, ← hn1, ld_hdr kE, R.ok_bind, ccAssert_true w2, R.ok_bind,
      ccAssert_true w3, R.ok_bind, e1]
  · have h1' : H C P m0 s1 (pre ++ ([{ B with listed := false }, E] ++ post)) := h1
    have hm : s1 = { s1 with mem := s1.mem } := rfl
    rw [hm]
    refine H_replace' (s := s1) (mid' := []) (A := B.addr + 8) (Z := B.addr + 24 + B.size) h1' ?_ ?_ (fun x hx => (by cases hx)) (fun _ _ => rfl) (fun _ _ => rfl)
      (fun x hx => (by cases hx)) List.Pairwise.nil ?_ ?_ (fun x hx => (by cases hx)) (fun _ _ _ => ⟨rfl, rfl⟩)
    · intro x hx
      have q1 := h.out x (by
        rcases List.mem_append.mp hx with hx | hx
        · exact List.mem_append_left _ hx
        · exact List.mem_append_right _ (List.mem_cons_of_mem _ hx))
      have q2 := h'.out x (by
        rcases List.mem_append.mp hx with hx | hx
        · exact List.mem_append_left _ (List.mem_append_left _ hx)
        · exact List.mem_append_right _ hx)
      omega
    · have := kB.ctl
      have := kE.ctl
      omega
    · obtain ⟨e, t1, t2, t3, t4⟩ := tile_append.mp h.tile
      have he : e = none := by
        cases e with
        | none => rfl
        | some v =>
          exfalso
          rcases tile_end t1 with e' | ⟨x, hx, x0, e'⟩
          · cases e'
          · have := t2 _ rfl
            rw [e'] at this
            obtain ⟨z1, z2⟩ := Prod.mk.inj this
            obtain ⟨z2, z3⟩ := Prod.mk.inj z2
            have := (h.blk x (by simp [hx])).lo
            omega
      subst he
      obtain ⟨t5, t6, t7⟩ := t4
      rw [nxt_end hE] at t7
      exact tile_append.mpr ⟨none, t1, t7⟩
    · intro x hx hxl
      exfalso
      rcases List.mem_cons.mp hx with rfl | hx
      · cases hxl
      · rw [List.mem_singleton.mp hx, g8, hEf] at hxl
        cases hxl
  · have := g3 hf
    refine good_append.mpr ⟨g1, ?_⟩
    rw [this]
    rw [hEf] at g10
    exact g10

theorem removePool_step (i : WI C w L G) {k : Nat} {p : Nat × Nat} (hk : w.pools[k]? = some p) (hfree : ∀ v ∈ w.live, v.ptr < p.1 ∨ p.1 + p.2 ≤ v.ptr) :
    ∃ s' L', removePool C w.st p.1 = .ok s' ∧ WI C { w with st := s', pools := w.pools.eraseIdx k } L' G := by
  obtain ⟨K, rfl, hK⟩ := parts i.h.tile
  have hps := i.ps
  rw [parts_pools hK] at hps
  obtain ⟨hkl, hkp⟩ := List.getElem?_eq_some_iff.mp hk
  have hlen : K.length = w.pools.length := by
    have := congrArg List.length hps
    rwa [List.length_map, List.length_map] at this
  have hkK : k < K.length := by omega
  have hKk : (K[k].2.lo, K[k].2.hi) = (firstBlock p, lastBlock p) := by
    have h1 : (K.map fun k => (k.2.lo, k.2.hi))[k]? = some (K[k].2.lo, K[k].2.hi) := by
      rw [List.getElem?_map, List.getElem?_eq_getElem hkK]; rfl
    rw [hps, List.getElem?_map, hk] at h1
    exact (Option.some.inj h1).symm
  obtain ⟨q1, q2⟩ := Prod.mk.inj hKk
  have hKe : K = K.take k ++ K[k] :: K.drop (k + 1) := by
    rw [List.getElem_cons_drop, List.take_append_drop]
  have hmem : K[k] ∈ K := List.getElem_mem hkK
  obtain ⟨⟨run, E⟩, hr⟩ : ∃ q, K[k] = q := ⟨_, rfl⟩
  rw [hr] at hmem q1 q2 hKe
  dsimp only at q1 q2
  have hpart := hK _ hmem
  have hp8 := i.psz p (List.mem_of_getElem? hk)
  have htl := parts_tile hK i.h.tile _ hmem
  have hbE := i.h.blk E (mem_flat.mpr ⟨_, hmem, Or.inr rfl⟩)
  have hbR : ∀ y ∈ run, BOk C (fun _ => False) w.st.mem y := fun y hy => i.h.blk y (mem_flat.mpr ⟨_, hmem, Or.inl hy⟩)
  obtain ⟨ht, hlohi⟩ := part_tiled hpart.1 hbE hpart.2 hbR htl
  dsimp only at ht hlohi
  have hgood := parts_good (fun k hk => by
    cases e : k.2.free with
    | false => rfl
    | true => exact absurd (hK k hk).1 ((i.h.blk k.2 (mem_flat.mpr ⟨k, hk, Or.inr rfl⟩)).fr e)) i.g _ hmem
  have hco := coalesced_chunks run false (good_append.mp hgood).1
  have hall : ∀ c ∈ chunks run, c.free = true := by
    intro c hc
    obtain ⟨y, hy, rfl⟩ := List.mem_map.mp hc
    dsimp only
    cases ey : y.free with
    | true => rfl
    | false =>
      exfalso
      have hyL : y ∈ flat K := mem_flat.mpr ⟨_, hmem, Or.inl hy⟩
      have : (y.addr, y.size) ∈ used (flat K) := used_mem.mpr ⟨y, hyL, ey, hpart.2 y hy, rfl⟩
      obtain ⟨g, hg, eg⟩ := List.mem_map.mp (i.us.mem_iff.mp this)
      obtain ⟨eg1, eg2⟩ := Prod.mk.inj eg
      have hv : g.2.2 ∈ w.live := by rw [← i.gl]; exact List.mem_map.mpr ⟨g, hg, rfl⟩
      have hgp := (i.ok g hg).ptr
      have := hfree _ hv
      have ky := hbR y hy
      have := ky.lo
      have := ky.hi (hpart.2 y hy)
      have := ky.min
      have := hpart.2 y hy
      obtain ⟨l1, l2⟩ := hlohi y hy
      unfold firstBlock at q1
      unfold lastBlock capacity at q2
      omega
  have hone := one_free (chunks run) w.st.mem _ _ ht hco hall (by
    unfold firstBlock at q1
    unfold lastBlock capacity at q2
    omega)
  obtain ⟨B, rfl⟩ : ∃ B, run = [B] := by
    cases run with
    | nil => cases hone
    | cons B t =>
      cases t with
      | nil => exact ⟨B, rfl⟩
      | cons _ _ => exact absurd (congrArg List.length hone) (by simp [chunks])
  have hB : (⟨B.addr, B.size, B.free⟩ : Chunk) = ⟨E.lo, E.hi - E.lo - 8, true⟩ := (List.cons.inj hone).1
  have hB1 : B.addr = E.lo := congrArg Chunk.addr hB
  have hB2 : B.free = true := congrArg Chunk.free hB
  have hBl := (hlohi B List.mem_cons_self).1
  have hL : flat K = flat (K.take k) ++ B :: E :: flat (K.drop (k + 1)) := by
    conv => lhs; rw [hKe]
    rw [flat_append, flat_cons]
    rfl
  have h2 := i.rebase (fun g hg => hg)
  have g2 := i.g
  have u2 := i.us
  have p2 := i.ps
  rw [hL] at h2 g2 u2 p2
  obtain ⟨s', e, h3, g3⟩ := removePool_ok h2 g2 hB2 hpart.1 (by omega)
  have hbase : B.addr + 8 = p.1 := by
    unfold firstBlock at q1
    omega
  rw [hbase] at e
  refine ⟨s', _, e, Hdrop h3, g3, ?_, ?_, i.gl, ?_, gok_all h3 i.ok⟩
  · rw [← flat_append, parts_pools]
    · change _ = (w.pools.eraseIdx k).map _
      rw [map_erase, ← hps, ← map_erase, List.eraseIdx_eq_take_drop_succ]
    · intro x hx
      refine hK x ?_
      rcases List.mem_append.mp hx with hx | hx
      · exact List.mem_of_mem_take hx
      · exact List.mem_of_mem_drop hx
  · intro q hq
    exact i.psz q (List.mem_of_mem_eraseIdx hq)
  · have hEf : E.free = false := by
      cases e : E.free with
      | false => rfl
      | true => exact absurd hpart.1 (hbE.fr e)
    rw [used_append, used_free hB2, used_cons, if_neg (fun e => e.2 hpart.1)] at u2
    rw [used_append]
    exact u2

/-! ### All operations -/

theorem step_ok (i : WI C w L G) {o : Op} (hl : Legal C w o) : ∃ w' L' G', step C w o = .ok w' ∧ WI C w' L' G' := by
  cases o with
  | addPool base bytes =>
    obtain ⟨s', ad, L', e, i'⟩ := addPool_step i hl
    refine ⟨_, _, _, ?_, i'⟩
    dsimp only [step]
    rw [e]
    rfl
  | removePool k =>
    dsimp only [step]
    cases hk : w.pools[k]? with
    | none => exact ⟨w, L, G, by dsimp only; rfl, i⟩
    | some p =>
      obtain ⟨s', L', e, i'⟩ := removePool_step i hk (hl p hk)
      refine ⟨_, _, _, ?_, i'⟩
      dsimp only
      rw [e]
      rfl
  | malloc size =>
    obtain ⟨s', p, L', G', e, i'⟩ := malloc_step i hl rfl
    refine ⟨_, _, _, ?_, i'⟩
    dsimp only [step]
    rw [e]
    rfl
  | memalign align size =>
    obtain ⟨s', p, L', G', e, i'⟩ := memalign_step i hl.1 hl.2.1 hl.2.2
    refine ⟨_, _, _, ?_, i'⟩
    dsimp only [step]
    rw [e]
    rfl
  | free k =>
    dsimp only [step]
    cases hk : w.live[k]? with
    | none => exact ⟨w, L, G, by dsimp only; rfl, i⟩
    | some v =>
      obtain ⟨s', L', G', e, i'⟩ := free_step i hk
      refine ⟨_, _, _, ?_, i'⟩
      dsimp only
      rw [e]
      rfl
  | realloc k size =>
    dsimp only [step]
    cases hk : w.live[k]? with
    | none =>
      obtain ⟨s', p, L', G', e, i'⟩ := malloc_step i (size := size) (by have := show size.toNat ≤ _ from hl; omega) rfl
      refine ⟨_, _, _, ?_, i'⟩
      dsimp only
      have e' : realloc C w.st 0 size = .ok (s', p) := by
        unfold realloc
        rw [if_neg (fun h => h.1 rfl), if_pos rfl, e]
      rw [e']
      rfl
    | some v =>
      dsimp only
      by_cases h0 : size = 0#64
      · obtain ⟨s', L', G', e, i'⟩ := free_step i hk
        refine ⟨_, _, _, ?_, i'⟩
        have e' : realloc C w.st v.ptr size = .ok (s', 0) := by
          obtain ⟨pre, b, post, _, _, _, k1, _⟩ := i.pick hk
          have hp : v.ptr = b.addr + 16 := k1.ptr
          unfold realloc
          rw [if_pos ⟨by omega, h0⟩, e]
          rfl
        rw [e', R.ok_bind]
        dsimp only
        rw [if_pos h0]
        rfl
      · obtain ⟨s', p, L', G', e, i'⟩ := realloc_step i hk hl h0
        refine ⟨_, _, _, ?_, i'⟩
        rw [e, R.ok_bind]
        dsimp only
        rw [if_neg h0]
        by_cases hp : p = 0
        · rw [if_pos hp, if_pos hp]; rfl
        · rw [if_neg hp, if_neg hp]; rfl
  | write k j x =>
    dsimp only [step]
    cases hk : w.live[k]? with
    | none => exact ⟨w, L, G, by dsimp only; rfl, i⟩
    | some v =>
      obtain ⟨L', G', i'⟩ := write_step i hk (hl.2 v hk) hl.1
      exact ⟨_, _, _, rfl, i'⟩

theorem run_ok : ∀ (os : List Op) {w : World} {L : List Blk} {G : List (Nat × Nat × Live)}, WI C w L G → LegalRun C w os → ∃ w' L' G', run C w os = .ok w' ∧ WI C w' L' G'
  | [], w, L, G, i, _ => ⟨w, L, G, rfl, i⟩
  | o :: os, w, L, G, i, hl => by
    obtain ⟨w1, L1, G1, e, i1⟩ := step_ok i hl.1
    obtain ⟨w2, L2, G2, e2, i2⟩ := run_ok os i1 (hl.2 w1 e)
    refine ⟨w2, L2, G2, ?_, i2⟩
    unfold run
    rw [e]
    exact e2

/-! ### What the specification asks for -/

theorem zip_exists {α β γ : Type} {f : α → γ} {g : β → γ} : ∀ {l : List α} {l' : List β}, l.map f = l'.map g → ∃ Z : List (α × β), Z.map Prod.fst = l ∧ Z.map Prod.snd = l' ∧ ∀ z ∈ Z, f z.1 = g z.2
  | [], [], _ => ⟨[], rfl, rfl, fun z hz => (by cases hz)⟩
  | [], _ :: _, h => (nomatch h)
  | _ :: _, [], h => (nomatch h)
  | a :: l, b :: l', h => by
    obtain ⟨h1, h2⟩ := List.cons.inj h
    obtain ⟨Z, z1, z2, z3⟩ := zip_exists h2
    refine ⟨(a, b) :: Z, by rw [List.map_cons, z1], by rw [List.map_cons, z2], ?_⟩
    intro z hz
    rcases List.mem_cons.mp hz with rfl | hz
    · exact h1
    · exact z3 z hz

theorem WI.sound (i : WI C w L G) : ∃ blocks, w.sound C blocks ∧ ∀ c, (∃ p ∈ blocks, c ∈ p.2) ↔ ∃ x ∈ L, x.size ≠ 0 ∧ c = ⟨x.addr, x.size, x.free⟩ := by
  obtain ⟨K, rfl, hK⟩ := parts i.h.tile
  have hps := i.ps
  rw [parts_pools hK] at hps
  obtain ⟨Z, z1, z2, z3⟩ := zip_exists hps.symm
  have hZK : ∀ z ∈ Z, z.2 ∈ K := fun z hz => by rw [← z2]; exact List.mem_map.mpr ⟨z, hz, rfl⟩
  have hZp : ∀ z ∈ Z, z.1 ∈ w.pools := fun z hz => by rw [← z1]; exact List.mem_map.mpr ⟨z, hz, rfl⟩
  have hKZ : ∀ k ∈ K, ∃ z ∈ Z, z.2 = k := by
    intro k hk
    rw [← z2] at hk
    obtain ⟨z, hz, e⟩ := List.mem_map.mp hk
    exact ⟨z, hz, e⟩
  have hEf : ∀ k ∈ K, k.2.free = false := fun k hk => by
    cases e : k.2.free with
    | false => rfl
    | true => exact absurd (hK k hk).1 ((i.h.blk k.2 (mem_flat.mpr ⟨k, hk, Or.inr rfl⟩)).fr e)
  -- the blocks of the specification are the blocks of the invariant
  let Q : List ((Nat × Nat) × List Chunk) := Z.map fun z => (z.1, chunks z.2.1)
  have hQ : ∀ c, (∃ p ∈ Q, c ∈ p.2) ↔ ∃ x ∈ flat K, x.size ≠ 0 ∧ c = ⟨x.addr, x.size, x.free⟩ := by
    intro c
    constructor
    · rintro ⟨p, hp, hc⟩
      obtain ⟨z, hz, rfl⟩ := List.mem_map.mp hp
      obtain ⟨x, hx, rfl⟩ := List.mem_map.mp hc
      exact ⟨x, mem_flat.mpr ⟨z.2, hZK z hz, Or.inl hx⟩, (hK _ (hZK z hz)).2 x hx, rfl⟩
    · rintro ⟨x, hx, h0, rfl⟩
      obtain ⟨k, hk, hx'⟩ := mem_flat.mp hx
      obtain ⟨z, hz, rfl⟩ := hKZ k hk
      rcases hx' with hx' | rfl
      · exact ⟨_, List.mem_map.mpr ⟨z, hz, rfl⟩, List.mem_map.mpr ⟨x, hx', rfl⟩⟩
      · exact absurd (hK _ hk).1 h0
  refine ⟨Q, ?_, hQ⟩
  obtain ⟨F, hF⟩ := i.h.lists
  have hfl : ∀ x ∈ flat K, x.listed = x.free := good_listed i.g
  have hsep := (i.us.pairwise_iff (R := USep) (fun h => Or.symm h)).mp (used_sep i.h.sep)
  refine ⟨?_, ?_, ?_, ?_, ?_, ?_, ?_, ?_, ?_, ?_, ?_⟩
  · change (Z.map _).map _ = _
    rw [List.map_map, ← z1]
    rfl
  · intro p hp
    obtain ⟨z, hz, rfl⟩ := List.mem_map.mp hp
    have hk := hZK z hz
    obtain ⟨e1, e2⟩ := Prod.mk.inj (z3 z hz)
    dsimp only
    rw [e1, e2]
    exact (part_tiled (hK _ hk).1 (i.h.blk _ (mem_flat.mpr ⟨_, hk, Or.inr rfl⟩)) (hK _ hk).2
      (fun y hy => i.h.blk y (mem_flat.mpr ⟨_, hk, Or.inl hy⟩)) (parts_tile hK i.h.tile _ hk)).1
  · intro p hp
    obtain ⟨z, hz, rfl⟩ := List.mem_map.mp hp
    exact coalesced_chunks _ _ (good_append.mp (parts_good hEf i.g _ (hZK z hz))).1
  · intro a j ha hj
    refine ⟨F a j, ?_, hF.nd a j ha hj, ?_⟩
    · rw [hF.hd a j ha hj]
      refine listAt_of_dll (hF.dll a j ha hj) ?_
      intro x hx
      obtain ⟨y, hy, rfl, hyl, _⟩ := (hF.mem a j x ha hj).mp hx
      have k := i.h.blk y hy
      have := k.fr (k.lst hyl)
      have := k.min
      have := k.ctl
      omega
    · intro x
      rw [hF.mem a j x ha hj]
      constructor
      · rintro ⟨y, hy, rfl, hyl, hc⟩
        have k := i.h.blk y hy
        have hyf := k.lst hyl
        obtain ⟨p, hp, hcp⟩ := (hQ ⟨y.addr, y.size, y.free⟩).mpr ⟨y, hy, k.fr hyf, rfl⟩
        exact ⟨p, hp, _, hcp, rfl, hyf, hc⟩
      · rintro ⟨p, hp, c, hcp, rfl, hcf, hc⟩
        obtain ⟨y, hy, _, rfl⟩ := (hQ c).mp ⟨p, hp, hcp⟩
        exact ⟨y, hy, rfl, (hfl y hy).trans hcf, hc⟩
  · intro a j ha hj
    rw [hF.slb a j ha hj, hF.hd a j ha hj]
    cases e : F a j with
    | nil => simp
    | cons x t =>
      have hx : x ∈ F a j := by rw [e]; exact List.mem_cons_self
      obtain ⟨y, hy, rfl, hyl, _⟩ := (hF.mem a j x ha hj).mp hx
      have k := i.h.blk y hy
      have := k.fr (k.lst hyl)
      have := k.min
      have := k.ctl
      have hne : y.addr ≠ C.ctl := by omega
      simp [hne]
  · intro a
    by_cases ha : a < 25
    · rw [hF.flb a ha]
      exact ⟨fun h => ⟨ha, h⟩, fun h => h.2⟩
    · rw [hF.flhi a (by omega)]
      exact ⟨fun h => (nomatch h), fun h => absurd h.1 ha⟩
  · intro v hv
    rw [← i.gl] at hv
    obtain ⟨g, hg, rfl⟩ := List.mem_map.mp hv
    obtain ⟨x, hx, hxf, hx0, e⟩ := used_mem.mp (i.us.mem_iff.mpr (List.mem_map.mpr ⟨g, hg, rfl⟩))
    obtain ⟨e1, e2⟩ := Prod.mk.inj e
    obtain ⟨p, hp, hcp⟩ := (hQ ⟨x.addr, x.size, x.free⟩).mpr ⟨x, hx, hx0, rfl⟩
    have k := i.ok g hg
    refine ⟨p, hp, _, hcp, hxf, ?_, ?_⟩
    · dsimp only; rw [k.ptr, e1]
    · dsimp only; rw [← e2]; exact k.fit
  · intro p hp c hcp hcf
    obtain ⟨x, hx, hx0, rfl⟩ := (hQ c).mp ⟨p, hp, hcp⟩
    obtain ⟨g, hg, e⟩ := List.mem_map.mp (i.us.mem_iff.mp (used_mem.mpr ⟨x, hx, hcf, hx0, rfl⟩))
    obtain ⟨e1, e2⟩ := Prod.mk.inj e
    refine ⟨g.2.2, by rw [← i.gl]; exact List.mem_map.mpr ⟨g, hg, rfl⟩, ?_⟩
    rw [(i.ok g hg).ptr, e1]
  · intro v hv
    rw [← i.gl] at hv
    obtain ⟨g, hg, rfl⟩ := List.mem_map.mp hv
    have k := i.ok g hg
    have := k.ptr
    have := k.al8
    exact ⟨by omega, k.al⟩
  · rw [← i.gl, List.pairwise_map]
    rw [List.pairwise_map] at hsep
    refine hsep.imp_of_mem ?_
    intro x y hx hy hxy
    have k1 := (i.ok x hx).ptr
    have k2 := (i.ok x hx).fit
    have k3 := (i.ok y hy).ptr
    have k4 := (i.ok y hy).fit
    unfold USep at hxy
    unfold Apart
    dsimp only at hxy
    omega
  · intro v hv
    rw [← i.gl] at hv
    obtain ⟨g, hg, rfl⟩ := List.mem_map.mp hv
    exact (i.ok g hg).data

/-- A new heap. -/
theorem construct_wi {mem : Nat → Nat} (h0 : C.ctl ≠ 0) (h8 : C.ctl % 8 = 0) (h1 : C.ok (C.ctl + 16) = true) (h2 : C.ok (C.ctl + 24) = true) :
    ∃ s, construct C mem = .ok s ∧ WI C ⟨s, [], []⟩ [] [] := by
  obtain ⟨s, e, h⟩ := construct_ok (mem := mem) h0 h8 h1 h2
  exact ⟨s, e, Hdrop h, trivial, rfl, fun p hp => (by cases hp), rfl, List.Perm.refl _, fun g hg => (by cases hg)⟩

end Verif.Tlsf
