import Verif.Alloc.VLinear

/-! C37 for the virtual linear allocator. -/
namespace Verif.Alloc.VLinear
open Verif.Bits Verif.Alloc.Spec Verif.Alloc Verif.Alloc.Pages

structure Inv (lo hi ch : Nat) (s : State) : Prop where
  pages : PInv lo hi ch s.pages
  apart : (s.given.map (fun g => ext g.block)).Pairwise Block.Disjoint
  known : ∀ g ∈ s.given, Known lo s.pages.cur.toNat s.mem g
  last : ∀ g ∈ s.given, BitVec.ofNat 64 g.block.addr = s.last → g.block.addr + g.block.size = s.pages.cur.toNat

theorem Known_mono {lo hi hi' : Nat} {m : Mem} {g : Owned} (h : Known lo hi m g) (hh : g.block.addr + g.block.size ≤ hi') : Known lo hi' m g :=
  { ok := { low := h.ok.low, high := hh, aligned := h.ok.aligned, header := h.ok.header }, val := h.val }

theorem vbegin_ne {lo hi ch : Nat} {p : Pages} (h : PInv lo hi ch p) : p.vbegin ≠ 0#64 := by
  intro e
  have h1 := h.beg
  have h2 := h.lo0
  rw [e] at h1
  change 0 = lo at h1
  omega

/-- What `alloc` does to the allocator. -/
structure Fresh (lo hi ch : Nat) (s : State) (size align : Nat) (p : BitVec 64) (s' : State) : Prop where
  pages : PInv lo hi ch s'.pages
  ptr : p.toNat = alignUpN (s.pages.cur.toNat + 8) align
  cur : s'.pages.cur.toNat = p.toNat + size
  last : s'.last = p
  mem : s'.mem = write64 s.mem (p.toNat - 8) (BitVec.ofNat 64 size)
  given : s'.given = s.given

theorem allocCore_ok {lo hi ch : Nat} {s : State} (h : PInv lo hi ch s.pages) {size align : Nat} (hr : Request size align) :
    (∃ p s', allocCore s (BitVec.ofNat 64 size) (BitVec.ofNat 64 align) = .ok (p, s') ∧ Fresh lo hi ch s size align p s') ∨
    (allocCore s (BitVec.ofNat 64 size) (BitVec.ofNat 64 align) = .error .assert ∧ s.pages.pend.toNat < alignUpN (s.pages.cur.toNat + 8) align + size ∧
      hi < s.pages.pend.toNat + alignUpN (alignUpN (s.pages.cur.toNat + 8) align + size - s.pages.cur.toNat) ch) := by
  obtain ⟨h1, h2, h3⟩ := hr
  have hpos := pow2_pos h2
  have hhib := h.hib
  have hcur := h.cur
  have hpend := h.pend
  have es : (BitVec.ofNat 64 size).toNat = size := toNat_ofNat_lt (by omega)
  have ea : (BitVec.ofNat 64 align).toNat = align := toNat_ofNat_lt (by omega)
  have e8 : (8#64).toNat = 8 := rfl
  have e1 : (s.pages.cur + 8#64).toNat = s.pages.cur.toNat + 8 := by rw [toNat_add_lt (by rw [e8]; omega), e8]
  have e2 : (alignUp (s.pages.cur + 8#64) (BitVec.ofNat 64 align)).toNat = alignUpN (s.pages.cur.toNat + 8) align := by
    rw [toNat_alignUp (by rw [ea]; exact h2) (by rw [e1, ea]; omega), e1, ea]
  have hle := alignUpN_le (s.pages.cur.toNat + 8) align
  have hge := alignUpN_ge (s.pages.cur.toNat + 8) align hpos
  unfold allocCore
  simp only
  rw [ccAssert_true (decide_eq_true (vbegin_ne h)), R.ok_bind]
  rw [← e2] at hle hge ⊢
  generalize alignUp (s.pages.cur + 8#64) (BitVec.ofNat 64 align) = p at e2 hle hge ⊢
  have e3 : (p - s.pages.cur).toNat = p.toNat - s.pages.cur.toNat := by
    rw [BitVec.toNat_sub_of_le (by rw [BitVec.le_def]; omega)]
  have e4 : (p - s.pages.cur + BitVec.ofNat 64 size).toNat = p.toNat + size - s.pages.cur.toNat := by
    rw [toNat_add_lt (by rw [e3, es]; omega), e3, es]
    omega
  have e5 : (p + BitVec.ofNat 64 size).toNat = p.toNat + size := by
    rw [toNat_add_lt (by rw [es]; omega), es]
  rcases grow_ok h (n := p - s.pages.cur + BitVec.ofNat 64 size) (by rw [e4]; omega) with ⟨q, eg, hq, hqc, hq1, hq2⟩ | ⟨eg, hg1, hg2⟩
  · left
    rw [e4] at hq2
    rw [eg, R.ok_bind, if_pos (accessible_of hq (by omega) (by omega))]
    refine ⟨p, _, rfl, ?_⟩
    exact { pages := setCur_ok hq (by rw [e5]; omega) (by rw [e5]; omega), ptr := e2, cur := e5, last := rfl, mem := rfl, given := rfl }
  · right
    rw [e4] at hg1 hg2
    rw [eg, R.error_bind]
    exact ⟨rfl, by omega, hg2⟩

/-- A block behind all others. -/
theorem fresh_apart {lo hi ch : Nat} {s : State} (h : Inv lo hi ch s) {b : Block} (hb : s.pages.cur.toNat + 8 ≤ b.addr) : ∀ g ∈ s.given, (ext b).Disjoint (ext g.block) := by
  intro g hg
  have h1 := (h.known g hg).ok.high
  have h2 := (h.known g hg).ok.low
  refine Or.inr ?_
  change g.block.addr - 8 + (g.block.size + 8) ≤ b.addr - 8
  omega

theorem fresh_facts {lo hi ch : Nat} {s : State} (h : Inv lo hi ch s) {size align : Nat} (hr : Request size align) {p : BitVec 64} {s' : State} (hf : Fresh lo hi ch s size align p s') :
    s.pages.cur.toNat + 8 ≤ p.toNat ∧ p.toNat + size ≤ hi ∧ BlockOk lo s'.pages.cur.toNat s'.mem { addr := p.toNat, size := size, align := align } ∧
    (∀ x, x < p.toNat - 8 ∨ p.toNat ≤ x → s'.mem x = s.mem x) ∧ ∀ g ∈ s.given, Known lo s'.pages.cur.toNat s'.mem g ∧ BitVec.ofNat 64 g.block.addr ≠ s'.last := by
  have hge := alignUpN_ge (s.pages.cur.toNat + 8) align (pow2_pos hr.2.1)
  have hdv := alignUpN_dvd (s.pages.cur.toNat + 8) align
  rw [← hf.ptr] at hge hdv
  have hcur := h.pages.cur
  have hc' := hf.pages.cur
  have hp' := hf.pages.pend
  have hhib := h.pages.hib
  rw [hf.cur] at hc'
  have hm : ∀ x, x < p.toNat - 8 ∨ p.toNat ≤ x → s'.mem x = s.mem x := fun x hx => by
    rw [hf.mem]
    exact write64_out (by omega)
  refine ⟨hge, by omega, { low := by change lo + 8 ≤ p.toNat; omega, high := by rw [hf.cur]; exact Nat.le_refl _, aligned := hdv, header := ?_ }, hm, fun g hg => ⟨?_, ?_⟩⟩
  · rw [hf.mem]
    change read64 _ (p.toNat - 8) = _
    rw [read64_write]
  · have h1 := (h.known g hg).ok.high
    have h2 := (h.known g hg).ok.low
    refine Known_congr (Known_mono (h.known g hg) (by rw [hf.cur]; omega)) (fun x hx1 hx2 => (hm x (Or.inl ?_)).symm)
    change x < g.block.addr - 8 + (g.block.size + 8) at hx2
    omega
  · have h1 := (h.known g hg).ok.high
    intro e
    have := congrArg BitVec.toNat e
    rw [hf.last, toNat_ofNat_lt (by omega)] at this
    omega

theorem alloc_ok {lo hi ch : Nat} {s : State} (h : Inv lo hi ch s) {size align : Nat} (hr : Request size align) :
    (∃ p s', alloc s (BitVec.ofNat 64 size) (BitVec.ofNat 64 align) = .ok (p, s') ∧ Inv lo hi ch s' ∧ p.toNat = alignUpN (s.pages.cur.toNat + 8) align ∧
      s'.given = { block := { addr := p.toNat, size := size, align := align }, val := fun _ => none } :: s.given) ∨
    (alloc s (BitVec.ofNat 64 size) (BitVec.ofNat 64 align) = .error .assert ∧ s.pages.pend.toNat < alignUpN (s.pages.cur.toNat + 8) align + size ∧
      hi < s.pages.pend.toNat + alignUpN (alignUpN (s.pages.cur.toNat + 8) align + size - s.pages.cur.toNat) ch) := by
  have es : (BitVec.ofNat 64 size).toNat = size := toNat_ofNat_lt (by have := hr.1; omega)
  have ea : (BitVec.ofNat 64 align).toNat = align := toNat_ofNat_lt (by have := hr.2.2; omega)
  unfold alloc
  rcases allocCore_ok h.pages hr with ⟨p, s', e, hf⟩ | ⟨e, h1, h2⟩
  · left
    rw [e, R.ok_bind]
    obtain ⟨f1, f2, f3, f4, f5⟩ := fresh_facts h hr hf
    have hg : (s'.give p (BitVec.ofNat 64 size) (BitVec.ofNat 64 align) (fun _ => none)).given =
        { block := { addr := p.toNat, size := size, align := align }, val := fun _ => none } :: s.given := by
      unfold State.give
      rw [es, ea, hf.given]
    refine ⟨p, _, rfl, ?_, hf.ptr, hg⟩
    refine { pages := hf.pages, apart := ?_, known := ?_, last := ?_ }
    · rw [hg]
      refine List.pairwise_cons.mpr ⟨fun c hc => ?_, h.apart⟩
      obtain ⟨g, hg', rfl⟩ := List.mem_map.mp hc
      exact fresh_apart h f1 g hg'
    · rw [hg]
      intro g hg'
      rcases List.mem_cons.mp hg' with hg' | hg'
      · subst hg'
        exact { ok := f3, val := fun _ _ _ hv => by cases hv }
      · exact (f5 g hg').1
    · rw [hg]
      intro g hg' el
      rcases List.mem_cons.mp hg' with hg' | hg'
      · subst hg'
        exact hf.cur.symm
      · exact absurd el (f5 g hg').2
  · right
    rw [e, R.error_bind]
    exact ⟨rfl, h1, h2⟩

/-- Blocks of a list without one of them. -/
theorem erase_facts {l : List Owned} {k : Nat} (hk : k < l.length) (hp : (l.map (fun g => ext g.block)).Pairwise Block.Disjoint) :
    ((l.eraseIdx k).map (fun g => ext g.block)).Pairwise Block.Disjoint ∧ (∀ g ∈ l.eraseIdx k, g ∈ l) ∧ ∀ g ∈ l.eraseIdx k, (ext l[k].block).Disjoint (ext g.block) := by
  have hperm := (perm_eraseIdx hk).map (fun g => ext g.block)
  have := (hperm.pairwise_iff (fun h => Disjoint_symm h)).mpr hp
  rw [List.map_cons] at this
  obtain ⟨h1, h2⟩ := List.pairwise_cons.mp this
  exact ⟨h2, fun g hg => List.mem_of_mem_eraseIdx hg, fun g hg => h1 _ (List.mem_map.mpr ⟨g, hg, rfl⟩)⟩

theorem reallocMove_ok {lo hi ch : Nat} {s : State} (h : Inv lo hi ch s) {k : Nat} (hk : k < s.given.length) {size align : Nat} (hr : Request size align) :
    (∃ p s', reallocMove s k s.given[k] (BitVec.ofNat 64 size) (BitVec.ofNat 64 align) = .ok (p, s') ∧ Inv lo hi ch s') ∨
    reallocMove s k s.given[k] (BitVec.ofNat 64 size) (BitVec.ofNat 64 align) = .error .assert := by
  have es : (BitVec.ofNat 64 size).toNat = size := toNat_ofNat_lt (by have := hr.1; omega)
  have ea : (BitVec.ofNat 64 align).toNat = align := toNat_ofNat_lt (by have := hr.2.2; omega)
  have hmem : s.given[k] ∈ s.given := List.getElem_mem hk
  obtain ⟨p1, p2, p3⟩ := erase_facts hk h.apart
  generalize s.given[k] = o at hmem p3 ⊢
  have hhib := h.pages.hib
  have hcur := h.pages.cur
  have hpend := h.pages.pend
  have ho1 := (h.known o hmem).ok.low
  have ho2 := (h.known o hmem).ok.high
  unfold reallocMove
  by_cases c0 : BitVec.ofNat 64 size > 0#64
  · rw [if_pos c0]
    rcases allocCore_ok h.pages hr with ⟨p, s', e, hf⟩ | ⟨e, _, _⟩
    · left
      rw [e, R.ok_bind]
      obtain ⟨f1, f2, f3, f4, f5⟩ := fresh_facts h hr hf
      have hko := (f5 o hmem).1
      have hc' := hf.pages.cur
      rw [hf.cur] at hc'
      have hsz : min (getSize s' o.block.addr).toNat (BitVec.ofNat 64 size).toNat = min o.block.size size := by
        unfold getSize
        rw [hko.ok.header, toNat_ofNat_lt (by omega), es]
      simp only
      rw [hsz]
      generalize hn : min o.block.size size = n
      have a1 : accessible s'.pages o.block.addr n = true := accessible_of hf.pages (by omega) (by omega)
      have a2 : accessible s'.pages p.toNat n = true := accessible_of hf.pages (by omega) (by omega)
      rw [a1, a2, decide_eq_true (show o.block.addr + n ≤ p.toNat ∨ p.toNat + n ≤ o.block.addr by omega)]
      refine ⟨p, _, rfl, ?_⟩
      have hmo : ∀ x, x < p.toNat ∨ p.toNat + n ≤ x → copy s'.mem p.toNat o.block.addr n x = s'.mem x := fun x hx => copy_out hx
      have hg : (State.give { s' with mem := copy s'.mem p.toNat o.block.addr n, given := s.given.eraseIdx k } p (BitVec.ofNat 64 size) (BitVec.ofNat 64 align) (fun i => if i < n then o.val i else none)).given =
          { block := { addr := p.toNat, size := size, align := align }, val := fun i => if i < n then o.val i else none } :: s.given.eraseIdx k := by
        unfold State.give
        rw [es, ea]
      refine { pages := hf.pages, apart := ?_, known := ?_, last := ?_ }
      · rw [hg]
        refine List.pairwise_cons.mpr ⟨fun c hc => ?_, p1⟩
        obtain ⟨g, hg', rfl⟩ := List.mem_map.mp hc
        exact fresh_apart h f1 g (p2 g hg')
      · rw [hg]
        intro g hg'
        change Known lo s'.pages.cur.toNat (copy s'.mem p.toNat o.block.addr n) g
        rcases List.mem_cons.mp hg' with hg' | hg'
        · subst hg'
          refine { ok := { low := f3.low, high := f3.high, aligned := f3.aligned, header := ?_ }, val := ?_ }
          · rw [← f3.header]
            refine read64_congr (fun x _ hx => hmo x ?_)
            change x < p.toNat - 8 + 8 at hx
            omega
          · intro i _ v hv
            change (if i < n then o.val i else none) = some v at hv
            change copy s'.mem p.toNat o.block.addr n (p.toNat + i) = v
            split at hv
            · rename_i hin
              rw [copy_in hin]
              exact hko.val i (by omega) v hv
            · cases hv
        · have hg2 := p2 g hg'
          have hk2 := (f5 g hg2).1
          have l1 := (h.known g hg2).ok.high
          have l2 := (h.known g hg2).ok.low
          refine Known_congr hk2 (fun x _ hx => (hmo x ?_).symm)
          change x < g.block.addr - 8 + (g.block.size + 8) at hx
          omega
      · rw [hg]
        intro g hg' el
        change BitVec.ofNat 64 g.block.addr = s'.last at el
        change _ = s'.pages.cur.toNat
        rcases List.mem_cons.mp hg' with hg' | hg'
        · subst hg'
          exact hf.cur.symm
        · exact absurd el (f5 g (p2 g hg')).2
    · right
      rw [e, R.error_bind]
  · left
    rw [if_neg c0]
    exact ⟨_, _, rfl, { pages := h.pages, apart := p1, known := fun g hg => h.known g (p2 g hg), last := fun g hg => h.last g (p2 g hg) }⟩

theorem reallocLast_ok {lo hi ch : Nat} {s : State} (h : Inv lo hi ch s) {k : Nat} (hk : k < s.given.length) (hl : BitVec.ofNat 64 s.given[k].block.addr = s.last) {size align : Nat} (hr : Request size align) :
    (∃ s', reallocLast s k s.given[k] (BitVec.ofNat 64 size) = .ok (BitVec.ofNat 64 s.given[k].block.addr, s') ∧ Inv lo hi ch s') ∨
    reallocLast s k s.given[k] (BitVec.ofNat 64 size) = .error .assert := by
  have es : (BitVec.ofNat 64 size).toNat = size := toNat_ofNat_lt (by have := hr.1; omega)
  have hsz1 := hr.1
  have hmem : s.given[k] ∈ s.given := List.getElem_mem hk
  obtain ⟨p1, p2, p3⟩ := erase_facts hk h.apart
  generalize s.given[k] = o at hmem p3 hl ⊢
  have hhib := h.pages.hib
  have hcur := h.pages.cur
  have hpend := h.pages.pend
  have hko := h.known o hmem
  have ho1 := hko.ok.low
  have ho2 := hko.ok.high
  have ho3 := h.last o hmem hl
  have eo : (BitVec.ofNat 64 o.block.addr).toNat = o.block.addr := toNat_ofNat_lt (by omega)
  have ez : (BitVec.ofNat 64 o.block.size).toNat = o.block.size := toNat_ofNat_lt (by omega)
  have ec : (BitVec.ofNat 64 o.block.addr + BitVec.ofNat 64 size).toNat = o.block.addr + size := by
    rw [toNat_add_lt (by rw [eo, es]; omega), eo, es]
  have a1 : accessible s.pages (o.block.addr - 8) 8 = true := accessible_of h.pages (by omega) (by omega)
  have hold : getSize s o.block.addr = BitVec.ofNat 64 o.block.size := hko.ok.header
  have hass : BitVec.ofNat 64 o.block.size = s.pages.cur - BitVec.ofNat 64 o.block.addr := by
    apply BitVec.eq_of_toNat_eq
    rw [BitVec.toNat_sub_of_le (by rw [BitVec.le_def, eo]; omega), ez, eo]
    omega
  unfold reallocLast
  simp only
  rw [if_pos a1, hold, ccAssert_true (decide_eq_true hass), R.ok_bind]
  -- the rest works on pages `q` that reach far enough
  have rest : ∀ q : Pages, PInv lo hi ch q → o.block.addr + size ≤ q.pend.toNat →
      ∃ s', (if accessible q (o.block.addr - 8) 8 then
        (.ok (BitVec.ofNat 64 o.block.addr,
          { s with
            pages := { q with cur := BitVec.ofNat 64 o.block.addr + BitVec.ofNat 64 size }
            mem := write64 s.mem (o.block.addr - 8) (BitVec.ofNat 64 size)
            given := { block := { addr := o.block.addr, size := (BitVec.ofNat 64 size).toNat, align := o.block.align }, val := fun i => if i < (BitVec.ofNat 64 o.block.size).toNat then o.val i else none } :: s.given.eraseIdx k }) : R (BitVec 64 × State))
        else .error .ub) = .ok (BitVec.ofNat 64 o.block.addr, s') ∧ Inv lo hi ch s' := by
    intro q hq hfit
    have a2 : accessible q (o.block.addr - 8) 8 = true := accessible_of hq (by omega) (by omega)
    rw [if_pos a2, es, ez]
    refine ⟨_, rfl, ?_⟩
    have below : ∀ g ∈ s.given.eraseIdx k, g.block.addr + g.block.size ≤ o.block.addr - 8 := by
      intro g hg
      have d := p3 g hg
      have d : o.block.addr - 8 + (o.block.size + 8) ≤ g.block.addr - 8 ∨ g.block.addr - 8 + (g.block.size + 8) ≤ o.block.addr - 8 := d
      have l1 := (h.known g (p2 g hg)).ok.high
      have l2 := (h.known g (p2 g hg)).ok.low
      omega
    refine { pages := setCur_ok hq (by rw [ec]; omega) (by rw [ec]; exact hfit), apart := ?_, known := ?_, last := ?_ }
    · refine List.pairwise_cons.mpr ⟨fun c hc => ?_, p1⟩
      obtain ⟨g, hg', rfl⟩ := List.mem_map.mp hc
      have b := below g hg'
      have l2 := (h.known g (p2 g hg')).ok.low
      refine Or.inr ?_
      change g.block.addr - 8 + (g.block.size + 8) ≤ o.block.addr - 8
      omega
    · intro g hg'
      change Known lo (BitVec.ofNat 64 o.block.addr + BitVec.ofNat 64 size).toNat (write64 s.mem (o.block.addr - 8) (BitVec.ofNat 64 size)) g
      rw [ec]
      rcases List.mem_cons.mp hg' with hg' | hg'
      · subst hg'
        refine { ok := { low := ho1, high := Nat.le_refl _, aligned := hko.ok.aligned, header := read64_write _ _ _ }, val := ?_ }
        intro i hi' v hv
        change (if i < o.block.size then o.val i else none) = some v at hv
        change write64 s.mem (o.block.addr - 8) (BitVec.ofNat 64 size) (o.block.addr + i) = v
        split at hv
        · rename_i hin
          rw [write64_out (by omega)]
          exact hko.val i hin v hv
        · cases hv
      · have b := below g hg'
        have l2 := (h.known g (p2 g hg')).ok.low
        refine Known_congr (Known_mono (h.known g (p2 g hg')) (by omega)) (fun x _ hx => (write64_out ?_).symm)
        change x < g.block.addr - 8 + (g.block.size + 8) at hx
        omega
    · intro g hg' el
      change BitVec.ofNat 64 g.block.addr = s.last at el
      change _ = (BitVec.ofNat 64 o.block.addr + BitVec.ofNat 64 size).toNat
      rw [ec]
      rcases List.mem_cons.mp hg' with hg' | hg'
      · subst hg'; rfl
      · have := below g hg'
        rw [← hl] at el
        have el := congrArg BitVec.toNat el
        rw [eo, toNat_ofNat_lt (by omega)] at el
        omega
  by_cases c : BitVec.ofNat 64 size > BitVec.ofNat 64 o.block.size
  · rw [if_pos c]
    have c' : o.block.size < size := by
      have : BitVec.ofNat 64 o.block.size < BitVec.ofNat 64 size := c
      rw [BitVec.lt_def, es, ez] at this
      exact this
    have ed : (BitVec.ofNat 64 size - BitVec.ofNat 64 o.block.size).toNat = size - o.block.size := by
      rw [BitVec.toNat_sub_of_le (by rw [BitVec.le_def, es, ez]; omega), es, ez]
    rcases grow_ok h.pages (n := BitVec.ofNat 64 size - BitVec.ofNat 64 o.block.size) (by rw [ed]; omega) with ⟨q, eg, hq, hqc, hq1, hq2⟩ | ⟨eg, _, _⟩
    · left
      rw [eg, R.ok_bind]
      rw [ed] at hq2
      exact rest q hq (by omega)
    · right
      rw [eg, R.error_bind]
  · left
    rw [if_neg c, R.ok_bind]
    have c' : size ≤ o.block.size := by
      have : ¬ BitVec.ofNat 64 o.block.size < BitVec.ofNat 64 size := c
      rw [BitVec.lt_def, es, ez] at this
      omega
    exact rest s.pages h.pages (by omega)

theorem realloc_ok {lo hi ch : Nat} {s : State} (h : Inv lo hi ch s) {k : Option Nat} {size align : Nat} (hr : Request size align) (hk : ∀ i, k = some i → i < s.given.length) :
    (∃ r s', realloc s k (BitVec.ofNat 64 size) (BitVec.ofNat 64 align) = .ok (r, s') ∧ Inv lo hi ch s') ∨ realloc s k (BitVec.ofNat 64 size) (BitVec.ofNat 64 align) = .error .assert := by
  cases k with
  | none =>
    change (∃ r s', (if BitVec.ofNat 64 size > 0#64 then alloc s (BitVec.ofNat 64 size) (BitVec.ofNat 64 align) else .ok (0#64, s)) = _ ∧ _) ∨
      (if BitVec.ofNat 64 size > 0#64 then alloc s (BitVec.ofNat 64 size) (BitVec.ofNat 64 align) else .ok (0#64, s)) = _
    split
    · rcases alloc_ok h hr with ⟨p, s', e, h', _⟩ | ⟨e, _, _⟩
      · exact Or.inl ⟨p, s', e, h'⟩
      · exact Or.inr e
    · exact Or.inl ⟨_, s, rfl, h⟩
  | some k =>
    have hk := hk k rfl
    have er : realloc s (some k) (BitVec.ofNat 64 size) (BitVec.ofNat 64 align) =
        if BitVec.ofNat 64 s.given[k].block.addr ≠ s.last then reallocMove s k s.given[k] (BitVec.ofNat 64 size) (BitVec.ofNat 64 align) else reallocLast s k s.given[k] (BitVec.ofNat 64 size) := by
      unfold realloc
      simp only
      rw [List.getElem?_eq_getElem hk]
    rw [er]
    by_cases c : BitVec.ofNat 64 s.given[k].block.addr = s.last
    · rw [if_neg (fun e => e c)]
      rcases reallocLast_ok h hk c hr with ⟨s', e, h'⟩ | e
      · exact Or.inl ⟨_, s', e, h'⟩
      · exact Or.inr e
    · rw [if_pos c]
      exact reallocMove_ok h hk hr

theorem step_ok {lo hi ch : Nat} {s : State} (h : Inv lo hi ch s) {op : Op} (hop : OpOk s op) :
    (∃ r s', step s op = .ok (r, s') ∧ Inv lo hi ch s') ∨ step s op = .error .assert := by
  cases op with
  | alloc size align =>
    rcases alloc_ok h hop with ⟨p, s', e, h', _⟩ | ⟨e, _, _⟩
    · exact Or.inl ⟨p, s', e, h'⟩
    · exact Or.inr e
  | realloc k size align => exact realloc_ok h hop.1 hop.2
  | reset =>
    refine Or.inl ⟨_, _, rfl, ?_⟩
    exact { pages := setCur_ok h.pages (by rw [h.pages.beg]; exact Nat.le_refl _) (by rw [h.pages.beg]; have := h.pages.cur; omega), apart := List.Pairwise.nil,
            known := fun g hg => (by cases hg), last := fun g hg => (by cases hg) }
  | decommit =>
    obtain ⟨r, q, e, hq, hc, _⟩ := decommitIdle_ok h.pages
    refine Or.inl ⟨r, { s with pages := q }, ?_, ?_⟩
    · change (decommitIdle s.pages >>= fun r => .ok (r.1, { s with pages := r.2 })) = _
      rw [e, R.ok_bind]
    · refine { pages := hq, apart := h.apart, known := ?_, last := ?_ }
      · intro g hg
        change Known lo q.cur.toNat s.mem g
        rw [hc]
        exact h.known g hg
      · intro g hg el
        change _ = q.cur.toNat
        rw [hc]
        exact h.last g hg el
  | write x v =>
    obtain ⟨g0, hg0, hx1, hx2⟩ := hop
    have hk0 := h.known g0 hg0
    have l1 := hk0.ok.low
    have l2 := hk0.ok.high
    have hc := h.pages.cur
    refine Or.inl ⟨0#64, { s with mem := fun y => if y = x then v else s.mem y, given := s.given.map (Owned.write x v) }, ?_, ?_⟩
    · exact if_pos (accessible_of h.pages (by omega) (by omega))
    · have hmap : (s.given.map (Owned.write x v)).map (fun g => ext g.block) = s.given.map (fun g => ext g.block) := by
        rw [List.map_map]
        rfl
      refine { pages := h.pages, apart := ?_, known := ?_, last := ?_ }
      · change ((s.given.map (Owned.write x v)).map (fun g => ext g.block)).Pairwise _
        rw [hmap]
        exact h.apart
      · intro g' hg'
        obtain ⟨g, hg, rfl⟩ := List.mem_map.mp hg'
        exact write_known (m := s.mem) (if_pos rfl) (fun y hy => if_neg hy) (h.known g hg) (not_header h.known h.apart hg0 hg hx1 hx2)
      · intro g' hg' el
        obtain ⟨g, hg, rfl⟩ := List.mem_map.mp hg'
        exact h.last g hg el

theorem run_ok : ∀ (ops : List Op) {lo hi ch : Nat} {s : State}, Inv lo hi ch s → Proper s ops →
    (∃ rs s', run s ops = .ok (rs, s') ∧ Inv lo hi ch s') ∨ run s ops = .error .assert
  | [], _, _, _, s, h, _ => Or.inl ⟨[], s, rfl, h⟩
  | op :: ops, lo, hi, ch, s, h, hp => by
    unfold run
    rcases step_ok h hp.1 with ⟨r, s1, e, h1⟩ | e
    · rw [e, R.ok_bind]
      rcases run_ok ops h1 (hp.2 _ e) with ⟨rs, s2, e2, h2⟩ | e2
      · left
        refine ⟨r :: rs, s2, ?_, h2⟩
        simp only [e2]
        rfl
      · right
        simp only [e2]
        rfl
    · right
      rw [e, R.error_bind]

theorem init_ok {addr maxSize chunk : Nat} (h : Params addr maxSize chunk) (mem : Mem) :
    ∃ s, init (BitVec.ofNat 64 addr) (BitVec.ofNat 64 maxSize) (BitVec.ofNat 64 chunk) mem = .ok s ∧ Inv addr (addr + maxSize) chunk s := by
  obtain ⟨p, e, hp, _⟩ := Pages.init_ok h
  refine ⟨{ pages := p, last := 0, mem := mem, given := [] }, ?_, { pages := hp, apart := List.Pairwise.nil, known := fun g hg => (by cases hg), last := fun g hg => (by cases hg) }⟩
  unfold init
  rw [e, R.ok_bind]

/-! ### Theorems -/

/-- A state that some history leads to. -/
def Reach (addr maxSize chunk : Nat) (s : State) : Prop :=
  Params addr maxSize chunk ∧ ∃ mem s0 ops rs, init (BitVec.ofNat 64 addr) (BitVec.ofNat 64 maxSize) (BitVec.ofNat 64 chunk) mem = .ok s0 ∧ Proper s0 ops ∧ run s0 ops = .ok (rs, s)

theorem reach_inv {addr maxSize chunk : Nat} {s : State} (h : Reach addr maxSize chunk s) : Inv addr (addr + maxSize) chunk s := by
  obtain ⟨hp, mem, s0, ops, rs, e0, hpr, e⟩ := h
  obtain ⟨s1, e1, h1⟩ := init_ok hp mem
  rw [e0] at e1
  injection e1 with e1
  subst e1
  rcases run_ok ops h1 hpr with ⟨rs', s', e2, h2⟩ | e2
  · rw [e] at e2
    injection e2 with e2
    have e2 : s = s' := congrArg Prod.snd e2
    rw [e2]
    exact h2
  · rw [e] at e2
    cases e2

/-- Memory that can be used: in the reserved range and committed. -/
def Usable (addr maxSize : Nat) (p : Pages) (x : Nat) : Prop := addr ≤ x ∧ x < addr + maxSize ∧ p.rw (x / 4096) = true

/-- All histories (chunk size at least a page): no access ever faults - not of the allocator, not of clients writing to blocks in use - and no other error than a failed assertion is possible. All bytes of blocks
in use and of their headers are in committed memory; blocks are disjoint with their headers, aligned and in the reserved range, have the size that was asked for, and contain what was written to them, also when they were moved by `realloc`. -/
theorem C37_linear_partial (addr maxSize chunk : Nat) (h : Params addr maxSize chunk) (mem : Mem) :
    ∃ s0, init (BitVec.ofNat 64 addr) (BitVec.ofNat 64 maxSize) (BitVec.ofNat 64 chunk) mem = .ok s0 ∧ ∀ ops, Proper s0 ops →
      run s0 ops = .error .assert ∨ ∃ rs s, run s0 ops = .ok (rs, s) ∧
        Laid addr (addr + maxSize) (s.given.map (·.block)) ∧ Laid addr (addr + maxSize) (s.given.map (fun g => ext g.block)) ∧
        ∀ g ∈ s.given, (∀ x, g.block.addr - 8 ≤ x → x < g.block.addr + g.block.size → Usable addr maxSize s.pages x) ∧
          (getSize s g.block.addr).toNat = g.block.size ∧ ∀ i, i < g.block.size → ∀ v, g.val i = some v → s.mem (g.block.addr + i) = v := by
  obtain ⟨s0, e0, h0⟩ := init_ok h mem
  refine ⟨s0, e0, fun ops hp => ?_⟩
  rcases run_ok ops h0 hp with ⟨rs, s, e, hs⟩ | e
  · right
    have hc := hs.pages.cur
    have hpe := hs.pages.pend
    refine ⟨rs, s, e, ?_, ?_, ?_⟩
    · refine { inside := ?_, aligned := ?_, apart := ?_ }
      · intro b hb
        obtain ⟨g, hg, rfl⟩ := List.mem_map.mp hb
        have h1 := (hs.known g hg).ok.low
        have h2 := (hs.known g hg).ok.high
        omega
      · intro b hb
        obtain ⟨g, hg, rfl⟩ := List.mem_map.mp hb
        exact (hs.known g hg).ok.aligned
      · have := hs.apart
        rw [List.pairwise_map] at this ⊢
        refine List.Pairwise.imp_of_mem ?_ this
        intro a b ha hb hd
        have h3 := (hs.known a ha).ok.low
        have h4 := (hs.known b hb).ok.low
        have hd : a.block.addr - 8 + (a.block.size + 8) ≤ b.block.addr - 8 ∨ b.block.addr - 8 + (b.block.size + 8) ≤ a.block.addr - 8 := hd
        unfold Block.Disjoint
        omega
    · refine { inside := ?_, aligned := ?_, apart := hs.apart }
      · intro b hb
        obtain ⟨g, hg, rfl⟩ := List.mem_map.mp hb
        have h1 := (hs.known g hg).ok.low
        have h2 := (hs.known g hg).ok.high
        change addr ≤ g.block.addr - 8 ∧ g.block.addr - 8 + (g.block.size + 8) ≤ _
        omega
      · intro b hb
        obtain ⟨g, hg, rfl⟩ := List.mem_map.mp hb
        exact Nat.one_dvd _
    · intro g hg
      have hk := hs.known g hg
      have h1 := hk.ok.low
      have h2 := hk.ok.high
      have h3 := hs.pages.hib
      refine ⟨fun x hx1 hx2 => ⟨by omega, by omega, ?_⟩, ?_, hk.val⟩
      · have := accessible_of hs.pages (a := x) (n := 1) (by omega) (by omega)
        unfold accessible at this
        simpa using this
      · unfold getSize
        rw [hk.ok.header, toNat_ofNat_lt (by omega)]
  · exact Or.inl e

/-- `alloc` returns the lowest address behind all blocks that leaves room for the header and is aligned; the new block is empty of known contents and nothing else changes hands. It is refused exactly if the committed memory
does not suffice and the missing bytes, rounded up to chunks, do not fit behind it. -/
theorem C37_linear_alloc_partial {addr maxSize chunk : Nat} {s : State} (h : Reach addr maxSize chunk s) {size align : Nat} (hr : Request size align) :
    (∃ p s', alloc s (BitVec.ofNat 64 size) (BitVec.ofNat 64 align) = .ok (p, s') ∧ p.toNat = alignUpN (s.pages.cur.toNat + 8) align ∧
      s'.given = { block := { addr := p.toNat, size := size, align := align }, val := fun _ => none } :: s.given) ∨
    (alloc s (BitVec.ofNat 64 size) (BitVec.ofNat 64 align) = .error .assert ∧ s.pages.pend.toNat < alignUpN (s.pages.cur.toNat + 8) align + size ∧
      addr + maxSize < s.pages.pend.toNat + alignUpN (alignUpN (s.pages.cur.toNat + 8) align + size - s.pages.cur.toNat) chunk) := by
  rcases alloc_ok (reach_inv h) hr with ⟨p, s', e, _, h2, h3⟩ | h
  · exact Or.inl ⟨p, s', e, h2, h3⟩
  · exact Or.inr h

/-- `decommit_idle_memory` keeps all blocks (the first theorem applies to the state behind it), decommits everything from some address on, and returns the number of bytes that are no longer
committed, if the chunk size divides the address of the reserved range. -/
theorem C37_linear_decommit_partial {addr maxSize chunk : Nat} {s : State} (h : Reach addr maxSize chunk s) :
    ∃ r s', step s .decommit = .ok (r, s') ∧ s'.given = s.given ∧ s'.mem = s.mem ∧
      (∀ k, s'.pages.rw k = true ↔ addr ≤ 4096 * k ∧ 4096 * k < s'.pages.pend.toNat) ∧ (∀ k, s.pages.rw k = true ↔ addr ≤ 4096 * k ∧ 4096 * k < s.pages.pend.toNat) ∧
      (chunk ∣ addr → r.toNat + s'.pages.pend.toNat = s.pages.pend.toNat ∧ s'.pages.pend.toNat < s.pages.cur.toNat + chunk) := by
  have hi := reach_inv h
  obtain ⟨r, q, e, hq, hc, hle, h1, h2⟩ := decommitIdle_ok hi.pages
  refine ⟨r, { s with pages := q }, ?_, rfl, rfl, hq.rw, hi.pages.rw, fun hd => ?_⟩
  · change (decommitIdle s.pages >>= fun r => .ok (r.1, { s with pages := r.2 })) = _
    rw [e, R.ok_bind]
  · obtain ⟨h3, h4⟩ := h1 (decommitIdle_le hi.pages hd)
    refine ⟨h3, ?_⟩
    change q.pend.toNat < _
    rw [h4]
    have := alignUpN_le s.pages.cur.toNat chunk
    have := h.1.lo
    omega

/-- `reset` returns the number of bytes between the beginning and the first free byte, and commits or decommits nothing. -/
theorem C37_linear_reset_partial {addr maxSize chunk : Nat} {s : State} (h : Reach addr maxSize chunk s) :
    (reset s).1.toNat + addr = s.pages.cur.toNat ∧ (reset s).2.given = [] ∧ (reset s).2.pages.rw = s.pages.rw := by
  have hi := reach_inv h
  refine ⟨?_, rfl, rfl⟩
  have hb := hi.pages.beg
  have hc := hi.pages.cur
  change (s.pages.cur - s.pages.vbegin).toNat + addr = _
  rw [BitVec.toNat_sub_of_le (by rw [BitVec.le_def, hb]; exact hc.1), hb]
  omega

/-! ### Where it fails -/

/-- Chunks smaller than a page: `decommit_idle_memory` rounds down to the page, and takes away the page with a block in use; writing to the block faults. -/
theorem C37_small_chunk_faults :
    (init 0x10000#64 0x10000#64 1024#64 (fun _ => 0) >>= fun s => (run s [.alloc 3000 8, .realloc (some 0) 100 8, .write 0x10008 1#8, .decommit]).map (·.1)) = .ok [0x10008#64, 0x10008#64, 0#64, 2048#64] ∧
    (init 0x10000#64 0x10000#64 1024#64 (fun _ => 0) >>= fun s => (run s [.alloc 3000 8, .realloc (some 0) 100 8, .write 0x10008 1#8, .decommit, .write 0x10008 1#8]).map (·.1)) = .error .ub := by
  constructor <;> decide +kernel

/-- The operating system aligns to pages, not to chunks: `decommit_idle_memory` of a fresh allocator returns almost 2^64. -/
theorem C37_decommit_returns_nonsense :
    (init 0x11000#64 0x100000#64 65536#64 (fun _ => 0) >>= fun s => (run s [.decommit]).map (·.1)) = .ok [BitVec.ofNat 64 (2 ^ 64 - 0xf000)] := by
  decide +kernel

/-- A request is refused although it would fit: not only what is missing is rounded up to chunks. -/
theorem C37_refuses_what_fits :
    (init 0x10000#64 131072#64 65536#64 (fun _ => 0) >>= fun s => (run s [.alloc 65000 1]).map (fun r => (r.1, r.2.pages.cur))) = .ok ([0x10008#64], 0x1fdf0#64) ∧
    0x1fdf0 + 8 + 66000 ≤ 0x10000 + 131072 ∧
    (init 0x10000#64 131072#64 65536#64 (fun _ => 0) >>= fun s => (run s [.alloc 65000 1, .alloc 66000 1]).map (·.1)) = .error .assert := by
  refine ⟨by decide +kernel, by decide, by decide +kernel⟩

/-- A request near 2^64 wraps around and is accepted; the next block overlaps the first. -/
theorem C37_huge_request_accepted :
    (init 0x10000#64 131072#64 65536#64 (fun _ => 0) >>= fun s => (run s [.alloc 24 1, .alloc (2 ^ 64 - 32) 1, .alloc 8 1]).map (·.1)) = .ok [0x10008#64, 0x10028#64, 0x10010#64] := by
  decide +kernel

/-! ### Examples -/

def demo : List Op := [.alloc 100 16, .write 0x10012 7#8, .alloc 70000 4096, .realloc (some 1) 200 8, .decommit, .write 0x22179 3#8, .realloc (some 0) 5 8, .decommit, .reset]

example : (init 0x10000#64 0x100000#64 65536#64 (fun _ => 0) >>= fun s => (run s demo).map (·.1)) =
    .ok [0x10010#64, 0#64, 0x11000#64, 0x22178#64, 0x10000#64, 0#64, 0x22178#64, 0#64, 0x1217d#64] := by decide +kernel

/-- Checks the rules for requests. -/
def requestB (size align : Nat) : Bool := decide (size ≤ 2 ^ 60) && (List.range 61).any (fun k => decide (align = 2 ^ k))

theorem requestB_sound {size align : Nat} (h : requestB size align = true) : Request size align := by
  have h := Bool.and_eq_true_iff.mp h
  obtain ⟨k, hk, e⟩ := List.any_eq_true.mp h.2
  have e := of_decide_eq_true e
  have hk := List.mem_range.mp hk
  exact ⟨of_decide_eq_true h.1, ⟨k, e⟩, by rw [e]; exact Nat.pow_le_pow_right (by decide) (by omega)⟩

/-- Checks the rules for a step. -/
def opOkB (s : State) : Op → Bool
  | .alloc size align => requestB size align
  | .realloc none size align => requestB size align
  | .realloc (some k) size align => requestB size align && decide (k < s.given.length)
  | .write x _ => s.given.any (fun g => decide (g.block.addr ≤ x) && decide (x < g.block.addr + g.block.size))
  | _ => true

theorem opOkB_sound {s : State} {op : Op} (h : opOkB s op = true) : OpOk s op := by
  cases op with
  | alloc size align => exact requestB_sound h
  | realloc k size align =>
    cases k with
    | none => exact ⟨requestB_sound h, fun i hi => by cases hi⟩
    | some k =>
      have h := Bool.and_eq_true_iff.mp h
      exact ⟨requestB_sound h.1, fun i hi => by injection hi with hi; subst hi; exact of_decide_eq_true h.2⟩
  | write x v =>
    obtain ⟨g, hg, h⟩ := List.any_eq_true.mp h
    have h := Bool.and_eq_true_iff.mp h
    exact ⟨g, hg, of_decide_eq_true h.1, of_decide_eq_true h.2⟩
  | reset => trivial
  | decommit => trivial

/-- Checks the rules for a history. -/
def properB (s : State) : List Op → Bool
  | [] => true
  | op :: ops => opOkB s op && match step s op with
    | .ok r => properB r.2 ops
    | .error _ => true

theorem properB_sound : ∀ {ops : List Op} {s : State}, properB s ops = true → Proper s ops
  | [], _, _ => trivial
  | op :: ops, s, h => by
    have h := Bool.and_eq_true_iff.mp h
    refine ⟨opOkB_sound h.1, fun r e => properB_sound ?_⟩
    have h2 := h.2
    rw [e] at h2
    exact h2

/-- The hypotheses hold for this history. -/
example : Params 0x10000 0x100000 65536 where
  addr0 := by decide
  page := by decide
  size0 := by decide
  fits := by decide
  pow := ⟨16, by decide⟩
  lo := by decide
  hi := by decide
example : (init 0x10000#64 0x100000#64 65536#64 (fun _ => 0)).map (fun s => properB s demo) = .ok true := by decide +kernel

end Verif.Alloc.VLinear
