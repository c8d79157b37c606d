import Verif.Alloc.VStack
import Verif.Alloc.StackProps

/-! C37 for the virtual stack allocator. -/
namespace Verif.Alloc.VStack
open Verif.Bits Verif.Alloc.Spec Verif.Alloc Verif.Alloc.Pages
open Verif.Alloc.Stack (Mem Header readHeader writeHeader alignUpWithHeader Up8 Hdrs up_of_up8 hdrs_length hdrs_low hdrs_congr hdrs_id block_header_apart ofNat32_inj asPtr readHeader_write writeHeader_out alignUpWithHeader_ok)

structure Inv (lo hi ch : Nat) (s : State) (l : List Block) : Prop where
  pages : PInv lo hi ch s.pages
  small : hi - lo < 2 ^ 34
  head : s.pages.cur.toNat = top lo l
  id : s.id = BitVec.ofNat 32 l.length
  laid : Laid lo hi l
  up : Up8 l
  hdrs : Hdrs lo s.mem l

theorem bounds {lo hi ch : Nat} {s : State} {l : List Block} (h : Inv lo hi ch s l) : lo ≤ top lo l ∧ top lo l ≤ s.pages.pend.toNat ∧ s.pages.pend.toNat ≤ hi ∧ hi ≤ 2 ^ 62 := by
  have h1 := h.pages.cur
  rw [h.head] at h1
  exact ⟨h1.1, h1.2, h.pages.pend, h.pages.hib⟩

theorem length_lt {lo hi ch : Nat} {s : State} {l : List Block} (h : Inv lo hi ch s l) : 8 * l.length ≤ top lo l - lo ∧ l.length < 2 ^ 31 := by
  have h1 := hdrs_length h.hdrs
  have h2 := bounds h
  have h3 := h.small
  omega

theorem vbegin_ne {lo hi ch : Nat} {p : Pages} (h : PInv lo hi ch p) : p.vbegin ≠ 0#64 := by
  intro e
  have h1 := h.beg
  have h2 := h.lo0
  rw [e] at h1
  change 0 = lo at h1
  omega

/-- `alloc` does what the specification says and touches no live block, or memory does not suffice. -/
theorem alloc_ok {lo hi ch : Nat} {s : State} {l : List Block} (h : Inv lo hi ch s l) {size align : Nat} (hs : size ≤ 2 ^ 60) (ha : IsPowerOfTwo align) (ha2 : align ≤ 2 ^ 31) :
    (alloc s (BitVec.ofNat 64 size) (BitVec.ofNat 64 align) = .error .assert ∧ s.pages.pend.toNat < alignUpN (top lo l + 8) align + size ∧
      hi < s.pages.pend.toNat + alignUpN (alignUpN (top lo l + 8) align + size - top lo l) ch) ∨
    ∃ p l' s', Stack.Spec.alloc lo hi l size align = .ok (p, l') ∧ alloc s (BitVec.ofNat 64 size) (BitVec.ofNat 64 align) = .ok (BitVec.ofNat 64 p, s') ∧ Inv lo hi ch s' l' ∧
      (∀ x, x < top lo l → s'.mem x = s.mem x) := by
  have hpos := pow2_pos ha
  have hst : (BitVec.ofNat 64 size).toNat = size := toNat_ofNat_lt (by omega)
  have hat : (BitVec.ofNat 64 align).toNat = align := toNat_ofNat_lt (by omega)
  have hb := bounds h
  obtain ⟨p, ep, hp⟩ := alignUpWithHeader_ok (head := s.pages.cur) (align := BitVec.ofNat 64 align) (hs := 8#64) (by rw [hat]; exact ha)
    (by rw [hat, h.head]; change top lo l + align + 8 < _; omega)
  rw [hat, h.head] at hp
  change p.toNat = alignUpN (top lo l + 8) align at hp
  have hle := alignUpN_le (top lo l + 8) align
  have hge := alignUpN_ge (top lo l + 8) align hpos
  have hdv := alignUpN_dvd (top lo l + 8) align
  have hsum : (p + BitVec.ofNat 64 size).toNat = p.toNat + size := by
    rw [toNat_add_lt (by rw [hst]; omega), hst]
  unfold Stack.Spec.alloc alloc
  simp only
  rw [ccAssert_true (decide_eq_true (vbegin_ne h.pages)), R.ok_bind, ep, R.ok_bind, ← hp]
  rw [← hp] at hle hge hdv
  have hpad0 : (p - s.pages.cur).toNat = p.toNat - top lo l := by
    rw [BitVec.toNat_sub_of_le (by rw [BitVec.le_def, h.head]; omega), h.head]
  have hneed : (p - s.pages.cur + BitVec.ofNat 64 size).toNat = p.toNat + size - top lo l := by
    rw [toNat_add_lt (by rw [hpad0, hst]; omega), hpad0, hst]
    omega
  rcases grow_ok h.pages (n := p - s.pages.cur + BitVec.ofNat 64 size) (by rw [hneed]; omega) with ⟨q, eg, hq, hqc, hq1, hq2⟩ | ⟨eg, hg1, hg2⟩
  · right
    rw [hneed, h.head] at hq2
    have hqp := hq.pend
    have hfit : p.toNat + size ≤ hi := by omega
    have hlen := length_lt h
    have hsm := h.small
    have hidn : s.id ≠ 0x7fffffff#32 := by
      rw [h.id]
      intro e
      have := ofNat32_inj (b := 0x7fffffff) (by omega) (by decide) e
      omega
    have hid : s.id + 1 = BitVec.ofNat 32 (l.length + 1) := by
      rw [h.id]
      apply BitVec.eq_of_toNat_eq
      rw [BitVec.toNat_add, BitVec.toNat_ofNat, BitVec.toNat_ofNat, Nat.mod_eq_of_lt (show l.length < 2 ^ 32 by omega)]
      rfl
    have hpad : (p - s.pages.cur).setWidth 32 = BitVec.ofNat 32 (p.toNat - top lo l) := by
      apply BitVec.eq_of_toNat_eq
      rw [BitVec.toNat_setWidth, hpad0, BitVec.toNat_ofNat]
    rw [if_pos hfit, eg, R.ok_bind, if_neg hidn, if_pos (accessible_of hq (by omega) (by omega))]
    refine ⟨_, _, _, rfl, congrArg Except.ok (Prod.ext (BitVec.eq_of_toNat_eq (by rw [toNat_ofNat_lt (by omega)])) rfl), ?_, ?_⟩
    · exact {
        pages := setCur_ok hq (by rw [hsum]; omega) (by rw [hsum]; omega)
        small := h.small
        head := hsum
        id := hid
        laid := laid_cons h.laid _ (fun c hc => by have := up_top h.laid (up_of_up8 h.up) c hc; change _ ≤ p.toNat; omega) (by change lo ≤ p.toNat; omega) hfit hdv
        up := List.pairwise_cons.mpr ⟨fun c hc => by have := up_top h.laid (up_of_up8 h.up) c hc; change _ ≤ p.toNat; omega, h.up⟩
        hdrs := by
          refine ⟨?_, by change p.toNat - top lo l < _; omega, hge, ?_⟩
          · change readHeader (writeHeader s.mem (p.toNat - 8) _) (p.toNat - 8) = _
            rw [readHeader_write, hpad, hid]
          · refine hdrs_congr (fun c hc x hx1 hx2 => ?_) h.hdrs
            have := up_top h.laid (up_of_up8 h.up) c hc
            exact (writeHeader_out (by omega)).symm }
    · intro x hx
      exact writeHeader_out (by omega)
  · left
    rw [hneed, h.head] at hg1
    rw [hneed] at hg2
    rw [eg, R.error_bind]
    exact ⟨rfl, by omega, hg2⟩

theorem live_ptr {lo hi ch : Nat} {s : State} {l : List Block} (h : Inv lo hi ch s l) {b : Block} (hb : b ∈ l) :
    (BitVec.ofNat 64 b.addr).toNat = b.addr ∧ BitVec.ofNat 64 b.addr ≠ 0#64 ∧ b.addr ≠ 0 ∧ accessible s.pages (b.addr - 8) 8 = true := by
  have h1 := hdrs_low h.hdrs b hb
  have h2 := h.laid.inside b hb
  have h3 := bounds h
  have h5 := up_top h.laid (up_of_up8 h.up) b hb
  have h4 : (BitVec.ofNat 64 b.addr).toNat = b.addr := toNat_ofNat_lt (by omega)
  refine ⟨h4, fun e => ?_, by omega, accessible_of h.pages (by omega) (by omega)⟩
  have := congrArg BitVec.toNat e
  rw [h4] at this
  change b.addr = 0 at this
  omega

/-- `free` does what the specification says. -/
theorem free_ok {lo hi ch : Nat} {s : State} {l : List Block} (h : Inv lo hi ch s l) {ptr : Nat} (hp : ptr = 0 ∨ ∃ b ∈ l, b.addr = ptr) :
    (Stack.Spec.free l ptr = .error .assert ∧ free s (BitVec.ofNat 64 ptr) = .error .assert) ∨
    ∃ l' s', Stack.Spec.free l ptr = .ok l' ∧ free s (BitVec.ofNat 64 ptr) = .ok s' ∧ Inv lo hi ch s' l' ∧ s'.mem = s.mem := by
  rcases hp with rfl | ⟨b, hb, rfl⟩
  · exact Or.inr ⟨l, s, rfl, rfl, h, rfl⟩
  · obtain ⟨ht, hn, hz, hh⟩ := live_ptr h hb
    have hlen := length_lt h
    have hbd := bounds h
    unfold free Stack.Spec.free
    rw [if_neg hz, if_neg hn, ht, if_pos hh]
    cases l with
    | nil => cases hb
    | cons d l =>
      simp only
      rcases List.mem_cons.mp hb with e | hb'
      · subst e
        right
        obtain ⟨h1, h2, h3, h4⟩ := h.hdrs
        have hin := h.laid.inside b (by simp)
        rw [h1, if_pos rfl]
        simp only
        rw [ccAssert_true (decide_eq_true (show BitVec.ofNat 32 (l.length + 1) = s.id from h.id.symm)), R.ok_bind]
        refine ⟨l, _, rfl, rfl, ?_, rfl⟩
        have hlaid := laid_tail h.laid
        have hhead : (BitVec.ofNat 64 b.addr - (BitVec.ofNat 32 (b.addr - top lo l)).setWidth 64).toNat = top lo l := by
          have hw : ((BitVec.ofNat 32 (b.addr - top lo l)).setWidth 64).toNat = b.addr - top lo l := by
            rw [BitVec.toNat_setWidth, BitVec.toNat_ofNat, Nat.mod_eq_of_lt h2, Nat.mod_eq_of_lt (by omega)]
          rw [BitVec.toNat_sub_of_le (by rw [BitVec.le_def, hw, ht]; omega), hw, ht]
          omega
        have hlow := hdrs_length h4
        have htop : top lo (b :: l) = b.addr + b.size := rfl
        exact {
          pages := setCur_ok h.pages (by rw [hhead]; omega) (by rw [hhead]; omega)
          small := h.small
          head := hhead
          id := by
            change s.id - 1 = _
            rw [h.id]
            have hl : (b :: l).length = l.length + 1 := rfl
            rw [hl]
            apply BitVec.eq_of_toNat_eq
            rw [hl] at hlen
            rw [BitVec.toNat_sub_of_le (by rw [BitVec.le_def, BitVec.toNat_ofNat, Nat.mod_eq_of_lt (by omega)]; change 1 ≤ _; omega), BitVec.toNat_ofNat, BitVec.toNat_ofNat,
              Nat.mod_eq_of_lt (by omega), Nat.mod_eq_of_lt (by omega)]
            change l.length + 1 - 1 = _
            omega
          laid := hlaid
          up := (List.pairwise_cons.mp h.up).2
          hdrs := h4 }
      · left
        have hne : b.addr ≠ d.addr := by
          have := (List.pairwise_cons.mp h.up).1 b hb'
          omega
        obtain ⟨k, k1, k2, k3⟩ := hdrs_id h.hdrs.2.2.2 b hb'
        have hl : (d :: l).length = l.length + 1 := rfl
        rw [hl] at hlen
        rw [if_neg hne, ccAssert_false (decide_eq_false ?_), R.error_bind]
        · exact ⟨rfl, rfl⟩
        · rw [k3, h.id, hl]
          intro e
          have := ofNat32_inj (by omega) (by omega) e
          omega

/-- Resizing does what the specification says, or memory does not suffice. -/
theorem resize_ok {lo hi ch : Nat} {s : State} {l : List Block} (h : Inv lo hi ch s l) {b : Block} {n align : Nat} (hb : b ∈ l) (hn : n ≤ 2 ^ 60) (hn0 : n ≠ 0) :
    (realloc s (BitVec.ofNat 64 b.addr) (BitVec.ofNat 64 n) (BitVec.ofNat 64 align) = .error .assert ∧
      (l.head? ≠ some b ∨ s.pages.pend.toNat < b.addr + n ∧ hi < s.pages.pend.toNat + alignUpN (n - b.size) ch)) ∨
    ∃ l' s', Stack.Spec.resize hi l b.addr n = .ok (b.addr, l') ∧ realloc s (BitVec.ofNat 64 b.addr) (BitVec.ofNat 64 n) (BitVec.ofNat 64 align) = .ok (BitVec.ofNat 64 b.addr, s') ∧
      Inv lo hi ch s' l' ∧ s'.mem = s.mem := by
  obtain ⟨ht, hnz, hz, hh⟩ := live_ptr h hb
  have hlen := length_lt h
  have hbd := bounds h
  have hnt : (BitVec.ofNat 64 n).toNat = n := toNat_ofNat_lt (by omega)
  have hn0' : BitVec.ofNat 64 n ≠ 0#64 := by
    intro e
    have := congrArg BitVec.toNat e
    rw [hnt] at this
    exact hn0 this
  have hin := h.laid.inside b hb
  have hsum : (BitVec.ofNat 64 b.addr + BitVec.ofNat 64 n).toNat = b.addr + n := by
    rw [toNat_add_lt (by rw [ht, hnt]; omega), ht, hnt]
  unfold realloc Stack.Spec.resize
  rw [if_neg hn0', if_neg hnz, ht, if_pos hh]
  cases l with
  | nil => cases hb
  | cons d l =>
    simp only
    have hl : (d :: l).length = l.length + 1 := rfl
    rw [hl] at hlen
    rcases List.mem_cons.mp hb with e | hb'
    · subst e
      obtain ⟨h1, h2, h3, h4⟩ := h.hdrs
      have htop : top lo (b :: l) = b.addr + b.size := rfl
      rw [htop] at hbd
      have hc := h.head
      rw [htop] at hc
      have hlow := hdrs_length h4
      rw [h1]
      simp only
      rw [ccAssert_true (decide_eq_true (show BitVec.ofNat 32 (l.length + 1) = s.id from h.id.symm)), R.ok_bind]
      have hold : (s.pages.cur - BitVec.ofNat 64 b.addr).toNat = b.size := by
        rw [BitVec.toNat_sub_of_le (by rw [BitVec.le_def, ht]; omega), ht, hc]
        omega
      have rest : ∀ q : Pages, PInv lo hi ch q → b.addr + n ≤ q.pend.toNat →
          ∃ l' s', (if (True : Prop) ∧ b.addr + n ≤ hi then (.ok (b.addr, { addr := b.addr, size := n, align := b.align } :: l) : R (Nat × List Block)) else .error .assert) = .ok (b.addr, l') ∧
            (.ok (BitVec.ofNat 64 b.addr, { s with pages := { q with cur := BitVec.ofNat 64 b.addr + BitVec.ofNat 64 n } }) : R (BitVec 64 × State)) = .ok (BitVec.ofNat 64 b.addr, s') ∧ Inv lo hi ch s' l' ∧ s'.mem = s.mem := by
        intro q hq hfit
        have hqp := hq.pend
        refine ⟨_, _, if_pos ⟨trivial, by omega⟩, rfl, ?_, rfl⟩
        exact {
          pages := setCur_ok hq (by rw [hsum]; omega) (by rw [hsum]; exact hfit)
          small := h.small
          head := hsum
          id := h.id
          laid := laid_cons (laid_tail h.laid) _ (fun c hc => (List.pairwise_cons.mp (up_of_up8 h.up)).1 c hc) hin.1 (by change b.addr + n ≤ hi; omega) (h.laid.aligned b (by simp))
          up := List.pairwise_cons.mpr ⟨(List.pairwise_cons.mp h.up).1, (List.pairwise_cons.mp h.up).2⟩
          hdrs := ⟨h1, h2, h3, h4⟩ }
      by_cases c : BitVec.ofNat 64 n > s.pages.cur - BitVec.ofNat 64 b.addr
      · rw [if_pos c]
        have c' : b.size < n := by
          have : s.pages.cur - BitVec.ofNat 64 b.addr < BitVec.ofNat 64 n := c
          rw [BitVec.lt_def, hold, hnt] at this
          exact this
        have ed : (BitVec.ofNat 64 n - (s.pages.cur - BitVec.ofNat 64 b.addr)).toNat = n - b.size := by
          rw [BitVec.toNat_sub_of_le (by rw [BitVec.le_def, hold, hnt]; omega), hold, hnt]
        rcases grow_ok h.pages (n := BitVec.ofNat 64 n - (s.pages.cur - BitVec.ofNat 64 b.addr)) (by rw [ed]; omega) with ⟨q, eg, hq, hqc, hq1, hq2⟩ | ⟨eg, hg1, hg2⟩
        · right
          rw [eg, R.ok_bind]
          rw [ed] at hq2
          exact rest q hq (by omega)
        · left
          rw [ed] at hg1 hg2
          rw [eg, R.error_bind]
          exact ⟨rfl, Or.inr ⟨by omega, hg2⟩⟩
      · right
        rw [if_neg c, R.ok_bind]
        have c' : n ≤ b.size := by
          have : ¬ s.pages.cur - BitVec.ofNat 64 b.addr < BitVec.ofNat 64 n := c
          rw [BitVec.lt_def, hold, hnt] at this
          omega
        exact rest s.pages h.pages (by omega)
    · left
      have hne : b.addr ≠ d.addr := by
        have := (List.pairwise_cons.mp h.up).1 b hb'
        omega
      obtain ⟨k, k1, k2, k3⟩ := hdrs_id h.hdrs.2.2.2 b hb'
      rw [ccAssert_false (decide_eq_false ?_), R.error_bind]
      · refine ⟨rfl, Or.inl (fun e => hne ?_)⟩
        injection e with e
        rw [e]
      · rw [k3, h.id, hl]
        intro e
        have := ofNat32_inj (by omega) (by omega) e
        omega

theorem step_realloc (s : State) (ptr n align : Nat) :
    step s (.realloc ptr n align) = (realloc s (BitVec.ofNat 64 ptr) (BitVec.ofNat 64 n) (BitVec.ofNat 64 align) >>= fun r => .ok (some r.1, r.2)) := rfl

theorem step_ok {lo hi ch : Nat} {s : State} {l : List Block} (h : Inv lo hi ch s l) {op : Op} (hop : Spec.OpOk l op) :
    step s op = .error .assert ∨
    ∃ r l' s', Spec.step lo hi l op = .ok (r, l') ∧ step s op = .ok (asPtr r, s') ∧ Inv lo hi ch s' l' ∧
      ∀ b ∈ l, ∀ x, b.addr ≤ x → x < b.addr + b.size → (∀ v, op ≠ .write x v) → s'.mem x = s.mem x := by
  have hbelow : ∀ b ∈ l, ∀ x, x < b.addr + b.size → x < top lo l := fun b hb x hx => by
    have := up_top h.laid (up_of_up8 h.up) b hb
    omega
  cases op with
  | alloc size align =>
    obtain ⟨_, ha, ha2⟩ := hop.2 _ rfl
    rcases alloc_ok h hop.1 ha ha2 with ⟨e2, _⟩ | ⟨p, l', s', e1, e2, h', hm⟩
    · left
      change (alloc s _ _ >>= _) = _
      rw [e2]
      rfl
    · right
      refine ⟨some p, l', s', ?_, ?_, h', fun b hb x _ hx _ => hm x (hbelow b hb x hx)⟩
      · change (Stack.Spec.alloc lo hi l size align).map _ = _
        rw [e1]; rfl
      · change (alloc s _ _ >>= _) = _
        rw [e2]; rfl
  | free ptr =>
    rcases free_ok h (hop.2 _ rfl) with ⟨_, e2⟩ | ⟨l', s', e1, e2, h', hm⟩
    · left
      change (free s _ >>= _) = _
      rw [e2]
      rfl
    · right
      refine ⟨none, l', s', ?_, ?_, h', fun b hb x _ hx _ => by rw [hm]⟩
      · change (Stack.Spec.free l ptr).map _ = _
        rw [e1]; rfl
      · change (free s _ >>= _) = _
        rw [e2]; rfl
  | realloc ptr n align =>
    obtain ⟨hp, _, ha, ha2⟩ := hop.2 _ rfl
    have hn : n ≤ 2 ^ 60 := hop.1
    have es : Spec.step lo hi l (.realloc ptr n align) = _ := Stack.sStep_realloc lo hi l ptr n align
    rw [es, step_realloc]
    by_cases e0 : n = 0
    · subst e0
      have er : realloc s (BitVec.ofNat 64 ptr) (BitVec.ofNat 64 0) (BitVec.ofNat 64 align) = (free s (BitVec.ofNat 64 ptr) >>= fun s => .ok (0#64, s)) := if_pos rfl
      rw [if_pos rfl, er]
      rcases free_ok h hp with ⟨_, e2⟩ | ⟨l', s', e1, e2, h', hm⟩
      · left
        rw [e2]
        rfl
      · right
        rw [e1, e2]
        exact ⟨some 0, l', s', rfl, rfl, h', fun b hb x _ hx _ => by rw [hm]⟩
    · rw [if_neg e0]
      have hn0' : BitVec.ofNat 64 n ≠ 0#64 := by
        intro e
        have := congrArg BitVec.toNat e
        rw [toNat_ofNat_lt (by omega)] at this
        exact e0 this
      rcases hp with rfl | ⟨b, hb, rfl⟩
      · have er : realloc s (BitVec.ofNat 64 0) (BitVec.ofNat 64 n) (BitVec.ofNat 64 align) = alloc s (BitVec.ofNat 64 n) (BitVec.ofNat 64 align) := by
          unfold realloc
          rw [if_neg hn0', if_pos rfl]
        rw [if_pos rfl, er]
        rcases alloc_ok h hn ha ha2 with ⟨e2, _⟩ | ⟨p, l', s', e1, e2, h', hm⟩
        · left
          rw [e2]
          rfl
        · right
          rw [e1, e2]
          exact ⟨some p, l', s', rfl, rfl, h', fun b hb x _ hx _ => hm x (hbelow b hb x hx)⟩
      · rw [if_neg (live_ptr h hb).2.2.1]
        rcases resize_ok h (align := align) hb hn e0 with ⟨e2, _⟩ | ⟨l', s', e1, e2, h', hm⟩
        · left
          rw [e2]
          rfl
        · right
          rw [e1, e2]
          exact ⟨some b.addr, l', s', rfl, rfl, h', fun b hb x _ hx _ => by rw [hm]⟩
  | reset =>
    refine Or.inr ⟨none, [], (reset s).2, rfl, rfl, ?_, fun _ _ _ _ _ _ => rfl⟩
    exact { pages := setCur_ok h.pages (by rw [h.pages.beg]; exact Nat.le_refl _) (by rw [h.pages.beg]; have := bounds h; omega), small := h.small, head := h.pages.beg, id := rfl,
            laid := { inside := fun _ hc => (by cases hc), aligned := fun _ hc => (by cases hc), apart := List.Pairwise.nil }, up := List.Pairwise.nil, hdrs := trivial }
  | decommit =>
    obtain ⟨r, q, e, hq, hc, _⟩ := decommitIdle_ok h.pages
    refine Or.inr ⟨none, l, { s with pages := q }, rfl, ?_, ?_, fun _ _ _ _ _ _ => rfl⟩
    · change (decommitIdle s.pages >>= fun r => .ok (none, { s with pages := r.2 })) = _
      rw [e, R.ok_bind]
      rfl
    · exact { pages := hq, small := h.small, head := by change q.cur.toNat = _; rw [hc]; exact h.head, id := h.id, laid := h.laid, up := h.up, hdrs := h.hdrs }
  | write a v =>
    obtain ⟨b, hb, h1, h2⟩ := hop.2 _ rfl
    have hbd := bounds h
    have hlow := hdrs_low h.hdrs b hb
    have := up_top h.laid (up_of_up8 h.up) b hb
    refine Or.inr ⟨none, l, { s with mem := fun x => if x = a then v else s.mem x }, rfl, if_pos (accessible_of h.pages (by omega) (by omega)), ?_, ?_⟩
    · exact { pages := h.pages, small := h.small, head := h.head, id := h.id, laid := h.laid, up := h.up,
              hdrs := hdrs_congr (fun c hc x hx1 hx2 => (if_neg (fun e : x = a => block_header_apart h.up hb hc h1 h2 (by rw [← e]; exact ⟨hx1, hx2⟩))).symm) h.hdrs }
    · intro c _ x _ _ hne
      exact if_neg (fun e => hne v (by rw [e]))

theorem run_ok : ∀ (ops : List Op) {lo hi ch : Nat} {s : State} {l : List Block}, Inv lo hi ch s l → Spec.Proper lo hi l ops →
    run s ops = .error .assert ∨
    ∃ rs l' s', Spec.run lo hi l ops = .ok (rs, l') ∧ run s ops = .ok (rs.map asPtr, s') ∧ Inv lo hi ch s' l'
  | [], _, _, _, s, l, h, _ => Or.inr ⟨[], l, s, rfl, rfl, h⟩
  | op :: ops, lo, hi, ch, s, l, h, hops => by
    unfold Spec.run run
    rcases step_ok h hops.1 with e2 | ⟨r, l1, s1, e1, e2, h1, _⟩
    · left
      rw [e2]
      rfl
    · rw [e1, e2, R.ok_bind, R.ok_bind]
      rcases run_ok ops h1 (hops.2 _ e1) with e4 | ⟨rs, l2, s2, e3, e4, h2⟩
      · left
        simp only [e4]
        rfl
      · right
        refine ⟨r :: rs, l2, s2, ?_, ?_, h2⟩
        · simp only [e3]; rfl
        · simp only [e4]; rfl

theorem init_ok {addr maxSize chunk : Nat} (h : Params addr maxSize chunk) (hs : maxSize < 2 ^ 34) (mem : Mem) :
    ∃ s, init (BitVec.ofNat 64 addr) (BitVec.ofNat 64 maxSize) (BitVec.ofNat 64 chunk) mem = .ok s ∧ Inv addr (addr + maxSize) chunk s [] := by
  obtain ⟨p, e, hp, hc⟩ := Pages.init_ok h
  refine ⟨{ pages := p, id := 0, mem := mem }, ?_,
    { pages := hp, small := by omega, head := hc, id := rfl, laid := { inside := fun _ hc => (by cases hc), aligned := fun _ hc => (by cases hc), apart := List.Pairwise.nil },
      up := List.Pairwise.nil, hdrs := trivial }⟩
  unfold init
  rw [e, R.ok_bind]

/-! ### Theorems -/

/-- Memory that can be used: in the reserved range and committed. -/
def Usable (addr maxSize : Nat) (p : Pages) (x : Nat) : Prop := addr ≤ x ∧ x < addr + maxSize ∧ p.rw (x / 4096) = true

/-- A state that some history leads to, and its live blocks. -/
def Reach (addr maxSize chunk : Nat) (s : State) (l : List Block) : Prop :=
  Params addr maxSize chunk ∧ maxSize < 2 ^ 34 ∧
  ∃ mem s0 ops rs, init (BitVec.ofNat 64 addr) (BitVec.ofNat 64 maxSize) (BitVec.ofNat 64 chunk) mem = .ok s0 ∧ Spec.Proper addr (addr + maxSize) [] ops ∧
    Spec.run addr (addr + maxSize) [] ops = .ok (rs, l) ∧ (run s0 ops).map (·.2) = .ok s

theorem reach_inv {addr maxSize chunk : Nat} {s : State} {l : List Block} (h : Reach addr maxSize chunk s l) : Inv addr (addr + maxSize) chunk s l := by
  obtain ⟨hp, hs, mem, s0, ops, rs, e0, hpr, e, es⟩ := h
  obtain ⟨s1, e1, h1⟩ := init_ok hp hs mem
  rw [e0] at e1
  injection e1 with e1
  subst e1
  rcases run_ok ops h1 hpr with e2 | ⟨rs', l', s', e1, e2, hi⟩
  · rw [e2] at es
    cases es
  · rw [e] at e1
    injection e1 with e1
    have el : l = l' := congrArg Prod.snd e1
    rw [e2] at es
    injection es with es
    rw [el, ← es]
    exact hi

theorem usable_of {addr maxSize chunk : Nat} {s : State} {l : List Block} (h : Inv addr (addr + maxSize) chunk s l) {b : Block} (hb : b ∈ l) {x : Nat} (h1 : b.addr - 8 ≤ x) (h2 : x < b.addr + b.size) :
    Usable addr maxSize s.pages x := by
  have hl := hdrs_low h.hdrs b hb
  have hu := up_top h.laid (up_of_up8 h.up) b hb
  have hbd := bounds h
  refine ⟨by omega, by omega, ?_⟩
  have := accessible_of h.pages (a := x) (n := 1) (by omega) (by omega)
  unfold accessible at this
  simpa using this

/-- All histories (chunk size at least a page, reserved range below 16 GiB, alignments up to 2^31): no access faults - not of the allocator, not of clients writing to live blocks - and nothing but an assertion fails.
A history that succeeds returns the pointers of a stack allocator over the whole reserved range; all live blocks are inside, aligned and disjoint, also with their headers, and all these bytes are committed. -/
theorem C37_stack_partial (addr maxSize chunk : Nat) (h : Params addr maxSize chunk) (hs : maxSize < 2 ^ 34) (mem : Mem) :
    ∃ s0, init (BitVec.ofNat 64 addr) (BitVec.ofNat 64 maxSize) (BitVec.ofNat 64 chunk) mem = .ok s0 ∧ ∀ ops, Spec.Proper addr (addr + maxSize) [] ops →
      run s0 ops = .error .assert ∨
      ∃ rs l s, Spec.run addr (addr + maxSize) [] ops = .ok (rs, l) ∧ run s0 ops = .ok (rs.map asPtr, s) ∧ Laid addr (addr + maxSize) l ∧ Laid addr (addr + maxSize) (l.map Stack.Spec.withHeader) ∧
        ∀ b ∈ l, ∀ x, b.addr - 8 ≤ x → x < b.addr + b.size → Usable addr maxSize s.pages x := by
  obtain ⟨s0, e0, h0⟩ := init_ok h hs mem
  refine ⟨s0, e0, fun ops hp => ?_⟩
  rcases run_ok ops h0 hp with e | ⟨rs, l, s, e1, e2, hi⟩
  · exact Or.inl e
  · refine Or.inr ⟨rs, l, s, e1, e2, hi.laid, ?_, fun b hb x h1 h2 => usable_of hi hb h1 h2⟩
    exact {
      inside := fun b hb => by
        obtain ⟨c, hc, rfl⟩ := List.mem_map.mp hb
        have := hdrs_low hi.hdrs c hc
        have := hi.laid.inside c hc
        change addr ≤ c.addr - 8 ∧ c.addr - 8 + (c.size + 8) ≤ _
        omega
      aligned := fun b hb => by
        obtain ⟨c, hc, rfl⟩ := List.mem_map.mp hb
        exact Nat.one_dvd _
      apart := by
        rw [List.pairwise_map]
        refine List.Pairwise.imp_of_mem ?_ hi.up
        intro b c hb hc hbc
        have := hdrs_low hi.hdrs c hc
        have := hdrs_low hi.hdrs b hb
        exact Or.inr (by change c.addr - 8 + (c.size + 8) ≤ b.addr - 8; omega) }

/-- In every reachable state: `alloc` succeeds unless committed memory does not suffice and the whole requirement, rounded up to chunks, does not fit behind it. `free` of the newest block always succeeds.
`realloc` of the newest block to a smaller size always succeeds, to a larger one under the condition for `alloc`. Neither is possible with other live blocks. `is_latest_allocation` tells which block that is. -/
theorem C37_stack_calls_partial {addr maxSize chunk : Nat} {s : State} {l : List Block} (h : Reach addr maxSize chunk s l) :
    (∀ size align, size ≤ 2 ^ 60 → IsPowerOfTwo align → align ≤ 2 ^ 31 →
      (∃ s', alloc s (BitVec.ofNat 64 size) (BitVec.ofNat 64 align) = .ok (BitVec.ofNat 64 (alignUpN (top addr l + 8) align), s')) ∨
      (alloc s (BitVec.ofNat 64 size) (BitVec.ofNat 64 align) = .error .assert ∧ s.pages.pend.toNat < alignUpN (top addr l + 8) align + size ∧
        addr + maxSize < s.pages.pend.toNat + alignUpN (alignUpN (top addr l + 8) align + size - top addr l) chunk)) ∧
    (∀ b ∈ l, isLatest s (BitVec.ofNat 64 b.addr) = .ok (decide (l.head? = some b))) ∧
    (∀ b ∈ l, l.head? = some b → ∃ s', free s (BitVec.ofNat 64 b.addr) = .ok s' ∧ s'.pages.cur.toNat = top addr l.tail ∧ s'.pages.pend = s.pages.pend) ∧
    (∀ b ∈ l, l.head? ≠ some b → free s (BitVec.ofNat 64 b.addr) = .error .assert ∧
      ∀ n align, n ≤ 2 ^ 60 → realloc s (BitVec.ofNat 64 b.addr) (BitVec.ofNat 64 n) (BitVec.ofNat 64 align) = .error .assert) ∧
    (∀ b ∈ l, l.head? = some b → ∀ n align, 0 < n → n ≤ 2 ^ 60 →
      (∃ s', realloc s (BitVec.ofNat 64 b.addr) (BitVec.ofNat 64 n) (BitVec.ofNat 64 align) = .ok (BitVec.ofNat 64 b.addr, s') ∧ s'.mem = s.mem) ∨
      (realloc s (BitVec.ofNat 64 b.addr) (BitVec.ofNat 64 n) (BitVec.ofNat 64 align) = .error .assert ∧ s.pages.pend.toNat < b.addr + n ∧ addr + maxSize < s.pages.pend.toNat + alignUpN (n - b.size) chunk)) := by
  have hi := reach_inv h
  have hne : ∀ b ∈ l, l.head? ≠ some b → ∀ d m, l = d :: m → b.addr ≠ d.addr ∧ b ∈ m := by
    intro b hb hh d m e
    subst e
    rcases List.mem_cons.mp hb with e | hb'
    · subst e; exact absurd rfl hh
    · have := (List.pairwise_cons.mp hi.up).1 b hb'
      exact ⟨by omega, hb'⟩
  have hfree : ∀ b ∈ l, l.head? ≠ some b → free s (BitVec.ofNat 64 b.addr) = .error .assert := by
    intro b hb hh
    rcases free_ok hi (ptr := b.addr) (Or.inr ⟨b, hb, rfl⟩) with ⟨_, e⟩ | ⟨l', s', e, _⟩
    · exact e
    · unfold Stack.Spec.free at e
      rw [if_neg (live_ptr hi hb).2.2.1] at e
      cases l with
      | nil => cases hb
      | cons d m =>
        simp only [if_neg (hne b hb hh d m rfl).1] at e
        cases e
  refine ⟨?_, ?_, ?_, ?_, ?_⟩
  · intro size align h1 h2 h3
    rcases alloc_ok hi h1 h2 h3 with e | ⟨p, l', s', e1, e2, _⟩
    · exact Or.inr e
    · left
      refine ⟨s', ?_⟩
      unfold Stack.Spec.alloc at e1
      simp only at e1
      split at e1
      · injection e1 with e1
        have : alignUpN (top addr l + 8) align = p := congrArg Prod.fst e1
        rw [this]
        exact e2
      · cases e1
  · intro b hb
    obtain ⟨ht, hn, hz, hh⟩ := live_ptr hi hb
    have hlow := hdrs_low hi.hdrs b hb
    have hbd := bounds hi
    have hlen := length_lt hi
    have hl0 := hi.pages.lo0
    unfold isLatest
    rw [ccAssert_true (decide_eq_true hn), R.ok_bind, ccAssert_true (decide_eq_true ?_), R.ok_bind, ht, if_pos hh]
    · refine congrArg Except.ok ?_
      cases l with
      | nil => cases hb
      | cons d m =>
        by_cases e : d = b
        · rw [decide_eq_true (show (d :: m).head? = some b by rw [e]; rfl)]
          refine decide_eq_true ?_
          rw [← e, hi.hdrs.1, hi.id]
          rfl
        · have hnh : (d :: m).head? ≠ some b := fun e' => e (by injection e')
          rw [decide_eq_false hnh]
          obtain ⟨_, hm⟩ := hne b hb hnh d m rfl
          obtain ⟨k, k1, k2, k3⟩ := hdrs_id hi.hdrs.2.2.2 b hm
          refine decide_eq_false ?_
          have hl : (d :: m).length = m.length + 1 := rfl
          rw [hl] at hlen
          rw [k3, hi.id, hl]
          intro e
          have := ofNat32_inj (by omega) (by omega) e
          omega
    · refine ⟨?_, ?_⟩
      · change s.pages.vbegin < _
        rw [BitVec.lt_def, hi.pages.beg, ht]
        omega
      · intro e
        have := congrArg BitVec.toNat e
        change _ = 0 at this
        omega
  · intro b hb hh
    obtain ⟨ht, hn, hz, ha⟩ := live_ptr hi hb
    cases l with
    | nil => cases hb
    | cons d m =>
      injection hh with hh
      subst hh
      rcases free_ok hi (ptr := d.addr) (Or.inr ⟨d, by simp, rfl⟩) with ⟨e, _⟩ | ⟨l', s', e, e2, h', _⟩
      · unfold Stack.Spec.free at e
        rw [if_neg hz] at e
        simp only [if_true] at e
        cases e
      · unfold Stack.Spec.free at e
        rw [if_neg hz] at e
        simp only [if_true] at e
        injection e with e
        subst e
        refine ⟨s', e2, h'.head, ?_⟩
        unfold free at e2
        rw [if_neg hn, ht, if_pos ha] at e2
        obtain ⟨_, _, e3⟩ := R.bind_eq_ok.mp e2
        injection e3 with e3
        rw [← e3]
  · intro b hb hh
    refine ⟨hfree b hb hh, fun n align hn => ?_⟩
    by_cases e0 : n = 0
    · subst e0
      refine (if_pos rfl).trans ?_
      rw [hfree b hb hh, R.error_bind]
    · rcases resize_ok hi (b := b) (align := align) hb hn e0 with ⟨e, _⟩ | ⟨l', s', e, _⟩
      · exact e
      · unfold Stack.Spec.resize at e
        cases l with
        | nil => cases hb
        | cons d m =>
          simp only at e
          rw [if_neg (fun e => (hne b hb hh d m rfl).1 e.1)] at e
          cases e
  · intro b hb hh n align hn0 hn
    rcases resize_ok hi (b := b) (align := align) hb hn (by omega) with ⟨e, h1 | h1⟩ | ⟨l', s', e, e2, _, hm⟩
    · exact absurd hh h1
    · exact Or.inr ⟨e, h1⟩
    · exact Or.inl ⟨s', e2, hm⟩

/-- No call changes a byte of a live block. -/
theorem C37_stack_contents_partial {addr maxSize chunk : Nat} {s : State} {l : List Block} (h : Reach addr maxSize chunk s l) (op : Op) (hop : Spec.OpOk l op) (hw : ∀ a v, op ≠ .write a v)
    {r : Option (BitVec 64)} {s' : State} (e : step s op = .ok (r, s')) : ∀ b ∈ l, ∀ x, b.addr ≤ x → x < b.addr + b.size → s'.mem x = s.mem x := by
  rcases step_ok (reach_inv h) hop with e2 | ⟨r', l', s2, e1, e2, _, hm⟩
  · rw [e] at e2; cases e2
  · rw [e] at e2
    injection e2 with e2
    have e2 : s' = s2 := congrArg Prod.snd e2
    subst e2
    exact fun b hb x h1 h2 => hm b hb x h1 h2 (hw x)

/-- `decommit_idle_memory` returns the number of bytes that are no longer committed if the chunk size divides the address of the reserved range; all that stays committed is a range from the beginning on (which
contains the live blocks by the first theorem). `reset` returns the number of bytes up to the end of the newest block. -/
theorem C37_stack_decommit_partial {addr maxSize chunk : Nat} {s : State} {l : List Block} (h : Reach addr maxSize chunk s l) :
    (∃ r q, decommitIdle s.pages = .ok (r, q) ∧ q.cur = s.pages.cur ∧
      (∀ k, q.rw k = true ↔ addr ≤ 4096 * k ∧ 4096 * k < q.pend.toNat) ∧ (∀ k, s.pages.rw k = true ↔ addr ≤ 4096 * k ∧ 4096 * k < s.pages.pend.toNat) ∧
      (chunk ∣ addr → r.toNat + q.pend.toNat = s.pages.pend.toNat ∧ q.pend.toNat < top addr l + chunk)) ∧
    (reset s).1.toNat + addr = top addr l := by
  have hi := reach_inv h
  have hb := hi.pages.beg
  have hbd := bounds hi
  refine ⟨?_, ?_⟩
  · obtain ⟨r, q, e, hq, hc, hle, h1, h2⟩ := decommitIdle_ok hi.pages
    refine ⟨r, q, e, hc, hq.rw, hi.pages.rw, fun hd => ?_⟩
    obtain ⟨h3, h4⟩ := h1 (decommitIdle_le hi.pages hd)
    refine ⟨h3, ?_⟩
    rw [h4]
    have := alignUpN_le s.pages.cur.toNat chunk
    have := h.1.lo
    have := hi.head
    omega
  · change (s.pages.cur - s.pages.vbegin).toNat + addr = _
    have := hi.head
    rw [BitVec.toNat_sub_of_le (by rw [BitVec.le_def, hb]; omega), hb]
    omega

/-! ### Where it fails -/

/-- `decommit_idle_memory` with chunks below the page size faults the newest block here too. -/
theorem C37_stack_small_chunk_faults :
    (init 0x10000#64 0x10000#64 1024#64 (fun _ => 0) >>= fun s => (run s [.alloc 3000 8, .realloc 0x10008 100 8, .write 0x10008 1#8]).map (·.1)) = .ok [some 0x10008#64, some 0x10008#64, none] ∧
    (init 0x10000#64 0x10000#64 1024#64 (fun _ => 0) >>= fun s => (run s [.alloc 3000 8, .realloc 0x10008 100 8, .write 0x10008 1#8, .decommit, .write 0x10008 1#8]).map (·.1)) = .error .ub := by
  constructor <;> decide +kernel

/-- Pointers behind the committed memory pass the check of `is_latest_allocation`; the access faults. -/
theorem C37_is_latest_unchecked :
    (init 0x10000#64 0x100000#64 65536#64 (fun _ => 0) >>= fun s => (run s [.alloc 8 8]) >>= fun r => isLatest r.2 0x20008#64) = .error .ub := by
  decide +kernel

/-! ### Examples -/

def demo : List Op := [.alloc 100 16, .write 0x10012 7#8, .alloc 70000 4096, .realloc 0x11000 200 8, .decommit, .write 0x110c7 3#8, .realloc 0x11000 80000 8, .write 0x24800 3#8, .free 0x11000, .decommit, .alloc 5 1]

example : (init 0x10000#64 0x100000#64 65536#64 (fun _ => 0) >>= fun s => (run s demo).map (fun r => (r.1, r.2.pages.pend))) =
    .ok ([some 0x10010#64, none, some 0x11000#64, some 0x11000#64, none, none, some 0x11000#64, none, none, none, some 0x1007c#64], 0x20000#64) := by decide +kernel

/-- Checks the rules for a step. -/
def opOkB (l : List Block) : Op → Bool
  | .alloc size align => decide (size ≤ 2 ^ 60) && (List.range 32).any (fun k => decide (align = 2 ^ k))
  | .free ptr => decide (ptr = 0) || l.any (fun b => decide (b.addr = ptr))
  | .realloc ptr n align => (decide (ptr = 0) || l.any (fun b => decide (b.addr = ptr))) && (decide (n ≤ 2 ^ 60) && (List.range 32).any (fun k => decide (align = 2 ^ k)))
  | .write x _ => l.any (fun b => decide (b.addr ≤ x) && decide (x < b.addr + b.size))
  | _ => true

theorem reqB_sound {size align : Nat} (h : (decide (size ≤ 2 ^ 60) && (List.range 32).any (fun k => decide (align = 2 ^ k))) = true) : size ≤ 2 ^ 60 ∧ Small size ∧ IsPowerOfTwo align ∧ align ≤ 2 ^ 31 := by
  have h := Bool.and_eq_true_iff.mp h
  obtain ⟨k, hk, e⟩ := List.any_eq_true.mp h.2
  have e := of_decide_eq_true e
  have hk := List.mem_range.mp hk
  have h1 := of_decide_eq_true h.1
  refine ⟨h1, ?_, ⟨k, e⟩, by rw [e]; exact Nat.pow_le_pow_right (by decide) (by omega)⟩
  have : size ≤ 2 ^ 62 := by omega
  exact this

theorem ptrB_sound {l : List Block} {ptr : Nat} (h : (decide (ptr = 0) || l.any (fun b => decide (b.addr = ptr))) = true) : ptr = 0 ∨ ∃ b ∈ l, b.addr = ptr := by
  rcases Bool.or_eq_true_iff.mp h with h | h
  · exact Or.inl (of_decide_eq_true h)
  · obtain ⟨b, hb, e⟩ := List.any_eq_true.mp h
    exact Or.inr ⟨b, hb, of_decide_eq_true e⟩

theorem opOkB_sound {l : List Block} {op : Op} (h : opOkB l op = true) : Spec.OpOk l op := by
  cases op with
  | alloc size align => exact ⟨(reqB_sound h).1, fun o e => by injection e with e; subst e; exact (reqB_sound h).2⟩
  | free ptr => exact ⟨trivial, fun o e => by injection e with e; subst e; exact ptrB_sound h⟩
  | realloc ptr n align =>
    have h := Bool.and_eq_true_iff.mp h
    exact ⟨(reqB_sound h.2).1, fun o e => by injection e with e; subst e; exact ⟨ptrB_sound h.1, (reqB_sound h.2).2⟩⟩
  | reset => exact ⟨trivial, fun o e => by injection e with e; subst e; trivial⟩
  | decommit => exact ⟨trivial, fun o e => by cases e⟩
  | write x v =>
    refine ⟨trivial, fun o e => ?_⟩
    injection e with e
    subst e
    obtain ⟨b, hb, h⟩ := List.any_eq_true.mp h
    have h := Bool.and_eq_true_iff.mp h
    exact ⟨b, hb, of_decide_eq_true h.1, of_decide_eq_true h.2⟩

/-- Checks the rules for a history. -/
def properB (lo hi : Nat) (l : List Block) : List Op → Bool
  | [] => true
  | op :: ops => opOkB l op && match Spec.step lo hi l op with
    | .ok r => properB lo hi r.2 ops
    | .error _ => true

theorem properB_sound : ∀ {ops : List Op} {lo hi : Nat} {l : List Block}, properB lo hi l ops = true → Spec.Proper lo hi l ops
  | [], _, _, _, _ => trivial
  | op :: ops, lo, hi, l, h => by
    have h := Bool.and_eq_true_iff.mp h
    refine ⟨opOkB_sound h.1, fun r e => properB_sound ?_⟩
    have h2 := h.2
    rw [e] at h2
    exact h2

/-- The hypotheses hold for this history. -/
example : Spec.Proper 0x10000 (0x10000 + 0x100000) [] demo := properB_sound (by decide +kernel)

end Verif.Alloc.VStack
