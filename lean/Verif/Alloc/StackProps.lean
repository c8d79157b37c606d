import Verif.Alloc.StackLemmas

/-! C35: the stack allocator. -/
namespace Verif.Alloc.Stack
open Verif.Bits Verif.Alloc.Spec Verif.Alloc

/-- Newer blocks lie behind older ones, with room for a header. -/
def Up8 (l : List Block) : Prop := l.Pairwise (fun b c => c.addr + c.size + 8 ≤ b.addr)

/-- The headers in memory. -/
def Hdrs (lo : Nat) (m : Mem) : List Block → Prop
  | [] => True
  | b :: l => readHeader m (b.addr - 8) = { padding := BitVec.ofNat 32 (b.addr - top lo l), id := BitVec.ofNat 32 (l.length + 1) } ∧
      b.addr - top lo l < 2 ^ 32 ∧ top lo l + 8 ≤ b.addr ∧ Hdrs lo m l

/-- Allocator and live blocks belong together. -/
structure Inv (lo hi : Nat) (s : Stk) (l : List Block) : Prop where
  lo0 : 0 < lo
  lohi : lo ≤ hi
  hib : hi ≤ 2 ^ 62
  small : hi - lo < 2 ^ 34
  beg : s.bbegin.toNat = lo
  fin : s.bend.toNat = hi
  head : s.head.toNat = top lo l
  id : s.id = BitVec.ofNat 32 l.length
  laid : Laid lo hi l
  up : Up8 l
  hdrs : Hdrs lo s.mem l

theorem up_of_up8 {l : List Block} (h : Up8 l) : Up l := h.imp (fun hbc => by omega)

theorem hdrs_length {lo : Nat} {m : Mem} : ∀ {l : List Block}, Hdrs lo m l → lo + 8 * l.length ≤ top lo l
  | [], _ => Nat.le_refl _
  | b :: l, h => by
    have := hdrs_length h.2.2.2
    have := h.2.2.1
    change lo + 8 * (l.length + 1) ≤ b.addr + b.size
    omega

theorem hdrs_low {lo : Nat} {m : Mem} : ∀ {l : List Block}, Hdrs lo m l → ∀ b ∈ l, lo + 8 ≤ b.addr
  | [], _ => fun _ hb => by cases hb
  | b :: l, h => fun c hc => by
    rcases List.mem_cons.mp hc with hc | hc
    · subst hc
      have := hdrs_length h.2.2.2
      have := h.2.2.1
      omega
    · exact hdrs_low h.2.2.2 c hc

theorem hdrs_congr {lo : Nat} {m m' : Mem} : ∀ {l : List Block}, (∀ b ∈ l, ∀ x, b.addr - 8 ≤ x → x < b.addr → m x = m' x) → Hdrs lo m l → Hdrs lo m' l
  | [], _, _ => trivial
  | b :: l, e, h => by
    refine ⟨?_, h.2.1, h.2.2.1, hdrs_congr (fun c hc => e c (by simp [hc])) h.2.2.2⟩
    rw [← h.1]
    have := h.2.2.1
    exact readHeader_congr (fun x h1 h2 => (e b (by simp) x h1 (by omega)).symm)

/-- The number in the header of a block that is not the newest. -/
theorem hdrs_id {lo : Nat} {m : Mem} : ∀ {l : List Block}, Hdrs lo m l → ∀ c ∈ l, ∃ k, 0 < k ∧ k ≤ l.length ∧ (readHeader m (c.addr - 8)).id = BitVec.ofNat 32 k
  | [], _ => fun _ hc => by cases hc
  | b :: l, h => fun c hc => by
    rcases List.mem_cons.mp hc with hc | hc
    · subst hc
      exact ⟨l.length + 1, by omega, Nat.le_refl _, by rw [h.1]⟩
    · obtain ⟨k, h1, h2, h3⟩ := hdrs_id h.2.2.2 c hc
      exact ⟨k, h1, by simp only [List.length_cons]; omega, h3⟩

/-- No byte of a block belongs to a header. -/
theorem block_header_apart {l : List Block} (h : Up8 l) {b c : Block} (hb : b ∈ l) (hc : c ∈ l) {x : Nat} (h1 : b.addr ≤ x) (h2 : x < b.addr + b.size) :
    ¬ (c.addr - 8 ≤ x ∧ x < c.addr) := by
  induction l with
  | nil => cases hb
  | cons d l ih =>
    obtain ⟨hd, hl⟩ := List.pairwise_cons.mp h
    rcases List.mem_cons.mp hb with eb | hb
    · rcases List.mem_cons.mp hc with ec | hc
      · subst eb; subst ec; omega
      · have := hd c hc
        rw [← eb] at this
        omega
    · rcases List.mem_cons.mp hc with ec | hc
      · have := hd b hb
        rw [← ec] at this
        omega
      · exact ih hl hb hc

theorem headers_laid {lo hi : Nat} {s : Stk} {l : List Block} (h : Inv lo hi s l) : Laid lo hi (l.map Spec.withHeader) where
  inside := fun b hb => by
    obtain ⟨c, hc, rfl⟩ := List.mem_map.mp hb
    have := hdrs_low h.hdrs c hc
    have := h.laid.inside c hc
    change lo ≤ c.addr - 8 ∧ c.addr - 8 + (c.size + 8) ≤ hi
    omega
  aligned := fun b hb => by
    obtain ⟨c, hc, rfl⟩ := List.mem_map.mp hb
    exact Nat.one_dvd _
  apart := by
    rw [List.pairwise_map]
    refine List.Pairwise.imp_of_mem ?_ h.up
    intro b c hb hc hbc
    have := hdrs_low h.hdrs c hc
    have := hdrs_low h.hdrs b hb
    exact Or.inr (by change c.addr - 8 + (c.size + 8) ≤ b.addr - 8; omega)

theorem length_lt {lo hi : Nat} {s : Stk} {l : List Block} (h : Inv lo hi s l) : 8 * l.length ≤ top lo l - lo ∧ l.length < 2 ^ 31 := by
  have h1 := hdrs_length h.hdrs
  have h2 := top_le h.laid h.lohi
  have h3 := h.small
  omega

theorem ofNat32_inj {a b : Nat} (ha : a < 2 ^ 32) (hb : b < 2 ^ 32) (h : BitVec.ofNat 32 a = BitVec.ofNat 32 b) : a = b := by
  have := congrArg BitVec.toNat h
  rw [BitVec.toNat_ofNat, BitVec.toNat_ofNat, Nat.mod_eq_of_lt ha, Nat.mod_eq_of_lt hb] at this
  exact this

/-- `alloc` does what the specification says, and touches no live block. -/
theorem alloc_ok {lo hi : Nat} {s : Stk} {l : List Block} (h : Inv lo hi s l) {size align : Nat} (hs : Small size) (ha : IsPowerOfTwo align) (ha2 : align ≤ 2 ^ 31) :
    (Spec.alloc lo hi l size align = .error .assert ∧ alloc s (BitVec.ofNat 64 size) (BitVec.ofNat 64 align) = .error .assert) ∨
    ∃ p l' s', Spec.alloc lo hi l size align = .ok (p, l') ∧ alloc s (BitVec.ofNat 64 size) (BitVec.ofNat 64 align) = .ok (BitVec.ofNat 64 p, s') ∧ Inv lo hi s' l' ∧
      (∀ x, x < top lo l → s'.mem x = s.mem x) := by
  have hs : size ≤ 2 ^ 62 := hs
  have hpos := pow2_pos ha
  have hst : (BitVec.ofNat 64 size).toNat = size := toNat_ofNat_lt (by omega)
  have hat : (BitVec.ofNat 64 align).toNat = align := toNat_ofNat_lt (by omega)
  have htop := top_le h.laid h.lohi
  have hhib := h.hib
  obtain ⟨p, ep, hp⟩ := alignUpWithHeader_ok (head := s.head) (align := BitVec.ofNat 64 align) (hs := 8#64) (by rw [hat]; exact ha)
    (by rw [hat, h.head]; change top lo l + align + 8 < _; omega)
  rw [hat, h.head] at hp
  change p.toNat = alignUpN (top lo l + 8) align at hp
  have hle := alignUpN_le (top lo l + 8) align
  have hge := alignUpN_ge (top lo l + 8) align hpos
  have hdv := alignUpN_dvd (top lo l + 8) align
  have hsum : (p + BitVec.ofNat 64 size).toNat = p.toNat + size := by
    rw [toNat_add_lt (by rw [hst]; omega), hst]
  have h0 : s.bbegin ≠ 0#64 := by
    intro e
    have h1 := h.beg
    have h2 := h.lo0
    rw [e] at h1
    change 0 = lo at h1
    omega
  unfold Spec.alloc alloc
  simp only
  rw [ccAssert_true (decide_eq_true h0), R.ok_bind, ep, R.ok_bind, ← hp]
  rw [← hp] at hle hge hdv
  by_cases hfit : p.toNat + size ≤ hi
  · right
    have hlen := length_lt h
    have hsm := h.small
    have hidn : s.id ≠ 0x7fffffff#32 := by
      rw [h.id]
      intro e
      have := ofNat32_inj (b := 0x7fffffff) (by omega) (by decide) e
      omega
    have hhas : s.hasHeader p := ⟨by rw [h.beg]; omega, by rw [h.fin]; omega⟩
    have hid : s.id + 1 = BitVec.ofNat 32 (l.length + 1) := by
      rw [h.id]
      apply BitVec.eq_of_toNat_eq
      rw [BitVec.toNat_add, BitVec.toNat_ofNat, BitVec.toNat_ofNat, Nat.mod_eq_of_lt (show l.length < 2 ^ 32 by omega)]
      rfl
    have hpad : (p - s.head).setWidth 32 = BitVec.ofNat 32 (p.toNat - top lo l) := by
      apply BitVec.eq_of_toNat_eq
      rw [BitVec.toNat_setWidth, BitVec.toNat_sub_of_le (by rw [BitVec.le_def, h.head]; omega), h.head, BitVec.toNat_ofNat]
    rw [if_pos hfit, ccAssert_true (decide_eq_true (by rw [BitVec.le_def, hsum, h.fin]; exact hfit)), R.ok_bind, if_neg (by rintro (e | e); exact hidn e; exact e hhas)]
    refine ⟨_, _, _, rfl, congrArg Except.ok (Prod.ext (BitVec.eq_of_toNat_eq (by rw [toNat_ofNat_lt (by omega)])) rfl), ?_, ?_⟩
    · exact {
        lo0 := h.lo0
        lohi := h.lohi
        hib := h.hib
        small := h.small
        beg := h.beg
        fin := h.fin
        head := hsum
        id := hid
        laid := laid_cons h.laid _ (fun c hc => by have := up_top h.laid (up_of_up8 h.up) c hc; change _ ≤ p.toNat; omega) (by change lo ≤ p.toNat; omega) hfit hdv
        up := List.pairwise_cons.mpr ⟨fun c hc => by have := up_top h.laid (up_of_up8 h.up) c hc; change _ ≤ p.toNat; omega, h.up⟩
        hdrs := by
          refine ⟨?_, by change p.toNat - top lo l < _; omega, hge, ?_⟩
          · change readHeader (writeHeader s.mem (p.toNat - 8) _) (p.toNat - 8) = _
            rw [readHeader_write, hpad, hid]
          · refine hdrs_congr (fun c hc x hx1 hx2 => ?_) h.hdrs
            have := up_top h.laid (up_of_up8 h.up) c hc
            exact (writeHeader_out (by omega)).symm }
    · intro x hx
      exact writeHeader_out (by omega)
  · left
    rw [if_neg hfit, ccAssert_false (decide_eq_false (by rw [BitVec.le_def, hsum, h.fin]; exact hfit)), R.error_bind]
    exact ⟨rfl, rfl⟩

theorem live_ptr {lo hi : Nat} {s : Stk} {l : List Block} (h : Inv lo hi s l) {b : Block} (hb : b ∈ l) :
    (BitVec.ofNat 64 b.addr).toNat = b.addr ∧ BitVec.ofNat 64 b.addr ≠ 0#64 ∧ b.addr ≠ 0 ∧ s.hasHeader (BitVec.ofNat 64 b.addr) := by
  have h1 := hdrs_low h.hdrs b hb
  have h2 := h.laid.inside b hb
  have h3 := h.hib
  have h4 : (BitVec.ofNat 64 b.addr).toNat = b.addr := toNat_ofNat_lt (by omega)
  refine ⟨h4, fun e => ?_, by omega, ?_, ?_⟩
  · have := congrArg BitVec.toNat e
    rw [h4] at this
    change b.addr = 0 at this
    omega
  · rw [h4, h.beg]; exact h1
  · rw [h4, h.fin]; omega

/-- `free` does what the specification says. -/
theorem free_ok {lo hi : Nat} {s : Stk} {l : List Block} (h : Inv lo hi s l) {ptr : Nat} (hp : ptr = 0 ∨ ∃ b ∈ l, b.addr = ptr) :
    (Spec.free l ptr = .error .assert ∧ free s (BitVec.ofNat 64 ptr) = .error .assert) ∨
    ∃ l' s', Spec.free l ptr = .ok l' ∧ free s (BitVec.ofNat 64 ptr) = .ok s' ∧ Inv lo hi s' l' ∧ s'.mem = s.mem := by
  rcases hp with rfl | ⟨b, hb, rfl⟩
  · exact Or.inr ⟨l, s, rfl, rfl, h, rfl⟩
  · obtain ⟨ht, hn, hz, hh⟩ := live_ptr h hb
    have hlen := length_lt h
    unfold free Spec.free
    rw [if_neg hz, if_neg hn, if_neg (fun e => e hh), ht]
    cases l with
    | nil => cases hb
    | cons d l =>
      simp only
      rcases List.mem_cons.mp hb with e | hb'
      · subst e
        right
        obtain ⟨h1, h2, h3, h4⟩ := h.hdrs
        have hin := h.laid.inside b (by simp)
        have hhib := h.hib
        rw [h1, if_pos rfl]
        simp only
        rw [ccAssert_true (decide_eq_true (show BitVec.ofNat 32 (l.length + 1) = s.id from h.id.symm)), R.ok_bind]
        refine ⟨l, _, rfl, rfl, ?_, rfl⟩
        have hlaid := laid_tail h.laid
        exact {
          lo0 := h.lo0
          lohi := h.lohi
          hib := h.hib
          small := h.small
          beg := h.beg
          fin := h.fin
          head := by
            change (BitVec.ofNat 64 b.addr - (BitVec.ofNat 32 (b.addr - top lo l)).setWidth 64).toNat = top lo l
            have hw : ((BitVec.ofNat 32 (b.addr - top lo l)).setWidth 64).toNat = b.addr - top lo l := by
              rw [BitVec.toNat_setWidth, BitVec.toNat_ofNat, Nat.mod_eq_of_lt h2, Nat.mod_eq_of_lt (by omega)]
            rw [BitVec.toNat_sub_of_le (by rw [BitVec.le_def, hw, ht]; omega), hw, ht]
            omega
          id := by
            change s.id - 1 = _
            rw [h.id]
            have hl : (b :: l).length = l.length + 1 := rfl
            rw [hl]
            apply BitVec.eq_of_toNat_eq
            rw [hl] at hlen
            rw [BitVec.toNat_sub_of_le (by rw [BitVec.le_def, BitVec.toNat_ofNat, Nat.mod_eq_of_lt (by omega)]; change 1 ≤ _; omega), BitVec.toNat_ofNat, BitVec.toNat_ofNat,
              Nat.mod_eq_of_lt (by omega), Nat.mod_eq_of_lt (by omega)]
            change l.length + 1 - 1 = _
            omega
          laid := hlaid
          up := (List.pairwise_cons.mp h.up).2
          hdrs := h4 }
      · left
        have hne : b.addr ≠ d.addr := by
          have := (List.pairwise_cons.mp h.up).1 b hb'
          omega
        obtain ⟨k, k1, k2, k3⟩ := hdrs_id h.hdrs.2.2.2 b hb'
        have hl : (d :: l).length = l.length + 1 := rfl
        rw [hl] at hlen
        rw [if_neg hne, ccAssert_false (decide_eq_false ?_), R.error_bind]
        · exact ⟨rfl, rfl⟩
        · rw [k3, h.id, hl]
          intro e
          have := ofNat32_inj (by omega) (by omega) e
          omega

/-- Resizing does what the specification says. -/
theorem resize_ok {lo hi : Nat} {s : Stk} {l : List Block} (h : Inv lo hi s l) {b : Block} {n align : Nat} (hb : b ∈ l) (hn : Small n) (hn0 : n ≠ 0) :
    (Spec.resize hi l b.addr n = .error .assert ∧ realloc s (BitVec.ofNat 64 b.addr) (BitVec.ofNat 64 n) (BitVec.ofNat 64 align) = .error .assert) ∨
    ∃ l' s', Spec.resize hi l b.addr n = .ok (b.addr, l') ∧ realloc s (BitVec.ofNat 64 b.addr) (BitVec.ofNat 64 n) (BitVec.ofNat 64 align) = .ok (BitVec.ofNat 64 b.addr, s') ∧
      Inv lo hi s' l' ∧ s'.mem = s.mem := by
  have hn : n ≤ 2 ^ 62 := hn
  obtain ⟨ht, hnz, hz, hh⟩ := live_ptr h hb
  have hlen := length_lt h
  have hhib := h.hib
  have hnt : (BitVec.ofNat 64 n).toNat = n := toNat_ofNat_lt (by omega)
  have hn0' : BitVec.ofNat 64 n ≠ 0#64 := by
    intro e
    have := congrArg BitVec.toNat e
    rw [hnt] at this
    exact hn0 this
  have hin := h.laid.inside b hb
  have hsum : (BitVec.ofNat 64 b.addr + BitVec.ofNat 64 n).toNat = b.addr + n := by
    rw [toNat_add_lt (by rw [ht, hnt]; omega), ht, hnt]
  unfold realloc Spec.resize
  rw [if_neg hn0', if_neg hnz, if_neg (fun e => e hh), ht]
  cases l with
  | nil => cases hb
  | cons d l =>
    simp only
    have hl : (d :: l).length = l.length + 1 := rfl
    rw [hl] at hlen
    rcases List.mem_cons.mp hb with e | hb'
    · subst e
      obtain ⟨h1, h2, h3, h4⟩ := h.hdrs
      rw [h1]
      simp only
      rw [ccAssert_true (decide_eq_true (show BitVec.ofNat 32 (l.length + 1) = s.id from h.id.symm)), R.ok_bind]
      by_cases hfit : b.addr + n ≤ hi
      · right
        rw [ccAssert_true (decide_eq_true (by rw [BitVec.le_def, hsum, h.fin]; exact hfit)), R.ok_bind]
        refine ⟨_, _, if_pos ⟨trivial, hfit⟩, rfl, ?_, rfl⟩
        exact {
          lo0 := h.lo0
          lohi := h.lohi
          hib := h.hib
          small := h.small
          beg := h.beg
          fin := h.fin
          head := hsum
          id := h.id
          laid := laid_cons (laid_tail h.laid) _ (fun c hc => (List.pairwise_cons.mp (up_of_up8 h.up)).1 c hc) hin.1 hfit (h.laid.aligned b (by simp))
          up := List.pairwise_cons.mpr ⟨(List.pairwise_cons.mp h.up).1, (List.pairwise_cons.mp h.up).2⟩
          hdrs := ⟨h1, h2, h3, h4⟩ }
      · left
        rw [ccAssert_false (decide_eq_false (by rw [BitVec.le_def, hsum, h.fin]; exact hfit)), R.error_bind]
        exact ⟨if_neg (fun e => hfit e.2), rfl⟩
    · left
      have hne : b.addr ≠ d.addr := by
        have := (List.pairwise_cons.mp h.up).1 b hb'
        omega
      obtain ⟨k, k1, k2, k3⟩ := hdrs_id h.hdrs.2.2.2 b hb'
      rw [if_neg (fun e => hne e.1), ccAssert_false (decide_eq_false ?_), R.error_bind]
      · exact ⟨rfl, rfl⟩
      · rw [k3, h.id, hl]
        intro e
        have := ofNat32_inj (by omega) (by omega) e
        omega

/-- A result as the client sees it. -/
def asPtr : Option Nat → Option (BitVec 64) := Option.map (BitVec.ofNat 64)

theorem sStep_realloc (lo hi : Nat) (l : List Block) (ptr n align : Nat) :
    Spec.step lo hi l (.realloc ptr n align) = if n = 0 then (Spec.free l ptr).map fun l => (some 0, l)
    else if ptr = 0 then (Spec.alloc lo hi l n align).map fun r => (some r.1, r.2)
    else (Spec.resize hi l ptr n).map fun r => (some r.1, r.2) := rfl
theorem step_realloc (s : Stk) (ptr n align : Nat) :
    step s (.realloc ptr n align) = (realloc s (BitVec.ofNat 64 ptr) (BitVec.ofNat 64 n) (BitVec.ofNat 64 align) >>= fun r => .ok (some r.1, r.2)) := rfl

theorem step_ok {lo hi : Nat} {s : Stk} {l : List Block} (h : Inv lo hi s l) {op : Op} (hop : Spec.OpOk l op) :
    (Spec.step lo hi l op = .error .assert ∧ step s op = .error .assert) ∨
    ∃ r l' s', Spec.step lo hi l op = .ok (r, l') ∧ step s op = .ok (asPtr r, s') ∧ Inv lo hi s' l' ∧
      ∀ b ∈ l, ∀ x, b.addr ≤ x → x < b.addr + b.size → (∀ v, op ≠ .write x v) → s'.mem x = s.mem x := by
  have hbelow : ∀ b ∈ l, ∀ x, x < b.addr + b.size → x < top lo l := fun b hb x hx => by
    have := up_top h.laid (up_of_up8 h.up) b hb
    omega
  cases op with
  | alloc size align =>
    rcases alloc_ok h hop.1 hop.2.1 hop.2.2 with ⟨e1, e2⟩ | ⟨p, l', s', e1, e2, h', hm⟩
    · left
      change (Spec.alloc lo hi l size align).map _ = _ ∧ (alloc s _ _ >>= _) = _
      rw [e1, e2]
      exact ⟨rfl, rfl⟩
    · right
      refine ⟨some p, l', s', ?_, ?_, h', fun b hb x _ hx _ => hm x (hbelow b hb x hx)⟩
      · change (Spec.alloc lo hi l size align).map _ = _
        rw [e1]; rfl
      · change (alloc s _ _ >>= _) = _
        rw [e2]; rfl
  | free ptr =>
    rcases free_ok h hop with ⟨e1, e2⟩ | ⟨l', s', e1, e2, h', hm⟩
    · left
      change (Spec.free l ptr).map _ = _ ∧ (free s _ >>= _) = _
      rw [e1, e2]
      exact ⟨rfl, rfl⟩
    · right
      refine ⟨none, l', s', ?_, ?_, h', fun b hb x _ hx _ => by rw [hm]⟩
      · change (Spec.free l ptr).map _ = _
        rw [e1]; rfl
      · change (free s _ >>= _) = _
        rw [e2]; rfl
  | realloc ptr n align =>
    obtain ⟨hp, hn, ha, ha2⟩ := hop
    have hn' : n ≤ 2 ^ 62 := hn
    rw [sStep_realloc, step_realloc]
    by_cases e0 : n = 0
    · subst e0
      have er : realloc s (BitVec.ofNat 64 ptr) (BitVec.ofNat 64 0) (BitVec.ofNat 64 align) = (free s (BitVec.ofNat 64 ptr) >>= fun s => .ok (0#64, s)) := if_pos rfl
      rw [if_pos rfl, er]
      rcases free_ok h hp with ⟨e1, e2⟩ | ⟨l', s', e1, e2, h', hm⟩
      · left
        rw [e1, e2]
        exact ⟨rfl, rfl⟩
      · right
        rw [e1, e2]
        exact ⟨some 0, l', s', rfl, rfl, h', fun b hb x _ hx _ => by rw [hm]⟩
    · rw [if_neg e0]
      have hn0' : BitVec.ofNat 64 n ≠ 0#64 := by
        intro e
        have := congrArg BitVec.toNat e
        rw [toNat_ofNat_lt (by omega)] at this
        exact e0 this
      rcases hp with rfl | ⟨b, hb, rfl⟩
      · have er : realloc s (BitVec.ofNat 64 0) (BitVec.ofNat 64 n) (BitVec.ofNat 64 align) = alloc s (BitVec.ofNat 64 n) (BitVec.ofNat 64 align) := by
          unfold realloc
          rw [if_neg hn0', if_pos rfl]
        rw [if_pos rfl, er]
        rcases alloc_ok h hn ha ha2 with ⟨e1, e2⟩ | ⟨p, l', s', e1, e2, h', hm⟩
        · left
          rw [e1, e2]
          exact ⟨rfl, rfl⟩
        · right
          rw [e1, e2]
          exact ⟨some p, l', s', rfl, rfl, h', fun b hb x _ hx _ => hm x (hbelow b hb x hx)⟩
      · rw [if_neg (live_ptr h hb).2.2.1]
        rcases resize_ok h (align := align) hb hn e0 with ⟨e1, e2⟩ | ⟨l', s', e1, e2, h', hm⟩
        · left
          rw [e1, e2]
          exact ⟨rfl, rfl⟩
        · right
          rw [e1, e2]
          exact ⟨some b.addr, l', s', rfl, rfl, h', fun b hb x _ hx _ => by rw [hm]⟩
  | reset =>
    refine Or.inr ⟨none, [], reset s, rfl, rfl, ?_, fun _ _ _ _ _ _ => rfl⟩
    exact { lo0 := h.lo0, lohi := h.lohi, hib := h.hib, small := h.small, beg := h.beg, fin := h.fin, head := h.beg, id := rfl,
            laid := { inside := fun _ hc => (by cases hc), aligned := fun _ hc => (by cases hc), apart := List.Pairwise.nil }, up := List.Pairwise.nil, hdrs := trivial }
  | write a v =>
    obtain ⟨b, hb, h1, h2⟩ := hop
    refine Or.inr ⟨none, l, { s with mem := fun x => if x = a then v else s.mem x }, rfl, rfl, ?_, ?_⟩
    · exact { lo0 := h.lo0, lohi := h.lohi, hib := h.hib, small := h.small, beg := h.beg, fin := h.fin, head := h.head, id := h.id, laid := h.laid, up := h.up,
              hdrs := hdrs_congr (fun c hc x hx1 hx2 => (if_neg (fun e : x = a => block_header_apart h.up hb hc h1 h2 (by rw [← e]; exact ⟨hx1, hx2⟩))).symm) h.hdrs }
    · intro c _ x _ _ hne
      exact if_neg (fun e => hne v (by rw [e]))

theorem run_ok : ∀ (ops : List Op) {lo hi : Nat} {s : Stk} {l : List Block}, Inv lo hi s l → Spec.Proper lo hi l ops →
    (Spec.run lo hi l ops = .error .assert ∧ run s ops = .error .assert) ∨
    ∃ rs l' s', Spec.run lo hi l ops = .ok (rs, l') ∧ run s ops = .ok (rs.map asPtr, s') ∧ Inv lo hi s' l'
  | [], _, _, s, l, h, _ => Or.inr ⟨[], l, s, rfl, rfl, h⟩
  | op :: ops, lo, hi, s, l, h, hops => by
    unfold Spec.run run
    rcases step_ok h hops.1 with ⟨e1, e2⟩ | ⟨r, l1, s1, e1, e2, h1, _⟩
    · left
      rw [e1, e2]
      exact ⟨rfl, rfl⟩
    · rw [e1, e2, R.ok_bind, R.ok_bind]
      rcases run_ok ops h1 (hops.2 _ e1) with ⟨e3, e4⟩ | ⟨rs, l2, s2, e3, e4, h2⟩
      · left
        simp only [e3, e4]
        exact ⟨rfl, rfl⟩
      · right
        refine ⟨r :: rs, l2, s2, ?_, ?_, h2⟩
        · simp only [e3]; rfl
        · simp only [e4]; rfl

theorem ctor_ok {data size : Nat} (h0 : 0 < data) (h1 : data + size ≤ 2 ^ 62) (h2 : size < 2 ^ 34) (mem : Mem) :
    Inv data (data + size) (ctor (BitVec.ofNat 64 data) (BitVec.ofNat 64 size) mem) [] where
  lo0 := h0
  lohi := by omega
  hib := h1
  small := by omega
  beg := toNat_ofNat_lt (by omega)
  fin := by
    have a : (BitVec.ofNat 64 data).toNat = data := toNat_ofNat_lt (by omega)
    have b : (BitVec.ofNat 64 size).toNat = size := toNat_ofNat_lt (by omega)
    change (BitVec.ofNat 64 data + BitVec.ofNat 64 size).toNat = _
    rw [toNat_add_lt (by rw [a, b]; omega), a, b]
  head := toNat_ofNat_lt (by omega)
  id := rfl
  laid := { inside := fun _ hc => (by cases hc), aligned := fun _ hc => (by cases hc), apart := List.Pairwise.nil }
  up := List.Pairwise.nil
  hdrs := trivial

/-- For all histories (buffers below 16 GiB, alignments up to 2^31, sizes up to 2^62): the allocator returns exactly the addresses of the specification and refuses exactly what the
specification refuses, whatever the clients write to their blocks; all live blocks are inside, aligned and disjoint, also when their headers are counted. -/
theorem C35_history_partial (data size : Nat) (h0 : 0 < data) (h1 : data + size ≤ 2 ^ 62) (h2 : size < 2 ^ 34) (mem : Mem) (ops : List Op)
    (hops : Spec.Proper data (data + size) [] ops) :
    (Spec.run data (data + size) [] ops = .error .assert ∧ run (ctor (BitVec.ofNat 64 data) (BitVec.ofNat 64 size) mem) ops = .error .assert) ∨
    ∃ rs l s, Spec.run data (data + size) [] ops = .ok (rs, l) ∧ run (ctor (BitVec.ofNat 64 data) (BitVec.ofNat 64 size) mem) ops = .ok (rs.map asPtr, s) ∧
      Laid data (data + size) l ∧ Laid data (data + size) (l.map Spec.withHeader) := by
  rcases run_ok ops (ctor_ok h0 h1 h2 mem) hops with h | ⟨rs, l, s, e1, e2, h⟩
  · exact Or.inl h
  · exact Or.inr ⟨rs, l, s, e1, e2, h.laid, headers_laid h⟩

/-- A state that a history leads to, and its live blocks. -/
def Reach (data size : Nat) (s : Stk) (l : List Block) : Prop :=
  0 < data ∧ data + size ≤ 2 ^ 62 ∧ size < 2 ^ 34 ∧
  ∃ mem ops rs, Spec.Proper data (data + size) [] ops ∧ Spec.run data (data + size) [] ops = .ok (rs, l) ∧
    (run (ctor (BitVec.ofNat 64 data) (BitVec.ofNat 64 size) mem) ops).map (·.2) = .ok s

theorem reach_inv {data size : Nat} {s : Stk} {l : List Block} (h : Reach data size s l) : Inv data (data + size) s l := by
  obtain ⟨h0, h1, h2, mem, ops, rs, hp, e, es⟩ := h
  rcases run_ok ops (ctor_ok h0 h1 h2 mem) hp with ⟨e', _⟩ | ⟨rs', l', s', e1, e2, hi⟩
  · rw [e] at e'; cases e'
  · rw [e] at e1
    injection e1 with e1
    have el : l = l' := congrArg Prod.snd e1
    rw [e2] at es
    injection es with es
    rw [el, ← es]
    exact hi

/-- In every reachable state: allocating and freeing the new block brings all members back to their old values, and so does any proper work in between that ends with the new block on top (here: a resize). -/
theorem C35_free_restores_partial {data size : Nat} {s : Stk} {l : List Block} (h : Reach data size s l) {n align : Nat} (hn : Small n) (ha : IsPowerOfTwo align) (ha2 : align ≤ 2 ^ 31)
    {p : BitVec 64} {s1 : Stk} (e : alloc s (BitVec.ofNat 64 n) (BitVec.ofNat 64 align) = .ok (p, s1)) :
    (∃ s2, free s1 p = .ok s2 ∧ s2.bbegin = s.bbegin ∧ s2.head = s.head ∧ s2.bend = s.bend ∧ s2.id = s.id) ∧
    ∀ k a s3, 0 < k → Small k → realloc s1 p (BitVec.ofNat 64 k) (BitVec.ofNat 64 a) = .ok (p, s3) →
      ∃ s2, free s3 p = .ok s2 ∧ s2.bbegin = s.bbegin ∧ s2.head = s.head ∧ s2.bend = s.bend ∧ s2.id = s.id := by
  have hi := reach_inv h
  rcases alloc_ok hi hn ha ha2 with ⟨_, e2⟩ | ⟨q, l', s', e1, e2, h1, _⟩
  · rw [e] at e2; cases e2
  · rw [e] at e2
    injection e2 with e2
    have ep : p = BitVec.ofNat 64 q := congrArg Prod.fst e2
    have es : s1 = s' := congrArg Prod.snd e2
    subst es
    unfold Spec.alloc at e1
    simp only at e1
    split at e1
    · injection e1 with e1
      have eq : alignUpN (top data l + 8) align = q := congrArg Prod.fst e1
      have el : { addr := alignUpN (top data l + 8) align, size := n, align := align } :: l = l' := congrArg Prod.snd e1
      subst eq
      subst el
      have fin : ∀ {s3 : Stk} {b : Block}, b.addr = alignUpN (top data l + 8) align → Inv data (data + size) s3 (b :: l) →
          ∃ s2, free s3 p = .ok s2 ∧ s2.bbegin = s.bbegin ∧ s2.head = s.head ∧ s2.bend = s.bend ∧ s2.id = s.id := by
        intro s3 b hb h3
        rcases free_ok h3 (ptr := b.addr) (Or.inr ⟨b, by simp, rfl⟩) with ⟨e5, _⟩ | ⟨l2, s2, e5, e6, h2, _⟩
        · unfold Spec.free at e5
          rw [if_neg (live_ptr h3 (by simp)).2.2.1] at e5
          simp only [if_true] at e5
          cases e5
        · unfold Spec.free at e5
          rw [if_neg (live_ptr h3 (by simp)).2.2.1] at e5
          simp only [if_true] at e5
          injection e5 with e5
          subst e5
          refine ⟨s2, by rw [ep, ← hb]; exact e6, ?_, ?_, ?_, ?_⟩
          · exact BitVec.eq_of_toNat_eq (by rw [h2.beg, hi.beg])
          · exact BitVec.eq_of_toNat_eq (by rw [h2.head, hi.head])
          · exact BitVec.eq_of_toNat_eq (by rw [h2.fin, hi.fin])
          · rw [h2.id, hi.id]
      refine ⟨fin rfl h1, fun k a s3 hk0 hk e3 => ?_⟩
      rcases resize_ok h1 (b := { addr := alignUpN (top data l + 8) align, size := n, align := align }) (align := a) (by simp) hk (by omega) with ⟨_, e4⟩ | ⟨l3, s3', e4, e5, h3, _⟩
      · rw [ep, e4] at e3; cases e3
      · rw [ep, e5] at e3
        injection e3 with e3
        have e3 : s3' = s3 := congrArg Prod.snd e3
        subst e3
        unfold Spec.resize at e4
        simp only at e4
        split at e4
        · injection e4 with e4
          have e4 := congrArg Prod.snd e4
          change _ :: l = l3 at e4
          subst e4
          exact fin rfl h3
        · cases e4
    · cases e1

/-- Freeing a live block that is not the newest, or resizing it, is detected. -/
theorem C35_out_of_order_partial {data size : Nat} {s : Stk} {b : Block} {l : List Block} (h : Reach data size s (b :: l)) (c : Block) (hc : c ∈ l) (n align : Nat) (hn : Small n) :
    free s (BitVec.ofNat 64 c.addr) = .error .assert ∧ realloc s (BitVec.ofNat 64 c.addr) (BitVec.ofNat 64 n) (BitVec.ofNat 64 align) = .error .assert := by
  have hi := reach_inv h
  have hne : c.addr ≠ b.addr := by
    have := (List.pairwise_cons.mp hi.up).1 c hc
    omega
  have hf : free s (BitVec.ofNat 64 c.addr) = .error .assert := by
    rcases free_ok hi (ptr := c.addr) (Or.inr ⟨c, by simp [hc], rfl⟩) with ⟨_, e⟩ | ⟨l', s', e, _⟩
    · exact e
    · unfold Spec.free at e
      rw [if_neg (live_ptr hi (by simp [hc])).2.2.1] at e
      simp only [if_neg hne] at e
      cases e
  refine ⟨hf, ?_⟩
  by_cases e0 : n = 0
  · subst e0
    refine (if_pos rfl).trans ?_
    rw [hf, R.error_bind]
  · rcases resize_ok hi (b := c) (align := align) (by simp [hc]) hn e0 with ⟨_, e⟩ | ⟨l', s', e, _⟩
    · exact e
    · unfold Spec.resize at e
      simp only at e
      rw [if_neg (fun e => hne e.1)] at e
      cases e

/-- No call changes a byte of a live block. -/
theorem C35_contents_partial {data size : Nat} {s : Stk} {l : List Block} (h : Reach data size s l) (op : Op) (hop : Spec.OpOk l op) (hw : ∀ a v, op ≠ .write a v)
    {r : Option (BitVec 64)} {s' : Stk} (e : step s op = .ok (r, s')) : ∀ b ∈ l, ∀ x, b.addr ≤ x → x < b.addr + b.size → s'.mem x = s.mem x := by
  rcases step_ok (reach_inv h) hop with ⟨_, e2⟩ | ⟨r', l', s2, e1, e2, _, hm⟩
  · rw [e] at e2; cases e2
  · rw [e] at e2
    injection e2 with e2
    have e2 : s' = s2 := congrArg Prod.snd e2
    subst e2
    exact fun b hb x h1 h2 => hm b hb x h1 h2 (hw x)

/-! ### Where it fails -/

/-- A request that is larger than the buffer wraps around and is accepted; the next block overlaps the first. -/
theorem C35_huge_request_accepted :
    (run (ctor 0x1000#64 64#64 (fun _ => 0)) [.alloc 24 1, .alloc (2 ^ 64 - 32) 1, .alloc 8 1]).map (·.1) = .ok [some 0x1008#64, some 0x1028#64, some 0x1010#64] := by
  decide +kernel

/-- The padding is stored in 32 bits: freeing a block with an alignment of 2^33 does not bring the head back. -/
theorem C35_huge_alignment :
    (run (ctor 8#64 (BitVec.ofNat 64 (2 ^ 35)) (fun _ => 0)) [.alloc 1 (2 ^ 33), .free (2 ^ 33)]).map (fun r => (r.1, r.2.head)) = .ok ([some (BitVec.ofNat 64 (2 ^ 33)), none], BitVec.ofNat 64 (2 ^ 32 + 8)) := by
  decide +kernel

/-- A second `free` of a block is not always detected: the numbers are used again. Here the second `free` ends another block, which is still in use. -/
theorem C35_double_free_accepted :
    (run (ctor 0x1000#64 256#64 (fun _ => 0)) [.alloc 8 1, .free 0x1008, .alloc 8 64, .free 0x1008]).map (fun r => (r.1, r.2.head, r.2.id)) =
      .ok ([some 0x1008#64, none, some 0x1040#64, none], 0x1000#64, 0#32) := by
  decide +kernel

/-! ### Examples -/

/-- A history with writes, a resize, frees in order: everything comes back. -/
def demo : List Op := [.alloc 5 4, .alloc 3 16, .write 0x1022 7#8, .realloc 0x1020 20 16, .write 0x1033 9#8, .free 0x1020, .alloc 1 1, .free 0x1015, .free 0x1008]

example : (run (ctor 0x1000#64 128#64 (fun _ => 0xff)) demo).map (fun r => (r.1, r.2.head, r.2.id)) =
    .ok ([some 0x1008#64, some 0x1020#64, none, some 0x1020#64, none, none, some 0x1015#64, none, none], 0x1000#64, 0#32) := by decide +kernel

example : Spec.run 0x1000 (0x1000 + 128) [] demo = .ok ([some 0x1008, some 0x1020, none, some 0x1020, none, none, some 0x1015, none, none], []) := by decide +kernel

/-- The hypotheses hold for this history. -/
example : Spec.Proper 0x1000 (0x1000 + 128) [] demo := by
  have p2 : ∀ k, k ≤ 31 → IsPowerOfTwo (2 ^ k) ∧ 2 ^ k ≤ 2 ^ 31 := fun k hk => ⟨⟨k, rfl⟩, Nat.pow_le_pow_right (by decide) hk⟩
  refine ⟨⟨by unfold Small; decide, p2 2 (by decide)⟩, fun r e => ?_⟩
  have e : _ = r := Except.ok.inj ((show Spec.step 0x1000 (0x1000 + 128) [] (.alloc 5 4) = .ok (some 0x1008, [⟨0x1008, 5, 4⟩]) by decide +kernel).symm.trans e)
  subst e
  refine ⟨⟨by unfold Small; decide, p2 4 (by decide)⟩, fun r e => ?_⟩
  have e : _ = r := Except.ok.inj ((show Spec.step 0x1000 (0x1000 + 128) [⟨0x1008, 5, 4⟩] (.alloc 3 16) = .ok (some 0x1020, [⟨0x1020, 3, 16⟩, ⟨0x1008, 5, 4⟩]) by decide +kernel).symm.trans e)
  subst e
  refine ⟨⟨⟨0x1020, 3, 16⟩, by simp, by decide, by decide⟩, fun r e => ?_⟩
  have e : _ = r := Except.ok.inj e
  subst e
  refine ⟨⟨Or.inr ⟨⟨0x1020, 3, 16⟩, by simp, rfl⟩, by unfold Small; decide, p2 4 (by decide)⟩, fun r e => ?_⟩
  have e : _ = r := Except.ok.inj ((show Spec.step 0x1000 (0x1000 + 128) [⟨0x1020, 3, 16⟩, ⟨0x1008, 5, 4⟩] (.realloc 0x1020 20 16) = .ok (some 0x1020, [⟨0x1020, 20, 16⟩, ⟨0x1008, 5, 4⟩]) by
    decide +kernel).symm.trans e)
  subst e
  refine ⟨⟨⟨0x1020, 20, 16⟩, by simp, by decide, by decide⟩, fun r e => ?_⟩
  have e : _ = r := Except.ok.inj e
  subst e
  refine ⟨Or.inr ⟨⟨0x1020, 20, 16⟩, by simp, rfl⟩, fun r e => ?_⟩
  have e : _ = r := Except.ok.inj ((show Spec.step 0x1000 (0x1000 + 128) [⟨0x1020, 20, 16⟩, ⟨0x1008, 5, 4⟩] (.free 0x1020) = .ok (none, [⟨0x1008, 5, 4⟩]) by decide +kernel).symm.trans e)
  subst e
  refine ⟨⟨by unfold Small; decide, p2 0 (by decide)⟩, fun r e => ?_⟩
  have e : _ = r := Except.ok.inj ((show Spec.step 0x1000 (0x1000 + 128) [⟨0x1008, 5, 4⟩] (.alloc 1 1) = .ok (some 0x1015, [⟨0x1015, 1, 1⟩, ⟨0x1008, 5, 4⟩]) by decide +kernel).symm.trans e)
  subst e
  refine ⟨Or.inr ⟨⟨0x1015, 1, 1⟩, by simp, rfl⟩, fun r e => ?_⟩
  have e : _ = r := Except.ok.inj ((show Spec.step 0x1000 (0x1000 + 128) [⟨0x1015, 1, 1⟩, ⟨0x1008, 5, 4⟩] (.free 0x1015) = .ok (none, [⟨0x1008, 5, 4⟩]) by decide +kernel).symm.trans e)
  subst e
  exact ⟨Or.inr ⟨⟨0x1008, 5, 4⟩, by simp, rfl⟩, fun r e => trivial⟩

/-- Out of order. -/
example : (run (ctor 0x1000#64 128#64 (fun _ => 0)) [.alloc 5 4, .alloc 3 16, .free 0x1008]).map (·.1) = .error .assert := by decide +kernel

end Verif.Alloc.Stack
