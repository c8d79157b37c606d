import Verif.Alloc.Lemmas

/-!
Reserved memory that is committed page by page: model of /repo/src/clean-core/native/memory.cc (Linux and macOS branches), and what the two virtual allocators do with it
(/repo/src/clean-core/allocators/virtual_linear_allocator.cc, /repo/src/clean-core/allocators/virtual_stack_allocator.cc).

The operating system is modelled as follows. `mmap` returns a page-aligned address (a parameter) with a range of whole pages that can not be accessed; `mprotect` changes the protection of whole pages of this range, and fails outside
of it. An access to a page that is not committed is a fault (the outcome `ub`). Pages have 4096 bytes, like in the code. Pointers are 64-bit addresses, pointer arithmetic wraps around.
-/
namespace Verif.Alloc.Pages
open Verif.Bits Verif.Alloc.Spec Verif.Alloc

/-- The members that both allocators have (allocators/virtual_linear_allocator.hh:61-67, allocators/virtual_stack_allocator.hh:64-69), and for each page (by number) if it is committed. -/
structure Pages where
  vbegin : BitVec 64
  vend : BitVec 64
  cur : BitVec 64
  pend : BitVec 64
  chunk : BitVec 64
  rw : Nat → Bool

/-- `initialize` (allocators/virtual_linear_allocator.cc:9-22, allocators/virtual_stack_allocator.cc:10-23); `addr` is what the operating system returns. -/
def init (addr maxSize chunk : BitVec 64) : R Pages := do
  ccAssert (decide (maxSize > 0#64 ∧ chunk > 0#64))
  ccAssert (isPow2 chunk)
  ccAssert (decide (addr ≠ 0#64))
  .ok { vbegin := addr, vend := addr + maxSize, cur := addr, pend := addr, chunk := chunk, rw := fun _ => false }

/-- `mprotect` of a range of pages. -/
def mprotect (p : Pages) (ptr size : BitVec 64) (rw : Bool) : R Pages := do
  ccAssert (decide (p.vbegin.toNat ≤ ptr.toNat ∧ ptr.toNat + size.toNat ≤ alignUpN p.vend.toNat 4096))
  .ok { p with rw := fun k => if ptr.toNat ≤ 4096 * k ∧ 4096 * k < ptr.toNat + size.toNat then rw else p.rw k }

/-- `commit_physical_memory` (native/memory.cc:89-108). -/
def commit (p : Pages) (ptr size : BitVec 64) : R Pages :=
  let newPtr := alignDown ptr 4096#64
  let newSize := alignUp (size + (ptr - newPtr)) 4096#64
  mprotect p newPtr newSize true

/-- `decommit_physical_memory` (native/memory.cc:110-130). -/
def decommit (p : Pages) (ptr size : BitVec 64) : R Pages :=
  let newPtr := alignDown ptr 4096#64
  let newSize := alignUp (size + (ptr - newPtr)) 4096#64
  mprotect p newPtr newSize false

/-- `grow_physical_memory` (native/memory.cc:132-145), with the assignment to `_physical_end`. -/
def grow (p : Pages) (n : BitVec 64) : R Pages :=
  if p.cur + n ≤ p.pend then .ok p
  else do
    let newCommit := alignUp n p.chunk
    ccAssert (decide (p.pend + newCommit ≤ p.vend))
    let q ← commit p p.pend newCommit
    .ok { q with pend := q.pend + newCommit }

/-- `decommit_idle_memory` (allocators/virtual_linear_allocator.cc:92-106, allocators/virtual_stack_allocator.cc:112-126). -/
def decommitIdle (p : Pages) : R (BitVec 64 × Pages) :=
  let ptr := alignUp p.cur p.chunk
  let d := p.pend - ptr
  if (0#64).slt d then do
    let q ← decommit p ptr d
    .ok (d, { q with pend := ptr })
  else .ok (d, p)

/-- Are the `n` bytes from address `a` on committed? -/
def accessible (p : Pages) (a n : Nat) : Bool := (List.range n).all (fun i => p.rw ((a + i) / 4096))

/-! ### Invariant -/

/-- Reserved is `[lo, hi)`. -/
structure PInv (lo hi ch : Nat) (p : Pages) : Prop where
  lo0 : 0 < lo
  page : 4096 ∣ lo
  hib : hi ≤ 2 ^ 62
  beg : p.vbegin.toNat = lo
  fin : p.vend.toNat = hi
  chunk : p.chunk.toNat = ch
  pow : IsPowerOfTwo ch
  chlo : 4096 ≤ ch
  chhi : ch ≤ 2 ^ 60
  cur : lo ≤ p.cur.toNat ∧ p.cur.toNat ≤ p.pend.toNat
  pend : p.pend.toNat ≤ hi
  pendPage : 4096 ∣ p.pend.toNat
  pendChunk : ch ∣ lo → ch ∣ p.pend.toNat
  rw : ∀ k, p.rw k = true ↔ lo ≤ 4096 * k ∧ 4096 * k < p.pend.toNat

theorem pow2_dvd {a b : Nat} (ha : IsPowerOfTwo a) (hb : IsPowerOfTwo b) (h : a ≤ b) : a ∣ b := by
  obtain ⟨i, rfl⟩ := ha
  obtain ⟨j, rfl⟩ := hb
  exact Nat.pow_dvd_pow 2 ((Nat.pow_le_pow_iff_right (by decide)).mp h)

theorem page_pow2 : IsPowerOfTwo 4096 := ⟨12, rfl⟩

theorem page_dvd {lo hi ch : Nat} {p : Pages} (h : PInv lo hi ch p) : 4096 ∣ ch := pow2_dvd page_pow2 h.pow h.chlo

theorem accessible_of {lo hi ch : Nat} {p : Pages} (h : PInv lo hi ch p) {a n : Nat} (h1 : lo ≤ a) (h2 : a + n ≤ p.pend.toNat) : accessible p a n = true := by
  unfold accessible
  rw [List.all_eq_true]
  intro i hi'
  have hi' := List.mem_range.mp hi'
  rw [h.rw]
  have hp := h.page
  have hq := h.pendPage
  omega

theorem aligned_down {v : BitVec 64} (h : 4096 ∣ v.toNat) : alignDown v 4096#64 = v := by
  apply BitVec.eq_of_toNat_eq
  obtain ⟨_, h2, h3⟩ := C17_align_down v 4096#64 page_pow2
  exact Nat.le_antisymm h2 (h3 v.toNat h (Nat.le_refl _))

theorem alignUpN_of_dvd {v a : Nat} (ha : 0 < a) (h : a ∣ v) : alignUpN v a = v :=
  Nat.le_antisymm ((alignUpN_spec v a ha).2.2 v h (Nat.le_refl _)) (alignUpN_ge v a ha)

theorem aligned_up {v : BitVec 64} (h : 4096 ∣ v.toNat) (hb : v.toNat < 2 ^ 63) : alignUp v 4096#64 = v := by
  apply BitVec.eq_of_toNat_eq
  have e : (4096#64).toNat = 4096 := rfl
  rw [toNat_alignUp (a := 4096#64) page_pow2 (by rw [e]; omega), e, alignUpN_of_dvd (by decide) h]

/-- Changing the protection of whole pages. -/
theorem whole_pages {p : Pages} {ptr size : BitVec 64} (h1 : 4096 ∣ ptr.toNat) (h2 : 4096 ∣ size.toNat) (hb : size.toNat < 2 ^ 63) (rw : Bool) :
    mprotect p (alignDown ptr 4096#64) (alignUp (size + (ptr - alignDown ptr 4096#64)) 4096#64) rw = mprotect p ptr size rw := by
  rw [aligned_down h1, BitVec.sub_self, BitVec.add_zero, aligned_up h2 hb]

theorem grow_ok {lo hi ch : Nat} {p : Pages} (h : PInv lo hi ch p) {n : BitVec 64} (hn : n.toNat ≤ 2 ^ 62) :
    (∃ q, grow p n = .ok q ∧ PInv lo hi ch q ∧ q.cur = p.cur ∧ p.pend.toNat ≤ q.pend.toNat ∧ p.cur.toNat + n.toNat ≤ q.pend.toNat) ∨
    (grow p n = .error .assert ∧ p.pend.toNat < p.cur.toNat + n.toNat ∧ hi < p.pend.toNat + alignUpN n.toNat ch) := by
  have hhib := h.hib
  have hcur := h.cur
  have hpend := h.pend
  have hchlo := h.chlo
  have hchhi := h.chhi
  have e1 : (p.cur + n).toNat = p.cur.toNat + n.toNat := toNat_add_lt (by omega)
  have e2 : (alignUp n p.chunk).toNat = alignUpN n.toNat ch := by
    rw [toNat_alignUp (by rw [h.chunk]; exact h.pow) (by rw [h.chunk]; omega), h.chunk]
  have hle := alignUpN_le n.toNat ch
  have hge := alignUpN_ge n.toNat ch (by omega)
  have hdv := alignUpN_dvd n.toNat ch
  have e3 : (p.pend + alignUp n p.chunk).toNat = p.pend.toNat + alignUpN n.toNat ch := by
    rw [toNat_add_lt (by rw [e2]; omega), e2]
  unfold grow
  by_cases c1 : p.cur + n ≤ p.pend
  · rw [if_pos c1]
    rw [BitVec.le_def, e1] at c1
    exact Or.inl ⟨p, rfl, h, rfl, Nat.le_refl _, c1⟩
  · rw [if_neg c1]
    rw [BitVec.le_def, e1] at c1
    simp only
    by_cases c2 : p.pend + alignUp n p.chunk ≤ p.vend
    · left
      rw [ccAssert_true (decide_eq_true c2), R.ok_bind]
      rw [BitVec.le_def, e3, h.fin] at c2
      unfold commit
      simp only
      have hdvp : 4096 ∣ (alignUp n p.chunk).toNat := by rw [e2]; exact Nat.dvd_trans (page_dvd h) hdv
      rw [whole_pages h.pendPage hdvp (by rw [e2]; omega)]
      unfold mprotect
      have hup := alignUpN_ge hi 4096 (by decide)
      rw [ccAssert_true (decide_eq_true (by rw [h.beg, h.fin, e2]; omega)), R.ok_bind, R.ok_bind]
      refine ⟨_, rfl, ?_, rfl, ?_, ?_⟩
      · exact {
          lo0 := h.lo0
          page := h.page
          hib := h.hib
          beg := h.beg
          fin := h.fin
          chunk := h.chunk
          pow := h.pow
          chlo := h.chlo
          chhi := h.chhi
          cur := ⟨hcur.1, by change p.cur.toNat ≤ (p.pend + alignUp n p.chunk).toNat; rw [e3]; omega⟩
          pend := by change (p.pend + alignUp n p.chunk).toNat ≤ hi; rw [e3]; exact c2
          pendPage := by
            change 4096 ∣ (p.pend + alignUp n p.chunk).toNat
            rw [e3]
            exact Nat.dvd_add h.pendPage (Nat.dvd_trans (page_dvd h) hdv)
          pendChunk := fun hc => by
            change ch ∣ (p.pend + alignUp n p.chunk).toNat
            rw [e3]
            exact Nat.dvd_add (h.pendChunk hc) hdv
          rw := fun k => by
            change (if p.pend.toNat ≤ 4096 * k ∧ 4096 * k < p.pend.toNat + (alignUp n p.chunk).toNat then true else p.rw k) = true ↔ lo ≤ 4096 * k ∧ 4096 * k < (p.pend + alignUp n p.chunk).toNat
            rw [e2, e3]
            split
            · constructor
              · intro _; omega
              · intro _; rfl
            · rw [h.rw]; omega }
      · change p.pend.toNat ≤ (p.pend + alignUp n p.chunk).toNat
        rw [e3]; omega
      · change p.cur.toNat + n.toNat ≤ (p.pend + alignUp n p.chunk).toNat
        rw [e3]; omega
    · right
      rw [ccAssert_false (decide_eq_false c2), R.error_bind]
      rw [BitVec.le_def, e3, h.fin] at c2
      exact ⟨rfl, by omega, by omega⟩

/-- `decommit_idle_memory`: nothing that is in use is decommitted. If the chunk size divides the beginning of the range the result is the number of bytes that were decommitted. -/
theorem decommitIdle_ok {lo hi ch : Nat} {p : Pages} (h : PInv lo hi ch p) :
    ∃ r q, decommitIdle p = .ok (r, q) ∧ PInv lo hi ch q ∧ q.cur = p.cur ∧ q.pend.toNat ≤ p.pend.toNat ∧
      (alignUpN p.cur.toNat ch ≤ p.pend.toNat → r.toNat + q.pend.toNat = p.pend.toNat ∧ q.pend.toNat = alignUpN p.cur.toNat ch) ∧
      (p.pend.toNat < alignUpN p.cur.toNat ch → q = p ∧ r.toNat = 2 ^ 64 - (alignUpN p.cur.toNat ch - p.pend.toNat)) := by
  have hhib := h.hib
  have hcur := h.cur
  have hpend := h.pend
  have hchlo := h.chlo
  have hchhi := h.chhi
  have e1 : (alignUp p.cur p.chunk).toNat = alignUpN p.cur.toNat ch := by
    rw [toNat_alignUp (by rw [h.chunk]; exact h.pow) (by rw [h.chunk]; omega), h.chunk]
  have hle := alignUpN_le p.cur.toNat ch
  have hge := alignUpN_ge p.cur.toNat ch (by omega)
  have hdv := alignUpN_dvd p.cur.toNat ch
  have hdp := Nat.dvd_trans (page_dvd h) hdv
  unfold decommitIdle
  simp only
  by_cases c : alignUpN p.cur.toNat ch ≤ p.pend.toNat
  · have e2 : (p.pend - alignUp p.cur p.chunk).toNat = p.pend.toNat - alignUpN p.cur.toNat ch := by
      rw [BitVec.toNat_sub_of_le (by rw [BitVec.le_def, e1]; exact c), e1]
    have e3 : (p.pend - alignUp p.cur p.chunk).toInt = (p.pend.toNat - alignUpN p.cur.toNat ch : Nat) := by
      rw [BitVec.toInt_eq_toNat_of_lt (by rw [e2]; omega), e2]
    by_cases c0 : (0#64).slt (p.pend - alignUp p.cur p.chunk) = true
    · rw [if_pos c0]
      unfold decommit
      simp only
      rw [whole_pages (by rw [e1]; exact hdp) (by rw [e2]; exact Nat.dvd_sub h.pendPage hdp) (by rw [e2]; omega)]
      unfold mprotect
      have hup := alignUpN_ge hi 4096 (by decide)
      rw [ccAssert_true (decide_eq_true (by rw [h.beg, h.fin, e1, e2]; omega)), R.ok_bind, R.ok_bind]
      refine ⟨_, _, rfl, ?_, rfl, by change (alignUp p.cur p.chunk).toNat ≤ _; rw [e1]; exact c, fun _ => ?_, fun hc => absurd c (by omega)⟩
      · exact {
          lo0 := h.lo0
          page := h.page
          hib := h.hib
          beg := h.beg
          fin := h.fin
          chunk := h.chunk
          pow := h.pow
          chlo := h.chlo
          chhi := h.chhi
          cur := ⟨hcur.1, by change p.cur.toNat ≤ (alignUp p.cur p.chunk).toNat; rw [e1]; exact hge⟩
          pend := by change (alignUp p.cur p.chunk).toNat ≤ hi; rw [e1]; omega
          pendPage := by change 4096 ∣ (alignUp p.cur p.chunk).toNat; rw [e1]; exact hdp
          pendChunk := fun _ => by change ch ∣ (alignUp p.cur p.chunk).toNat; rw [e1]; exact hdv
          rw := fun k => by
            change (if (alignUp p.cur p.chunk).toNat ≤ 4096 * k ∧ 4096 * k < (alignUp p.cur p.chunk).toNat + (p.pend - alignUp p.cur p.chunk).toNat then false else p.rw k) = true ↔
              lo ≤ 4096 * k ∧ 4096 * k < (alignUp p.cur p.chunk).toNat
            rw [e1, e2]
            split
            · constructor
              · intro hf; cases hf
              · intro hf; omega
            · rw [h.rw]; omega }
      · change (p.pend - alignUp p.cur p.chunk).toNat + (alignUp p.cur p.chunk).toNat = _ ∧ (alignUp p.cur p.chunk).toNat = _
        rw [e1, e2]
        omega
    · rw [if_neg c0]
      have c0 : ¬ (0#64).slt (p.pend - alignUp p.cur p.chunk) = true := c0
      rw [BitVec.slt_iff_toInt_lt, e3] at c0
      have z : (0#64).toInt = 0 := by decide
      rw [z] at c0
      refine ⟨_, p, rfl, h, rfl, Nat.le_refl _, fun _ => ?_, fun hc => absurd c (by omega)⟩
      rw [e2]
      omega
  · have hlt : p.pend.toNat < alignUpN p.cur.toNat ch := by omega
    have e2 : (p.pend - alignUp p.cur p.chunk).toNat = 2 ^ 64 - (alignUpN p.cur.toNat ch - p.pend.toNat) := by
      rw [BitVec.toNat_sub, e1]
      omega
    have c0 : ¬ (0#64).slt (p.pend - alignUp p.cur p.chunk) = true := by
      have z : (0#64).toInt = 0 := by decide
      rw [BitVec.slt_iff_toInt_lt, z, BitVec.toInt_eq_toNat_cond, e2, if_neg (by omega)]
      omega
    rw [if_neg c0]
    exact ⟨_, p, rfl, h, rfl, Nat.le_refl _, fun hc => absurd hc c, fun _ => ⟨rfl, e2⟩⟩

theorem decommitIdle_le {lo hi ch : Nat} {p : Pages} (h : PInv lo hi ch p) (hc : ch ∣ lo) : alignUpN p.cur.toNat ch ≤ p.pend.toNat :=
  (alignUpN_spec p.cur.toNat ch (by have := h.chlo; omega)).2.2 _ (h.pendChunk hc) h.cur.2

/-- `_physical_current` moves inside of the committed memory. -/
theorem setCur_ok {lo hi ch : Nat} {p : Pages} (h : PInv lo hi ch p) {c : BitVec 64} (h1 : lo ≤ c.toNat) (h2 : c.toNat ≤ p.pend.toNat) : PInv lo hi ch { p with cur := c } where
  lo0 := h.lo0
  page := h.page
  hib := h.hib
  beg := h.beg
  fin := h.fin
  chunk := h.chunk
  pow := h.pow
  chlo := h.chlo
  chhi := h.chhi
  cur := ⟨h1, h2⟩
  pend := h.pend
  pendPage := h.pendPage
  pendChunk := h.pendChunk
  rw := h.rw

/-- The parameters of `initialize` for which the theorems hold: the operating system returns whole pages, and the chunk size is at least a page. -/
structure Params (addr maxSize chunk : Nat) : Prop where
  addr0 : 0 < addr
  page : 4096 ∣ addr
  size0 : 0 < maxSize
  fits : addr + maxSize ≤ 2 ^ 62
  pow : IsPowerOfTwo chunk
  lo : 4096 ≤ chunk
  hi : chunk ≤ 2 ^ 60

theorem init_ok {addr maxSize chunk : Nat} (h : Params addr maxSize chunk) :
    ∃ p, init (BitVec.ofNat 64 addr) (BitVec.ofNat 64 maxSize) (BitVec.ofNat 64 chunk) = .ok p ∧ PInv addr (addr + maxSize) chunk p ∧ p.cur.toNat = addr := by
  have h0 := h.addr0
  have h1 := h.size0
  have h2 := h.fits
  have h3 := h.lo
  have h4 := h.hi
  have ea : (BitVec.ofNat 64 addr).toNat = addr := toNat_ofNat_lt (by omega)
  have es : (BitVec.ofNat 64 maxSize).toNat = maxSize := toNat_ofNat_lt (by omega)
  have ec : (BitVec.ofNat 64 chunk).toNat = chunk := toNat_ofNat_lt (by omega)
  have ee : (BitVec.ofNat 64 addr + BitVec.ofNat 64 maxSize).toNat = addr + maxSize := by
    rw [toNat_add_lt (by rw [ea, es]; omega), ea, es]
  unfold init
  rw [ccAssert_true (decide_eq_true ⟨by change (0#64) < _; rw [BitVec.lt_def, es]; exact h1, by change (0#64) < _; rw [BitVec.lt_def, ec]; change 0 < chunk; omega⟩), R.ok_bind,
    ccAssert_true ?_, R.ok_bind, ccAssert_true (decide_eq_true ?_), R.ok_bind]
  · refine ⟨_, rfl, ?_, ea⟩
    exact {
      lo0 := h0
      page := h.page
      hib := h2
      beg := ea
      fin := ee
      chunk := ec
      pow := h.pow
      chlo := h3
      chhi := h4
      cur := ⟨by rw [ea]; exact Nat.le_refl _, Nat.le_refl _⟩
      pend := by change (BitVec.ofNat 64 addr).toNat ≤ _; rw [ea]; omega
      pendPage := by change 4096 ∣ (BitVec.ofNat 64 addr).toNat; rw [ea]; exact h.page
      pendChunk := fun hc => by change chunk ∣ (BitVec.ofNat 64 addr).toNat; rw [ea]; exact hc
      rw := fun k => by
        change false = true ↔ addr ≤ 4096 * k ∧ 4096 * k < (BitVec.ofNat 64 addr).toNat
        rw [ea]
        constructor
        · intro hf; cases hf
        · intro hf; omega }
  · intro e
    have := congrArg BitVec.toNat e
    rw [ea] at this
    change addr = 0 at this
    omega
  · exact (C16_is_pow2 _).mpr (Or.inr (by rw [ec]; exact h.pow))

end Verif.Alloc.Pages
