import Verif.Alloc.Lemmas
import Verif.Alloc.LinearSpec

/-! C34: the linear allocator. -/
namespace Verif.Alloc.Linear
open Verif.Bits Verif.Alloc.Spec Verif.Alloc

/-- Allocator and live blocks belong together. -/
structure Inv (lo hi : Nat) (s : Lin) (l : List Block) : Prop where
  lo0 : 0 < lo
  lohi : lo ≤ hi
  hib : hi ≤ 2 ^ 62
  beg : s.bbegin.toNat = lo
  fin : s.bend.toNat = hi
  head : s.head.toNat = top lo l
  latest : s.latest.toNat = match l with
    | [] => 0
    | b :: _ => b.addr
  laid : Laid lo hi l
  up : Up l

theorem atLeastOne_ok {align : Nat} (h : align = 0 ∨ GoodAlign align) :
    (atLeastOne (BitVec.ofNat 64 align)).toNat = max align 1 ∧ IsPowerOfTwo (max align 1) ∧ max align 1 ≤ 2 ^ 62 := by
  rcases h with rfl | ⟨h1, h2⟩
  · exact ⟨rfl, ⟨0, rfl⟩, by decide⟩
  · have h3 := pow2_pos h1
    have h2 : align ≤ 2 ^ 62 := h2
    have hm : max align 1 = align := by omega
    have ht : (BitVec.ofNat 64 align).toNat = align := toNat_ofNat_lt (by omega)
    rw [hm]
    refine ⟨?_, h1, h2⟩
    unfold atLeastOne
    rw [if_neg (by rw [BitVec.lt_def, ht]; change ¬ align < 1; omega), ht]

/-- `alloc` does what the specification says. -/
theorem alloc_ok {lo hi : Nat} {s : Lin} {l : List Block} (h : Inv lo hi s l) {size align : Nat} (hs : Small size) (ha : align = 0 ∨ GoodAlign align) :
    (Spec.alloc lo hi l size (max align 1) = .error .assert ∧ alloc s (BitVec.ofNat 64 size) (BitVec.ofNat 64 align) = .error .assert) ∨
    ∃ p l' s', Spec.alloc lo hi l size (max align 1) = .ok (p, l') ∧ alloc s (BitVec.ofNat 64 size) (BitVec.ofNat 64 align) = .ok (BitVec.ofNat 64 p, s') ∧ Inv lo hi s' l' := by
  obtain ⟨ha1, ha2, ha3⟩ := atLeastOne_ok ha
  have hs : size ≤ 2 ^ 62 := hs
  have hst : (BitVec.ofNat 64 size).toNat = size := toNat_ofNat_lt (by omega)
  have htop := top_le h.laid h.lohi
  have hhib := h.hib
  have hp : (alignUp s.head (atLeastOne (BitVec.ofNat 64 align))).toNat = alignUpN (top lo l) (max align 1) := by
    rw [toNat_alignUp (by rw [ha1]; exact ha2) (by rw [ha1, h.head]; omega), ha1, h.head]
  have hle := alignUpN_le (top lo l) (max align 1)
  have hge := alignUpN_ge (top lo l) (max align 1) (by omega)
  have hsum : (alignUp s.head (atLeastOne (BitVec.ofNat 64 align)) + BitVec.ofNat 64 size).toNat = alignUpN (top lo l) (max align 1) + size := by
    rw [toNat_add_lt (by rw [hp, hst]; omega), hp, hst]
  have h0 : s.bbegin ≠ 0#64 := by
    intro e
    have := h.beg
    rw [e] at this
    have h1 := h.lo0
    change 0 = lo at this
    omega
  unfold Spec.alloc alloc
  simp only
  rw [ccAssert_true (decide_eq_true h0), R.ok_bind]
  by_cases hfit : alignUpN (top lo l) (max align 1) + size ≤ hi
  · right
    rw [if_pos hfit, ccAssert_true (decide_eq_true (by rw [BitVec.le_def, hsum, h.fin]; exact hfit)), R.ok_bind]
    refine ⟨_, _, { s with head := alignUp s.head (atLeastOne (BitVec.ofNat 64 align)) + BitVec.ofNat 64 size, latest := alignUp s.head (atLeastOne (BitVec.ofNat 64 align)) }, rfl, ?_, ?_⟩
    · refine congrArg Except.ok (Prod.ext ?_ rfl)
      apply BitVec.eq_of_toNat_eq
      rw [hp, toNat_ofNat_lt (by omega)]
    · exact {
        lo0 := h.lo0
        lohi := h.lohi
        hib := h.hib
        beg := h.beg
        fin := h.fin
        head := hsum
        latest := hp
        laid := laid_cons h.laid _ (fun c hc => by have := up_top h.laid h.up c hc; change _ ≤ alignUpN (top lo l) (max align 1); omega)
          (by change lo ≤ alignUpN (top lo l) (max align 1); omega) hfit (alignUpN_dvd _ _)
        up := List.pairwise_cons.mpr ⟨fun c hc => by have := up_top h.laid h.up c hc; change _ ≤ alignUpN (top lo l) (max align 1); omega, h.up⟩ }
  · left
    rw [if_neg hfit, ccAssert_false (decide_eq_false (by rw [BitVec.le_def, hsum, h.fin]; exact hfit)), R.error_bind]
    exact ⟨rfl, rfl⟩

/-- Resizing the newest block. -/
theorem resize_ok {lo hi : Nat} {s : Lin} {l : List Block} (h : Inv lo hi s l) {ptr n align : Nat} (hptr : ptr < 2 ^ 64) (h0 : ptr ≠ 0) (hn : Small n) :
    (Spec.resize hi l ptr n = .error .assert ∧ realloc s (BitVec.ofNat 64 ptr) (BitVec.ofNat 64 n) (BitVec.ofNat 64 align) = .error .assert) ∨
    ∃ p l' s', Spec.resize hi l ptr n = .ok (p, l') ∧ realloc s (BitVec.ofNat 64 ptr) (BitVec.ofNat 64 n) (BitVec.ofNat 64 align) = .ok (BitVec.ofNat 64 p, s') ∧ Inv lo hi s' l' := by
  have hn : n ≤ 2 ^ 62 := hn
  have hpt : (BitVec.ofNat 64 ptr).toNat = ptr := toNat_ofNat_lt hptr
  have hnt : (BitVec.ofNat 64 n).toNat = n := toNat_ofNat_lt (by omega)
  have hp0 : BitVec.ofNat 64 ptr ≠ 0#64 := by
    intro e
    have := congrArg BitVec.toNat e
    rw [hpt] at this
    exact h0 this
  have hhib := h.hib
  unfold realloc
  rw [if_pos hp0]
  cases l with
  | nil =>
    left
    have hl : s.latest.toNat = 0 := h.latest
    refine ⟨rfl, ?_⟩
    rw [ccAssert_false (decide_eq_false (fun e => h0 (by rw [← hpt, e, hl]))), R.error_bind]
  | cons b l =>
    have hl : s.latest.toNat = b.addr := h.latest
    have hin := h.laid.inside b (by simp)
    by_cases e : ptr = b.addr
    · subst e
      rw [ccAssert_true (decide_eq_true (BitVec.eq_of_toNat_eq (by rw [hpt, hl]))), R.ok_bind]
      have hsum : (BitVec.ofNat 64 b.addr + BitVec.ofNat 64 n).toNat = b.addr + n := by
        rw [toNat_add_lt (by rw [hpt, hnt]; omega), hpt, hnt]
      by_cases hfit : b.addr + n ≤ hi
      · right
        rw [ccAssert_true (decide_eq_true (by rw [BitVec.le_def, hsum, h.fin]; exact hfit)), R.ok_bind]
        refine ⟨_, _, _, if_pos ⟨rfl, hfit⟩, rfl, ?_⟩
        exact {
          lo0 := h.lo0
          lohi := h.lohi
          hib := h.hib
          beg := h.beg
          fin := h.fin
          head := hsum
          latest := hl
          laid := laid_cons (laid_tail h.laid) _ (List.pairwise_cons.mp h.up).1 hin.1 hfit (h.laid.aligned b (by simp))
          up := List.pairwise_cons.mpr ⟨(List.pairwise_cons.mp h.up).1, (List.pairwise_cons.mp h.up).2⟩ }
      · left
        rw [ccAssert_false (decide_eq_false (by rw [BitVec.le_def, hsum, h.fin]; exact hfit)), R.error_bind]
        exact ⟨if_neg (fun e => hfit e.2), rfl⟩
    · left
      rw [ccAssert_false (decide_eq_false (fun e' => e (by rw [← hpt, e', hl]))), R.error_bind]
      exact ⟨if_neg (fun e' => e e'.1), rfl⟩

/-- A result as the client sees it. -/
def asPtr : Option Nat → Option (BitVec 64) := Option.map (BitVec.ofNat 64)

theorem sStep_alloc (lo hi : Nat) (l : List Block) (size align : Nat) :
    Spec.step lo hi l (.alloc size align) = (Spec.alloc lo hi l size (max align 1)).map fun r => (some r.1, r.2) := rfl
theorem step_alloc (s : Lin) (size align : Nat) :
    step s (.alloc size align) = (alloc s (BitVec.ofNat 64 size) (BitVec.ofNat 64 align) >>= fun r => .ok (some r.1, r.2)) := rfl
theorem sStep_realloc (lo hi : Nat) (l : List Block) (ptr n align : Nat) :
    Spec.step lo hi l (.realloc ptr n align) = if ptr = 0 then (if n = 0 then .ok (some 0, l) else (Spec.alloc lo hi l n (max align 1)).map fun r => (some r.1, r.2))
    else (Spec.resize hi l ptr n).map fun r => (some r.1, r.2) := rfl
theorem step_realloc (s : Lin) (ptr n align : Nat) :
    step s (.realloc ptr n align) = (realloc s (BitVec.ofNat 64 ptr) (BitVec.ofNat 64 n) (BitVec.ofNat 64 align) >>= fun r => .ok (some r.1, r.2)) := rfl

theorem step_ok {lo hi : Nat} {s : Lin} {l : List Block} (h : Inv lo hi s l) {op : Op} (hop : Spec.OpOk op) :
    (Spec.step lo hi l op = .error .assert ∧ step s op = .error .assert) ∨
    ∃ r l' s', Spec.step lo hi l op = .ok (r, l') ∧ step s op = .ok (asPtr r, s') ∧ Inv lo hi s' l' := by
  cases op with
  | alloc size align =>
    rcases alloc_ok h hop.1 hop.2 with ⟨e1, e2⟩ | ⟨p, l', s', e1, e2, h'⟩
    · left
      rw [sStep_alloc, step_alloc, e1, e2]
      exact ⟨rfl, rfl⟩
    · right
      rw [sStep_alloc, step_alloc, e1, e2]
      exact ⟨some p, l', s', rfl, rfl, h'⟩
  | realloc ptr n align =>
    obtain ⟨h1, h2, h3⟩ := hop
    by_cases e : ptr = 0
    · subst e
      have er : realloc s (BitVec.ofNat 64 0) (BitVec.ofNat 64 n) (BitVec.ofNat 64 align) = reallocNull s (BitVec.ofNat 64 n) (BitVec.ofNat 64 align) := if_neg (fun h => h rfl)
      have h2' : n ≤ 2 ^ 62 := h2
      by_cases en : n = 0
      · subst en
        right
        refine ⟨some 0, l, s, ?_, ?_, h⟩
        · rw [sStep_realloc, if_pos rfl, if_pos rfl]
        · rw [step_realloc, er]
          rfl
      · have en' : reallocNull s (BitVec.ofNat 64 n) (BitVec.ofNat 64 align) = alloc s (BitVec.ofNat 64 n) (BitVec.ofNat 64 align) := by
          unfold reallocNull
          rw [if_pos]
          change 0#64 < _
          rw [BitVec.lt_def, toNat_ofNat_lt (n := n) (by omega)]
          change 0 < n
          omega
        rw [sStep_realloc, step_realloc, er, en', if_pos rfl, if_neg en]
        rcases alloc_ok h h2 h3 with ⟨e1, e2⟩ | ⟨p, l', s', e1, e2, h'⟩
        · left
          rw [e1, e2]
          exact ⟨rfl, rfl⟩
        · right
          rw [e1, e2]
          exact ⟨some p, l', s', rfl, rfl, h'⟩
    · rw [sStep_realloc, step_realloc, if_neg e]
      rcases resize_ok h (align := align) h1 e h2 with ⟨e1, e2⟩ | ⟨p, l', s', e1, e2, h'⟩
      · left
        rw [e1, e2]
        exact ⟨rfl, rfl⟩
      · right
        rw [e1, e2]
        exact ⟨some p, l', s', rfl, rfl, h'⟩
  | free p => exact Or.inr ⟨none, l, s, rfl, rfl, h⟩
  | reset =>
    refine Or.inr ⟨none, [], reset s, rfl, rfl, ?_⟩
    exact { lo0 := h.lo0, lohi := h.lohi, hib := h.hib, beg := h.beg, fin := h.fin, head := h.beg, latest := rfl,
            laid := { inside := fun _ hc => (by cases hc), aligned := fun _ hc => (by cases hc), apart := List.Pairwise.nil }, up := List.Pairwise.nil }

theorem run_ok : ∀ (ops : List Op) {lo hi : Nat} {s : Lin} {l : List Block}, Inv lo hi s l → (∀ op ∈ ops, Spec.OpOk op) →
    (Spec.run lo hi l ops = .error .assert ∧ run s ops = .error .assert) ∨
    ∃ rs l' s', Spec.run lo hi l ops = .ok (rs, l') ∧ run s ops = .ok (rs.map asPtr, s') ∧ Inv lo hi s' l'
  | [], _, _, s, l, h, _ => Or.inr ⟨[], l, s, rfl, rfl, h⟩
  | op :: ops, lo, hi, s, l, h, hops => by
    unfold Spec.run run
    rcases step_ok h (hops op (by simp)) with ⟨e1, e2⟩ | ⟨r, l1, s1, e1, e2, h1⟩
    · left
      rw [e1, e2]
      exact ⟨rfl, rfl⟩
    · rw [e1, e2, R.ok_bind, R.ok_bind]
      rcases run_ok ops h1 (fun o ho => hops o (by simp [ho])) with ⟨e3, e4⟩ | ⟨rs, l2, s2, e3, e4, h2⟩
      · left
        simp only [e3, e4]
        exact ⟨rfl, rfl⟩
      · right
        refine ⟨r :: rs, l2, s2, ?_, ?_, h2⟩
        · simp only [e3]; rfl
        · simp only [e4]; rfl

theorem ctor_ok {data size : Nat} (h0 : 0 < data) (h1 : data + size ≤ 2 ^ 62) : Inv data (data + size) (ctor (BitVec.ofNat 64 data) (BitVec.ofNat 64 size)) [] where
  lo0 := h0
  lohi := by omega
  hib := h1
  beg := toNat_ofNat_lt (by omega)
  fin := by
    have a : (BitVec.ofNat 64 data).toNat = data := toNat_ofNat_lt (by omega)
    have b : (BitVec.ofNat 64 size).toNat = size := toNat_ofNat_lt (by omega)
    change (BitVec.ofNat 64 data + BitVec.ofNat 64 size).toNat = _
    rw [toNat_add_lt (by rw [a, b]; omega), a, b]
  head := toNat_ofNat_lt (by omega)
  latest := rfl
  laid := { inside := fun _ hc => (by cases hc), aligned := fun _ hc => (by cases hc), apart := List.Pairwise.nil }
  up := List.Pairwise.nil

/-- For all histories with sizes and alignments up to 2^62: the allocator returns exactly the addresses of the specification, refuses exactly what the specification
refuses, and its live blocks lie inside of the buffer, aligned and without common bytes. -/
theorem C34_history_partial (data size : Nat) (h0 : 0 < data) (h1 : data + size ≤ 2 ^ 62) (ops : List Op) (hops : ∀ op ∈ ops, Spec.OpOk op) :
    (Spec.run data (data + size) [] ops = .error .assert ∧ run (ctor (BitVec.ofNat 64 data) (BitVec.ofNat 64 size)) ops = .error .assert) ∨
    ∃ rs l s, Spec.run data (data + size) [] ops = .ok (rs, l) ∧ run (ctor (BitVec.ofNat 64 data) (BitVec.ofNat 64 size)) ops = .ok (rs.map asPtr, s) ∧
      Laid data (data + size) l := by
  rcases run_ok ops (ctor_ok h0 h1) hops with h | ⟨rs, l, s, e1, e2, h⟩
  · exact Or.inl h
  · exact Or.inr ⟨rs, l, s, e1, e2, h.laid⟩

/-- After any such history, in words: `alloc` returns the lowest aligned address behind all live blocks if the block fits there, and is refused otherwise; it ends
the buffer space that `allocated_size` and `remaining_size` report; `get_allocation_size` knows the newest block, and only that. -/
theorem C34_alloc_partial (data size : Nat) (h0 : 0 < data) (h1 : data + size ≤ 2 ^ 62) (ops : List Op) (hops : ∀ op ∈ ops, Spec.OpOk op)
    (rs : List (Option Nat)) (l : List Block) (s : Lin) (e : Spec.run data (data + size) [] ops = .ok (rs, l))
    (es : run (ctor (BitVec.ofNat 64 data) (BitVec.ofNat 64 size)) ops = .ok (rs.map asPtr, s)) (n align : Nat) (hn : Small n) (ha : GoodAlign align) :
    (∃ p, IsAlignUp (top data l) align p ∧ (∀ b ∈ l, b.addr + b.size ≤ p) ∧
      (p + n ≤ data + size → ∃ s', alloc s (BitVec.ofNat 64 n) (BitVec.ofNat 64 align) = .ok (BitVec.ofNat 64 p, s') ∧
        getSize s' (BitVec.ofNat 64 p) = some (BitVec.ofNat 64 n) ∧ (∀ q, q ≠ BitVec.ofNat 64 p → getSize s' q = none) ∧
        (allocatedSize s').toNat = p + n - data ∧ (remainingSize s').toNat = data + size - (p + n) ∧ (maxSize s').toNat = size) ∧
      (¬ p + n ≤ data + size → alloc s (BitVec.ofNat 64 n) (BitVec.ofNat 64 align) = .error .assert)) := by
  rcases run_ok ops (ctor_ok h0 h1) hops with ⟨e', _⟩ | ⟨rs', l', s', e1, e2, h⟩
  · rw [e] at e'; cases e'
  · rw [e] at e1
    injection e1 with e1
    have el : l = l' := congrArg Prod.snd e1
    subst el
    have hrs := congrArg Prod.fst e1
    change rs = rs' at hrs
    subst hrs
    rw [es] at e2
    injection e2 with e2
    have es' : s = s' := congrArg Prod.snd e2
    subst es'
    have hpos := pow2_pos ha.1
    have hm : max align 1 = align := by omega
    refine ⟨alignUpN (top data l) align, alignUpN_spec _ _ hpos, fun b hb => ?_, fun hfit => ?_, fun hfit => ?_⟩
    · have := up_top h.laid h.up b hb
      have := alignUpN_ge (top data l) align hpos
      omega
    · rcases alloc_ok h hn (Or.inr ha) with ⟨e3, _⟩ | ⟨p, l3, s3, e3, e4, h3⟩
      · unfold Spec.alloc at e3
        rw [hm] at e3
        simp only at e3
        rw [if_pos hfit] at e3
        cases e3
      · unfold Spec.alloc at e3
        rw [hm] at e3
        simp only at e3
        rw [if_pos hfit] at e3
        injection e3 with e3
        have ep := congrArg Prod.fst e3
        have el3 := congrArg Prod.snd e3
        change alignUpN (top data l) align = p at ep
        change _ = l3 at el3
        subst ep
        subst el3
        have hl3 : s3.latest.toNat = alignUpN (top data l) align := h3.latest
        have hh3 : s3.head.toNat = alignUpN (top data l) align + n := h3.head
        have hb3 := h3.beg
        have hf3 := h3.fin
        have hn : n ≤ 2 ^ 62 := hn
        have hge := alignUpN_ge (top data l) align hpos
        have htop := top_le h.laid h.lohi
        have hlt : alignUpN (top data l) align < 2 ^ 64 := by omega
        have eq : s3.latest = BitVec.ofNat 64 (alignUpN (top data l) align) := BitVec.eq_of_toNat_eq (by rw [hl3, toNat_ofNat_lt hlt])
        refine ⟨s3, e4, ?_, fun q hq => ?_, ?_, ?_, ?_⟩
        · unfold getSize
          rw [if_neg]
          · refine congrArg some (BitVec.eq_of_toNat_eq ?_)
            rw [BitVec.toNat_sub_of_le (by rw [BitVec.le_def]; omega), hh3, hl3, toNat_ofNat_lt (n := n) (by omega)]
            omega
          · rintro (e5 | e5)
            · have := congrArg BitVec.toNat e5
              rw [toNat_ofNat_lt hlt] at this
              change _ = 0 at this
              omega
            · exact e5 eq.symm
        · unfold getSize
          exact if_pos (Or.inr (by rw [eq]; exact hq))
        · unfold allocatedSize
          rw [BitVec.toNat_sub_of_le (by rw [BitVec.le_def]; omega), hh3, hb3]
        · unfold remainingSize
          rw [BitVec.toNat_sub_of_le (by rw [BitVec.le_def]; omega), hf3, hh3]
        · unfold maxSize
          rw [BitVec.toNat_sub_of_le (by rw [BitVec.le_def]; omega), hf3, hb3]
          omega
    · rcases alloc_ok h hn (Or.inr ha) with ⟨_, e4⟩ | ⟨p, l3, s3, e3, _⟩
      · exact e4
      · unfold Spec.alloc at e3
        rw [hm] at e3
        simp only at e3
        rw [if_neg hfit] at e3
        cases e3

/-- The bound is needed: a request that is larger than the buffer wraps around, is accepted, and moves the head back. The next block lies inside of the first. -/
theorem C34_huge_request_accepted :
    (run (ctor 0x1000#64 64#64) [.alloc 32 1, .alloc (2 ^ 64 - 16) 1, .alloc 16 1]).map (·.1) =
      .ok [some 0x1000#64, some 0x1020#64, some 0x1010#64] := by decide +kernel

example : (∀ op ∈ [Op.alloc 3 1, .alloc 5 8, .realloc 0x1008 9 1, .free 0x1000, .alloc 4 16, .alloc 0 0], Spec.OpOk op) ∧
    (run (ctor 0x1000#64 64#64) [.alloc 3 1, .alloc 5 8, .realloc 0x1008 9 1, .free 0x1000, .alloc 4 16, .alloc 0 0]).map (·.1) =
      .ok [some 0x1000#64, some 0x1008#64, some 0x1008#64, none, some 0x1020#64, some 0x1024#64] := by
  refine ⟨fun op h => ?_, by decide +kernel⟩
  simp only [List.mem_cons, List.not_mem_nil, or_false] at h
  rcases h with rfl | rfl | rfl | rfl | rfl | rfl
  · exact ⟨by unfold Small; decide, Or.inr ⟨⟨0, rfl⟩, by unfold Small; decide⟩⟩
  · exact ⟨by unfold Small; decide, Or.inr ⟨⟨3, rfl⟩, by unfold Small; decide⟩⟩
  · exact ⟨by decide, by unfold Small; decide, Or.inr ⟨⟨0, rfl⟩, by unfold Small; decide⟩⟩
  · trivial
  · exact ⟨by unfold Small; decide, Or.inr ⟨⟨4, rfl⟩, by unfold Small; decide⟩⟩
  · exact ⟨by unfold Small; decide, Or.inl rfl⟩

/-- A request that does not fit, and the resizing of a block that is not the newest, are refused. -/
example : (run (ctor 0x1000#64 64#64) [.alloc 65 1]).map (·.1) = .error .assert ∧ (run (ctor 0x1000#64 64#64) [.alloc 8 1, .alloc 8 1, .realloc 0x1000 4 1]).map (·.1) = .error .assert := by
  decide +kernel

end Verif.Alloc.Linear
