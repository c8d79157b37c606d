import Verif.Mpmc.Solo

/-! # `cc::mpmc_queue` (C25, C26) -/
namespace Verif.Mpmc

open Spec
open Bits (isPow2)

variable {α : Type}

theorem isPow2_ofNat {n : Nat} (hn : n < 2 ^ 64) : isPow2 (BitVec.ofNat 64 n) = true ↔ n = 0 ∨ ∃ k, n = 2 ^ k := by
  rw [Bits.C16_is_pow2, BitVec.toNat_ofNat, Nat.mod_eq_of_lt hn]
  rfl

theorem init_ok {n k : Nat} (d0 : α) (h2 : 2 ≤ n) (hk : n = 2 ^ k) (hn : n < 2 ^ 63) : ∃ s, init n d0 = .ok s ∧ Inv s ∧ s.n = n ∧ Quiescent s ∧
    s.enqLog = [] ∧ s.deqLog = [] ∧ s.rets = [] := by
  have hp : (decide (n ≥ 2) && isPow2 (BitVec.ofNat 64 n)) = true := by
    rw [(isPow2_ofNat (by omega)).2 (Or.inr ⟨k, hk⟩), decide_eq_true h2]
    rfl
  unfold init
  rw [ccAssert_true hp, R.ok_bind]
  refine ⟨_, rfl, ?_, rfl, fun t => rfl, rfl, rfl, rfl⟩
  have hnd : ∀ s : State α, s.deqLog = [] → ∀ p, ¬ Done s p := by
    rintro s h p ⟨e, v, h1, _⟩
    rw [h] at h1
    cases h1
  have hnp : ∀ s : State α, s.enqLog = [] → ∀ p, ¬ Published s p := by
    rintro s h p ⟨e, h1, _⟩
    rw [h] at h1
    cases h1
  refine ⟨⟨h2, ⟨k, hk⟩, by simpa using hn, rfl, (fun x hx => by cases hx), rfl, (fun x hx => by cases hx), (fun p hp => by cases hp), (fun p hp => by cases hp),
    fun c hc m hm => ?_, fun c c' m hm => ?_, fun p hf _ => ?_, fun p hf _ hph => ?_, fun p hf _ => ?_, (fun i e v h => by cases h)⟩,
    fun t => trivial, fun t c => Nat.le_refl _, (fun p e h => by cases h), (fun p e h => by cases h)⟩
  · rw [List.mem_singleton] at hm
    subst hm
    refine Or.inl ⟨Nat.mod_eq_of_lt hc, Or.inl hc, ?_⟩
    change 2 * (c / n) ≤ 0
    rw [Nat.div_eq_of_lt hc]
    exact Nat.le_refl _
  · rw [List.mem_singleton] at hm
    subst hm
    exact Nat.le_refl _
  · rcases hf with h | ⟨_, h⟩
    · change 0 = 2 * (p / n) + phase (est _ p) (dst _ p)
      rw [Nat.div_eq_of_lt h]
      rfl
    · exact (hnd _ rfl _ h).elim
  · cases hph
  · rcases hf with h | ⟨_, h⟩
    · refine ⟨_, [], rfl, fun h => (hnp _ rfl _ h).elim, fun _ => ?_⟩
      change p % n = p
      exact Nat.mod_eq_of_lt h
    · exact (hnd _ rfl _ h).elim

theorem step_n {s s' : State α} {t : Nat} {a : Act α} (I : Inv s) (h : step s t a = .ok s') : s'.n = s.n ∧ s'.enqLog.length ≤ s.enqLog.length + 1 := by
  cases a with
  | enqueue v =>
    unfold step begin at h
    simp only at h
    split at h <;> cases h <;> exact ⟨rfl, Nat.le_succ _⟩
  | dequeue =>
    unfold step begin at h
    simp only at h
    split at h <;> cases h <;> exact ⟨rfl, Nat.le_succ _⟩
  | go c =>
    unfold step at h
    generalize hpc : (s.threads t).pc = pc at h
    simp only at h
    unfold advance at h
    have hT := I.thr t
    rw [hpc] at hT
    cases pc with
    | idle => cases h; exact ⟨rfl, Nat.le_succ _⟩
    | eLoad v =>
      simp only [enqLoad] at h
      split at h <;> cases h <;> exact ⟨rfl, Nat.le_succ _⟩
    | eSeq v pos =>
      simp only [enqSeq] at h
      rw [R.bind_eq_ok] at h
      obtain ⟨_, _, h⟩ := h
      split at h
      · rw [R.bind_eq_ok] at h
        obtain ⟨d, _, h⟩ := h
        cases h
        unfold enqBranch
        split
        · exact ⟨rfl, Nat.le_succ _⟩
        · split <;> exact ⟨rfl, Nat.le_succ _⟩
      · cases h; exact ⟨rfl, Nat.le_succ _⟩
    | eCas v pos =>
      simp only [enqCas] at h
      split at h
      · split at h <;> cases h
        · exact ⟨rfl, by simp⟩
        · exact ⟨rfl, Nat.le_succ _⟩
      · split at h <;> cases h <;> exact ⟨rfl, Nat.le_succ _⟩
    | eWrite v pos i =>
      simp only [enqWrite] at h
      rw [R.bind_eq_ok] at h
      obtain ⟨_, _, h⟩ := h
      cases h
      refine ⟨rfl, ?_⟩
      change (setStage s.enqLog i .written).length ≤ _
      rw [setStage_eq hT.2.1, List.length_set]
      exact Nat.le_succ _
    | ePub pos i =>
      simp only [enqPub] at h
      cases h
      obtain ⟨_, ⟨v, h2⟩, _⟩ := hT
      refine ⟨rfl, ?_⟩
      change (setStage s.enqLog i .published).length ≤ _
      rw [setStage_eq h2, List.length_set]
      exact Nat.le_succ _
    | dLoad =>
      simp only [deqLoad] at h
      split at h <;> cases h <;> exact ⟨rfl, Nat.le_succ _⟩
    | dSeq pos =>
      simp only [deqSeq] at h
      rw [R.bind_eq_ok] at h
      obtain ⟨_, _, h⟩ := h
      split at h
      · rw [R.bind_eq_ok] at h
        obtain ⟨d, _, h⟩ := h
        cases h
        unfold deqBranch
        split
        · exact ⟨rfl, Nat.le_succ _⟩
        · split <;> exact ⟨rfl, Nat.le_succ _⟩
      · cases h; exact ⟨rfl, Nat.le_succ _⟩
    | dCas pos =>
      simp only [deqCas] at h
      split at h
      · split at h <;> cases h <;> exact ⟨rfl, Nat.le_succ _⟩
      · split at h <;> cases h <;> exact ⟨rfl, Nat.le_succ _⟩
    | dRead pos i =>
      simp only [deqRead] at h
      rw [R.bind_eq_ok] at h
      obtain ⟨_, _, h⟩ := h
      cases h
      exact ⟨rfl, Nat.le_succ _⟩
    | dRel pos i v =>
      simp only [deqRel] at h
      cases h
      exact ⟨rfl, Nat.le_succ _⟩

theorem run_ok [DecidableEq α] : ∀ (sched : List (Nat × Act α)) {s : State α}, Inv s → Rets s →
    (∀ pre s', pre <+: sched → run s pre = .ok s' → s'.enqLog.length + s.n < 2 ^ 63) → ∃ s', run s sched = .ok s' ∧ Inv s' ∧ Rets s' ∧ s'.n = s.n
  | [], s, I, H, _ => ⟨s, rfl, I, H, rfl⟩
  | (t, a) :: as, s, I, H, hf => by
    obtain ⟨s1, h1, I1⟩ := step_ok I t a (fun s' h => hf [(t, a)] s' (List.prefix_iff_eq_take.2 rfl) (by rw [run_cons h]; rfl))
    have hn := (step_n I h1).1
    obtain ⟨s2, h2, I2, H2, n2⟩ := run_ok as I1 (step_rets I H t a h1) (fun pre s' hp hr => by
      rw [hn]
      exact hf ((t, a) :: pre) s' (List.prefix_cons_inj _ |>.2 hp) (by rw [run_cons h1, hr]))
    exact ⟨s2, by rw [run_cons h1, h2], I2, H2, n2.trans hn⟩

/-- Reachable states satisfy the invariants. -/
theorem start_ok [DecidableEq α] {n k : Nat} (d0 : α) (h2 : 2 ≤ n) (hk : n = 2 ^ k) (hn : n < 2 ^ 63) {sched : List (Nat × Act α)} (hf : Fits n d0 sched) :
    ∃ s, start n d0 sched = .ok s ∧ Inv s ∧ Rets s ∧ s.n = n := by
  obtain ⟨s0, h0, I0, n0, Q0, e0, d0', r0⟩ := init_ok d0 h2 hk hn
  have H0 : Rets s0 := ⟨fun t v => by rw [r0, d0']; rfl, fun t => by rw [r0, e0]; rfl⟩
  obtain ⟨s1, h1, I1, H1, n1⟩ := run_ok sched I0 H0 (fun pre s' hp hr => by
    rw [n0]
    exact hf pre s' hp (by unfold start; rw [h0, R.ok_bind, hr]))
  exact ⟨s1, by unfold start; rw [h0, R.ok_bind, h1], I1, H1, n1.trans n0⟩

/-! ## C25 -/

/-- Every schedule of any number of threads keeps the queue first-in-first-out: no data race on a cell and no overflow (the run is `ok`), the
`i`-th dequeue gets the value of the `i`-th enqueue and that value had been published before, at most `n` values are stored, and calls
return true or a value exactly when their claim is finished. Loads may return any value stored so far. -/
theorem C25_mpmc_fifo [DecidableEq α] {n k : Nat} (d0 : α) (h2 : 2 ≤ n) (hk : n = 2 ^ k) (hn63 : n < 2 ^ 63) (sched : List (Nat × Act α)) (hf : Fits n d0 sched) :
    ∃ s, start n d0 sched = .ok s ∧ Fifo s := by
  obtain ⟨s, hs, I, H, hn⟩ := start_ok d0 h2 hk hn63 hf
  refine ⟨s, hs, ⟨fun i e v he hr => ?_, I.core.pub, fun i hi => ?_, H.returned, H.accepted⟩⟩
  · have := I.core.order i e v he hr
    unfold values
    rw [List.getElem?_map]
    exact this
  · rcases I.core.free (i + s.n) hi with h | ⟨_, h⟩
    · omega
    · rwa [Nat.add_sub_cancel] at h

/-- The length of the schedule bounds the positions. -/
theorem run_len : ∀ (sched : List (Nat × Act α)) {s s' : State α}, Inv s → s.enqLog.length + sched.length + s.n < 2 ^ 63 → run s sched = .ok s' →
    s'.enqLog.length ≤ s.enqLog.length + sched.length
  | [], s, s', _, _, h => by cases h; exact Nat.le_refl _
  | (t, a) :: as, s, s', I, hl, h => by
    rw [List.length_cons] at hl
    obtain ⟨s1, h1, I1⟩ := step_ok I t a (fun s' h => by have := (step_n I h).2; omega)
    have hn := step_n I h1
    rw [run_cons h1] at h
    have := run_len as I1 (by rw [hn.1]; omega) h
    rw [List.length_cons]
    omega

/-- A schedule of fewer than `2^63 - n` steps never reaches the overflow: the hypothesis of `C25_mpmc_fifo` is met. -/
theorem C25_fits {n k : Nat} (d0 : α) (h2 : 2 ≤ n) (hk : n = 2 ^ k) (sched : List (Nat × Act α)) (hl : sched.length + n < 2 ^ 63) : Fits n d0 sched := by
  intro pre s hp hs
  obtain ⟨s0, h0, I0, n0, Q0, e0, d0', r0⟩ := init_ok d0 h2 hk (by omega)
  unfold start at hs
  rw [h0, R.ok_bind] at hs
  have hpl := hp.length_le
  have := run_len pre I0 (by rw [e0, n0]; simp only [List.length_nil]; omega) hs
  rw [e0] at this
  simp only [List.length_nil] at this
  omega

/-- Capacities that are not powers of two, or below 2, are rejected (for every 64 bit size). -/
theorem C25_init_rejects {n : Nat} (d0 : α) (hn : n < 2 ^ 64) (h : n < 2 ∨ ∀ k, n ≠ 2 ^ k) (sched : List (Nat × Act α)) : start n d0 sched = .error .assert := by
  have hp : (decide (n ≥ 2) && isPow2 (BitVec.ofNat 64 n)) = false := by
    by_cases h2 : 2 ≤ n
    · rcases h with h | h
      · omega
      · have : ¬ isPow2 (BitVec.ofNat 64 n) = true := by
          rw [isPow2_ofNat hn]
          rintro (h' | ⟨k, h'⟩)
          · omega
          · exact h k h'
        rw [Bool.not_eq_true] at this
        rw [this, Bool.and_false]
    · rw [decide_eq_false (show ¬ n ≥ 2 by omega), Bool.false_and]
  unfold start init
  rw [ccAssert_false hp]
  rfl

/-- No value is lost: whenever no call is running, every enqueue that got its position has returned true, every dequeue has returned its value, and
further calls, one after the other, work on exactly the values enqueued and not dequeued, in order. -/
theorem C25_no_loss [DecidableEq α] {n k : Nat} (d0 : α) (h2 : 2 ≤ n) (hk : n = 2 ^ k) (hn63 : n < 2 ^ 63) (sched : List (Nat × Act α)) (hf : Fits n d0 sched) {s : State α}
    (hs : start n d0 sched = .ok s) (Q : Quiescent s) (cs : List (Call α)) (hl : s.enqLog.length + cs.length + n < 2 ^ 63) :
    (∀ i, i < s.enqLog.length → Published s i) ∧ (∀ i, i < s.deqLog.length → Done s i) ∧ (content s).length ≤ n ∧
    ∃ s', run s (sequential cs) = .ok s' ∧ s'.rets = (bounded n (content s) cs).1.reverse ++ s.rets ∧ content s' = (bounded n (content s) cs).2 := by
  obtain ⟨s1, hs1, I, H, hn⟩ := start_ok d0 h2 hk hn63 hf
  rw [hs1] at hs
  cases hs
  rw [← hn] at hl
  obtain ⟨s', h1, h2', h3, _⟩ := sequential_ok cs I Q hl
  rw [hn] at h2' h3
  refine ⟨fun i h => quiet_published I Q h, fun i h => quiet_done I Q h, ?_, s', h1, h2', h3⟩
  rw [content_length]
  by_cases h : s.enqLog.length ≤ n
  · omega
  · rcases I.core.free (s.enqLog.length - 1) (by omega) with h' | ⟨_, hd⟩
    · rw [hn] at h'
      omega
    · have := done_lt hd
      rw [hn] at this
      omega

/-! ## C26 -/

theorem ret_cons_ne {s : State α} {x : Nat × Ret α} {P : Prop} (h : s.rets = x :: s.rets) : P := by
  have := congrArg List.length h
  simp at this

/-- `enqueue` returns false only if, at the moment it reads the sequence number, the cell that the next enqueue needs has not been given back.
Partial: the load must return the newest value (an old value, which the memory model allows, says nothing about the present), and the cell may
already be claimed by a dequeue (see `C26_false_while_claimed`). -/
theorem C26_enqueue_false_partial [DecidableEq α] {n k : Nat} (d0 : α) (h2 : 2 ≤ n) (hk : n = 2 ^ k) (hn63 : n < 2 ^ 63) (sched : List (Nat × Act α)) (hf : Fits n d0 sched)
    {s s' : State α} (hs : start n d0 sched = .ok s) (t : Nat) (h : step s t (.go 0) = .ok s') (hr : s'.rets = (t, .enqueued false) :: s.rets) : Full s := by
  obtain ⟨s1, hs1, I, H, hn⟩ := start_ok d0 h2 hk hn63 hf
  rw [hs1] at hs
  cases hs
  unfold step at h
  generalize hpc : (s.threads t).pc = pc at h
  simp only at h
  unfold advance at h
  have hT := I.thr t
  rw [hpc] at hT
  cases pc with
  | idle => cases h; exact ret_cons_ne hr
  | eLoad v =>
    simp only [enqLoad] at h
    split at h <;> cases h <;> exact ret_cons_ne hr
  | eSeq v pos =>
    change pos ≤ s.enqLog.length at hT
    have C := I.core
    have hsm := C.small
    have hn2 := C.n2
    have hlt : pos % s.n < s.n := Nat.mod_lt _ (by omega)
    simp only [enqSeq] at h
    rw [idx_eq C, ccAssert_true (decide_eq_true hlt), R.ok_bind] at h
    cases hm : (s.cells (pos % s.n)).msgs with
    | nil => rw [hm] at h; cases h; exact ret_cons_ne hr
    | cons m rest =>
      have hmem : m ∈ (s.cells (pos % s.n)).msgs := by rw [hm]; exact List.mem_cons_self
      rw [hm] at h
      simp only [List.getElem?_cons_zero] at h
      rw [sdiff_small (msg_small C hlt hmem) (by omega), R.ok_bind] at h
      cases h
      unfold enqBranch at hr
      by_cases h0 : (m.seq : Int) - pos = 0
      · rw [if_pos h0] at hr; exact ret_cons_ne hr
      · rw [if_neg h0] at hr
        by_cases h1 : (m.seq : Int) - pos < 0
        · exact full_of_behind C hT hm (by omega)
        · rw [if_neg h1] at hr; exact ret_cons_ne hr
  | eCas v pos =>
    simp only [enqCas] at h
    rw [if_pos trivial] at h
    split at h <;> cases h <;> exact ret_cons_ne hr
  | eWrite v pos i =>
    simp only [enqWrite] at h
    rw [R.bind_eq_ok] at h
    obtain ⟨_, _, h⟩ := h
    cases h
    exact ret_cons_ne hr
  | ePub pos i =>
    simp only [enqPub] at h
    cases h
    cases hr
  | dLoad =>
    simp only [deqLoad] at h
    split at h <;> cases h <;> exact ret_cons_ne hr
  | dSeq pos =>
    simp only [deqSeq] at h
    rw [R.bind_eq_ok] at h
    obtain ⟨_, _, h⟩ := h
    split at h
    · rw [R.bind_eq_ok] at h
      obtain ⟨d, _, h⟩ := h
      cases h
      unfold deqBranch at hr
      split at hr
      · exact ret_cons_ne hr
      · split at hr
        · cases hr
        · exact ret_cons_ne hr
    · cases h; exact ret_cons_ne hr
  | dCas pos =>
    simp only [deqCas] at h
    rw [if_pos trivial] at h
    split at h <;> cases h <;> exact ret_cons_ne hr
  | dRead pos i =>
    simp only [deqRead] at h
    rw [R.bind_eq_ok] at h
    obtain ⟨_, _, h⟩ := h
    cases h
    exact ret_cons_ne hr
  | dRel pos i v =>
    simp only [deqRel] at h
    cases h
    cases hr

/-- `dequeue` returns false only if, at the moment it reads the sequence number, no published value is at the next position to dequeue. Partial:
the load must return the newest value. -/
theorem C26_dequeue_false_partial [DecidableEq α] {n k : Nat} (d0 : α) (h2 : 2 ≤ n) (hk : n = 2 ^ k) (hn63 : n < 2 ^ 63) (sched : List (Nat × Act α)) (hf : Fits n d0 sched)
    {s s' : State α} (hs : start n d0 sched = .ok s) (t : Nat) (h : step s t (.go 0) = .ok s') (hr : s'.rets = (t, .dequeued none) :: s.rets) : Spec.Empty s := by
  obtain ⟨s1, hs1, I, H, hn⟩ := start_ok d0 h2 hk hn63 hf
  rw [hs1] at hs
  cases hs
  unfold step at h
  generalize hpc : (s.threads t).pc = pc at h
  simp only at h
  unfold advance at h
  have hT := I.thr t
  rw [hpc] at hT
  cases pc with
  | idle => cases h; exact ret_cons_ne hr
  | eLoad v =>
    simp only [enqLoad] at h
    split at h <;> cases h <;> exact ret_cons_ne hr
  | eSeq v pos =>
    simp only [enqSeq] at h
    rw [R.bind_eq_ok] at h
    obtain ⟨_, _, h⟩ := h
    split at h
    · rw [R.bind_eq_ok] at h
      obtain ⟨d, _, h⟩ := h
      cases h
      unfold enqBranch at hr
      split at hr
      · exact ret_cons_ne hr
      · split at hr
        · cases hr
        · exact ret_cons_ne hr
    · cases h; exact ret_cons_ne hr
  | eCas v pos =>
    simp only [enqCas] at h
    rw [if_pos trivial] at h
    split at h <;> cases h <;> exact ret_cons_ne hr
  | eWrite v pos i =>
    simp only [enqWrite] at h
    rw [R.bind_eq_ok] at h
    obtain ⟨_, _, h⟩ := h
    cases h
    exact ret_cons_ne hr
  | ePub pos i =>
    simp only [enqPub] at h
    cases h
    cases hr
  | dLoad =>
    simp only [deqLoad] at h
    split at h <;> cases h <;> exact ret_cons_ne hr
  | dSeq pos =>
    change pos ≤ s.deqLog.length at hT
    have C := I.core
    have hsm := C.small
    have hle := C.le
    have hn2 := C.n2
    have hlt : pos % s.n < s.n := Nat.mod_lt _ (by omega)
    have hmod : (pos + 1) % 2 ^ 64 = pos + 1 := Nat.mod_eq_of_lt (by omega)
    simp only [deqSeq] at h
    rw [idx_eq C, ccAssert_true (decide_eq_true hlt), R.ok_bind] at h
    cases hm : (s.cells (pos % s.n)).msgs with
    | nil => rw [hm] at h; cases h; exact ret_cons_ne hr
    | cons m rest =>
      have hmem : m ∈ (s.cells (pos % s.n)).msgs := by rw [hm]; exact List.mem_cons_self
      rw [hm] at h
      simp only [List.getElem?_cons_zero] at h
      rw [hmod, sdiff_small (msg_small C hlt hmem) (by omega), R.ok_bind] at h
      cases h
      unfold deqBranch at hr
      by_cases h0 : (m.seq : Int) - (pos + 1 : Nat) = 0
      · rw [if_pos h0] at hr; exact ret_cons_ne hr
      · rw [if_neg h0] at hr
        by_cases h1 : (m.seq : Int) - (pos + 1 : Nat) < 0
        · exact empty_of_behind C hT hm (by omega)
        · rw [if_neg h1] at hr; exact ret_cons_ne hr
  | dCas pos =>
    simp only [deqCas] at h
    rw [if_pos trivial] at h
    split at h <;> cases h <;> exact ret_cons_ne hr
  | dRead pos i =>
    simp only [deqRead] at h
    rw [R.bind_eq_ok] at h
    obtain ⟨_, _, h⟩ := h
    cases h
    exact ret_cons_ne hr
  | dRel pos i v =>
    simp only [deqRel] at h
    cases h
    cases hr

/-- Without concurrency the queue is exactly a bounded first-in-first-out queue: `enqueue` fails iff `n` elements are stored, `dequeue` fails iff
none is. -/
theorem C26_sequential [DecidableEq α] {n k : Nat} (d0 : α) (h2 : 2 ≤ n) (hk : n = 2 ^ k) (cs : List (Call α)) (hl : cs.length + n < 2 ^ 63) :
    ∃ s, start n d0 (sequential cs) = .ok s ∧ s.rets.reverse = (bounded n [] cs).1 ∧ content s = (bounded n [] cs).2 := by
  obtain ⟨s0, h0, I0, n0, Q0, e0, d0', r0⟩ := init_ok d0 h2 hk (by omega)
  obtain ⟨s, hs, hr, hc, _⟩ := sequential_ok cs I0 Q0 (by rw [e0, n0]; simp only [List.length_nil]; omega)
  have hc0 : content s0 = [] := by unfold content values; rw [e0]; exact List.drop_nil
  rw [hc0, n0] at hr hc
  refine ⟨s, by unfold start; rw [h0, R.ok_bind, hs], ?_, hc⟩
  rw [hr, r0, List.append_nil, List.reverse_reverse]

/-- The property fails as stated: `enqueue` can return false although no value is stored at any moment of the call, because a dequeue that has claimed the
oldest cell has not given it back yet (the other dequeue has overtaken it). All loads return the newest value. -/
theorem C26_false_while_claimed :
    let pre : List (Nat × Act Nat) := soloEnqueue 0 10 ++ soloEnqueue 0 20 ++ [(1, .dequeue), (1, .go 0), (1, .go 0), (1, .go 0)] ++ soloDequeue 2
    let call : List (Nat × Act Nat) := [(0, .enqueue 30), (0, .go 0), (0, .go 0)]
    (∀ j, j ≤ 3 → (start 2 0 (pre ++ call.take j)).map content = .ok []) ∧
    (start 2 0 (pre ++ call)).map (·.rets) = .ok [(0, .enqueued false), (2, .dequeued (some 20)), (0, .enqueued true), (0, .enqueued true)] := by
  decide +kernel

/-! ## Examples -/

/-- Two producers and two consumers interleaved on a queue of capacity 2, with stale loads and a failed compare-exchange. -/
def demo : List (Nat × Act Nat) :=
  [(0, .enqueue 10), (1, .enqueue 20), (0, .go 0), (1, .go 0), (0, .go 0), (1, .go 0), (1, .go 0), (0, .go 0), (0, .go 0), (0, .go 0),
   (1, .go 0), (2, .dequeue), (2, .go 0), (2, .go 0), (1, .go 0), (0, .go 0), (0, .go 0),
   (3, .dequeue), (3, .go 0), (3, .go 1),
   (2, .dequeue), (2, .go 0), (2, .go 0), (3, .dequeue), (3, .go 0), (3, .go 0), (3, .go 0), (2, .go 0), (2, .go 0), (2, .go 0), (2, .go 0), (2, .go 0),
   (3, .go 0), (3, .go 0)]

example : Fits 2 0 demo := C25_fits (k := 1) 0 (by decide) rfl demo (by decide)

example : (start 2 0 demo).map (fun s => (s.rets, values s)) =
    .ok ([(3, .dequeued (some 20)), (2, .dequeued (some 10)), (3, .dequeued none), (0, .enqueued true), (1, .enqueued true), (2, .dequeued none)], [20, 10]) := by decide +kernel

example : (start 4 0 (sequential [.enqueue 0 1, .enqueue 1 2, .enqueue 0 3, .dequeue 2, .enqueue 0 4, .enqueue 0 5, .enqueue 0 6, .dequeue 0])).map (fun s => (s.rets.reverse, content s)) =
    .ok (bounded 4 [] [.enqueue 0 1, .enqueue 1 2, .enqueue 0 3, .dequeue 2, .enqueue 0 4, .enqueue 0 5, .enqueue 0 6, .dequeue 0]) := by decide +kernel

/-- The state in which an enqueue reads a sequence number that is behind. -/
example : (start 2 0 (soloEnqueue 0 1 ++ soloEnqueue 0 2 ++ [(1, .enqueue 3), (1, .go 0)])).map (fun s => (s.enqLog.length, s.deqLog.length, (s.threads 1).pc)) =
    .ok (2, 0, .eSeq 3 2) := by decide +kernel

theorem three_ne_pow (k : Nat) : 3 ≠ 2 ^ k := by
  intro h
  match k with
  | 0 => cases h
  | 1 => cases h
  | k + 2 => rw [Nat.pow_add] at h; omega

example : start 3 0 demo = .error .assert := C25_init_rejects 0 (by decide) (Or.inr three_ne_pow) demo

/-- Why positions must stay small: the comparison of two sequence numbers overflows at `2^63`. -/
example : sdiff (2 ^ 63) (2 ^ 63 - 1) = .error .ub := by decide +kernel

end Verif.Mpmc
