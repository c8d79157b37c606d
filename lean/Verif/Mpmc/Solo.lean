import Verif.Mpmc.Steps

/-! Calls that nobody disturbs. -/
namespace Verif.Mpmc

open Spec

variable {α : Type}

theorem run_append (s : State α) (a b : List (Nat × Act α)) : run s (a ++ b) = (do let s ← run s a; run s b) := by
  induction a generalizing s with
  | nil => rfl
  | cons x a ih =>
    obtain ⟨t, x⟩ := x
    simp only [List.cons_append, run]
    cases step s t x with
    | error e => rfl
    | ok s1 => simp only [R.ok_bind, ih]

theorem run_cons {s s' : State α} {t : Nat} {a : Act α} (h : step s t a = .ok s') (as : List (Nat × Act α)) : run s ((t, a) :: as) = run s' as := by
  simp only [run, h, R.ok_bind]

theorem run_idle {s : State α} {t : Nat} (h : (s.threads t).pc = .idle) (c : Nat) (as : List (Nat × Act α)) : run s ((t, .go c) :: as) = run s as := by
  refine run_cons ?_ as
  simp only [step, h, advance]

/-- The current position of a cell exists. -/
theorem cur_exists {s : State α} (C : Core s) (c : Nat) (hc : c < s.n) : ∃ q, q % s.n = c ∧ Free s q ∧ ¬ Done s q := by
  have aux : ∀ k : Nat, (∀ j, j ≤ k → Done s (c + j * s.n)) ∨ ∃ q, q % s.n = c ∧ Free s q ∧ ¬ Done s q := by
    intro k
    induction k with
    | zero =>
      by_cases h : Done s c
      · refine Or.inl (fun j hj => ?_)
        have : j = 0 := by omega
        rw [this, Nat.zero_mul]; exact h
      · exact Or.inr ⟨c, Nat.mod_eq_of_lt hc, Or.inl hc, h⟩
    | succ k ih =>
      rcases ih with ih | ih
      · by_cases h : Done s (c + (k + 1) * s.n)
        · refine Or.inl (fun j hj => ?_)
          by_cases e : j = k + 1
          · rw [e]; exact h
          · exact ih j (by omega)
        · refine Or.inr ⟨c + (k + 1) * s.n, ?_, Or.inr ⟨?_, ?_⟩, h⟩
          · rw [Nat.add_mul_mod_self_right, Nat.mod_eq_of_lt hc]
          · rw [Nat.succ_mul]; omega
          · rw [Nat.succ_mul, show c + (k * s.n + s.n) - s.n = c + k * s.n by omega]
            exact ih k (Nat.le_refl _)
      · exact Or.inr ih
  rcases aux s.deqLog.length with h | h
  · have h1 := done_lt (h _ (Nat.le_refl _))
    have h2 : s.deqLog.length * 1 ≤ s.deqLog.length * s.n := Nat.mul_le_mul_left _ (by omega)
    omega
  · exact h

/-- What the newest sequence number of a cell says. -/
theorem newest {s : State α} (C : Core s) (pos : Nat) : ∃ q m rest, q % s.n = pos % s.n ∧ Free s q ∧ ¬ Done s q ∧ (s.cells (pos % s.n)).msgs = m :: rest ∧
    (Published s q → m.seq = q + 1) ∧ (¬ Published s q → m.seq = q) := by
  obtain ⟨q, hq, hf, hd⟩ := cur_exists C (pos % s.n) (Nat.mod_lt _ (by have := C.n2; omega))
  obtain ⟨m, rest, h1, h2, h3⟩ := C.head q hf hd
  rw [hq] at h1
  exact ⟨q, m, rest, hq, hf, hd, h1, h2, h3⟩

/-- The newest sequence number is behind the position of an enqueue: the queue is full. -/
theorem full_of_behind {s : State α} (C : Core s) {pos : Nat} (hpos : pos ≤ s.enqLog.length) {m : Msg} {rest : List Msg}
    (hm : (s.cells (pos % s.n)).msgs = m :: rest) (h : m.seq < pos) : Full s := by
  obtain ⟨q, m', rest', hq, hf, hd, h1, h2, h3⟩ := newest C pos
  rw [hm] at h1
  cases h1
  have hqp : q < pos := by
    by_cases hp : Published s q
    · have := h2 hp; omega
    · have := h3 hp; omega
  have ha := apart hq hqp
  have hpn : s.n ≤ pos := by omega
  have hnd : ¬ Done s (pos - s.n) := fun hd' => hd (done_down C _ q hd' (by omega) (by rw [hq, sub_mod hpn]))
  have he : pos = s.enqLog.length := by
    by_cases e : pos = s.enqLog.length
    · exact e
    · rcases C.free pos (by omega) with h' | ⟨_, h'⟩
      · omega
      · exact (hnd h').elim
  rw [he] at hpn hnd
  exact ⟨hpn, hnd⟩

/-- The newest sequence number is behind the position of a dequeue: no value is there. -/
theorem empty_of_behind {s : State α} (C : Core s) {pos : Nat} (hpos : pos ≤ s.deqLog.length) {m : Msg} {rest : List Msg}
    (hm : (s.cells (pos % s.n)).msgs = m :: rest) (h : m.seq < pos + 1) : Spec.Empty s := by
  obtain ⟨q, m', rest', hq, hf, hd, h1, h2, h3⟩ := newest C pos
  rw [hm] at h1
  cases h1
  have hnp : ¬ Published s pos := by
    intro hp
    by_cases e : q = pos
    · rw [e] at h2; have := h2 hp; omega
    · have hqp : q < pos := by
        by_cases hp : Published s q
        · have := h2 hp; omega
        · have := h3 hp; omega
      have ha := apart hq hqp
      rcases C.free pos (pub_lt hp) with h' | ⟨h', hd'⟩
      · omega
      · exact hd (done_down C _ q hd' (by omega) (by rw [hq, sub_mod h']))
  have he : pos = s.deqLog.length := by
    by_cases e : pos = s.deqLog.length
    · exact e
    · exact (hnp (C.pub pos (by omega))).elim
  unfold Spec.Empty
  rw [← he]
  exact hnp

/-! ### when no call is running -/

theorem quiet_published {s : State α} (I : Inv s) (Q : Quiescent s) {p : Nat} (h : p < s.enqLog.length) : Published s p := by
  have he : s.enqLog[p]? = some s.enqLog[p] := List.getElem?_eq_getElem h
  refine ⟨_, he, I.noE (t := s.enqLog[p].thread) (by rw [Q]; intro _ _ _ h; cases h) (by rw [Q]; intro _ _ h; cases h) he rfl⟩

theorem quiet_done {s : State α} (I : Inv s) (Q : Quiescent s) {p : Nat} (h : p < s.deqLog.length) : Done s p := by
  have he : s.deqLog[p]? = some s.deqLog[p] := List.getElem?_eq_getElem h
  obtain ⟨v, hv⟩ := I.noD (t := s.deqLog[p].thread) (by rw [Q]; intro _ _ h; cases h) (by rw [Q]; intro _ _ _ h; cases h) he rfl
  exact ⟨_, v, he, hv⟩

theorem content_length (s : State α) : (content s).length = s.enqLog.length - s.deqLog.length := by simp [content, values]

theorem goto_pc (s : State α) (t : Nat) (pc : Pc α) : ((s.goto t pc).threads t).pc = pc := by
  change (upd s.threads t _ t).pc = pc
  rw [upd_same]

theorem goto_ne (s : State α) {t t' : Nat} (pc : Pc α) (h : t' ≠ t) : (s.goto t pc).threads t' = s.threads t' := upd_ne _ _ h

/-- An undisturbed enqueue into a queue with room. -/
theorem solo_enqueue_room {s : State α} (I : Inv s) (Q : Quiescent s) (t : Nat) (v : α) (hroom : s.enqLog.length < s.deqLog.length + s.n)
    (hs : s.enqLog.length + 1 + s.n < 2 ^ 63) :
    ∃ s', run s (soloEnqueue t v) = .ok s' ∧ Inv s' ∧ Quiescent s' ∧ s'.n = s.n ∧ s'.rets = (t, .enqueued true) :: s.rets ∧
      s'.enqLog = s.enqLog ++ [{ val := v, stage := .published, thread := t }] ∧ s'.deqLog = s.deqLog := by
  have C := I.core
  have hn2 := C.n2
  have hidle := Q t
  have hle := C.le
  -- begin
  have e1 : step s t (.enqueue v) = .ok (s.goto t (.eLoad v)) := by simp only [step, hidle, begin]
  have I1 : Inv (s.goto t (.eLoad v)) := I.goto t (by rw [hidle]; trivial) _ trivial
  -- load the position
  generalize hs1 : s.goto t (.eLoad v) = s1 at e1 I1
  have p1 : (s1.threads t).pc = .eLoad v := by rw [← hs1]; exact goto_pc _ _ _
  have e2 : step s1 t (.go 0) = .ok (s1.goto t (.eSeq v s1.enq)) := by simp only [step, p1, advance, enqLoad, List.getElem?_cons_zero]
  have q1 : s1.enq = s.enqLog.length := by rw [← hs1]; exact C.enq
  rw [q1] at e2
  have l1 : s1.enqLog = s.enqLog ∧ s1.deqLog = s.deqLog ∧ s1.n = s.n ∧ s1.rets = s.rets := by rw [← hs1]; exact ⟨rfl, rfl, rfl, rfl⟩
  have o1 : ∀ t', t' ≠ t → (s1.threads t').pc = .idle := by intro t' h; rw [← hs1, goto_ne _ _ h]; exact Q t'
  have I2 : Inv (s1.goto t (.eSeq v s.enqLog.length)) := I1.goto t (by rw [p1]; trivial) _ (by change _ ≤ s1.enqLog.length; rw [l1.1]; exact Nat.le_refl _)
  -- load the sequence number
  generalize hs2 : s1.goto t (.eSeq v s.enqLog.length) = s2 at e2 I2
  have p2 : (s2.threads t).pc = .eSeq v s.enqLog.length := by rw [← hs2]; exact goto_pc _ _ _
  have l2 : s2.enqLog = s.enqLog ∧ s2.deqLog = s.deqLog ∧ s2.n = s.n ∧ s2.rets = s.rets ∧ s2.enq = s.enqLog.length := by
    rw [← hs2]; exact ⟨l1.1, l1.2.1, l1.2.2.1, l1.2.2.2, q1⟩
  have o2 : ∀ t', t' ≠ t → (s2.threads t').pc = .idle := by intro t' h; rw [← hs2, goto_ne _ _ h]; exact o1 t' h
  have C2 := I2.core
  have hd2 : ∀ p, Done s2 p ↔ Done s p := by intro p; unfold Done; rw [l2.2.1]
  have hp2 : ∀ p, Published s2 p ↔ Published s p := by intro p; unfold Published; rw [l2.1]
  have hf2 : Free s2 s.enqLog.length := by
    unfold Free
    rw [l2.2.2.1]
    by_cases h : s.enqLog.length < s.n
    · exact Or.inl h
    · exact Or.inr ⟨by omega, (hd2 _).2 (quiet_done I Q (by omega))⟩
  have hnd2 : ¬ Done s2 s.enqLog.length := fun h => by have := done_lt h; rw [l2.2.1] at this; omega
  have hnp2 : ¬ Published s2 s.enqLog.length := fun h => by have := pub_lt h; rw [l2.1] at this; omega
  obtain ⟨m, rest, hm, _, hms⟩ := C2.head _ hf2 hnd2
  have hms := hms hnp2
  obtain ⟨s3, e3, I3⟩ := enqSeq_ok I2 0 p2
  have e3' : step s2 t (.go 0) = .ok s3 := by simp only [step, p2, advance]; exact e3
  have h3 : s3 = (s2.acquire t m).goto t (.eCas v s.enqLog.length) := by
    unfold enqSeq at e3
    rw [idx_eq C2, ccAssert_true (decide_eq_true (Nat.mod_lt _ (by omega))), R.ok_bind, hm] at e3
    simp only [List.getElem?_cons_zero] at e3
    rw [hms, sdiff_small (by omega) (by omega), R.ok_bind] at e3
    simp only [enqBranch, Int.sub_self, if_true] at e3
    cases e3
    rfl
  have p3 : (s3.threads t).pc = .eCas v s.enqLog.length := by rw [h3]; exact goto_pc _ _ _
  have l3 : s3.enqLog = s.enqLog ∧ s3.deqLog = s.deqLog ∧ s3.n = s.n ∧ s3.rets = s.rets ∧ s3.enq = s.enqLog.length := by rw [h3]; exact l2
  have o3 : ∀ t', t' ≠ t → (s3.threads t').pc = .idle := by
    intro t' h; rw [h3, goto_ne _ _ h]
    change (upd s2.threads t _ t').pc = _
    rw [upd_ne _ _ h]; exact o2 t' h
  -- claim
  have e4 : step s3 t (.go 0) = .ok { s3.goto t (.eWrite v s.enqLog.length s3.enqLog.length) with
      enq := (s.enqLog.length + 1) % 2 ^ 64, enqOld := s3.enq :: s3.enqOld, enqLog := s3.enqLog ++ [{ val := v, stage := .claimed, thread := t }] } := by
    simp only [step, p3, advance, enqCas, if_true, l3.2.2.2.2]
  have I4 := I3.enqClaim p3 l3.2.2.2.2 (by rw [l3.1, l3.2.2.1]; exact hs)
  generalize hs4 : ({ s3.goto t (.eWrite v s.enqLog.length s3.enqLog.length) with
      enq := (s.enqLog.length + 1) % 2 ^ 64, enqOld := s3.enq :: s3.enqOld,
      enqLog := s3.enqLog ++ [{ val := v, stage := .claimed, thread := t }] } : State α) = s4 at e4 I4
  have p4 : (s4.threads t).pc = .eWrite v s.enqLog.length s.enqLog.length := by rw [← hs4, l3.1]; exact goto_pc _ _ _
  have l4 : s4.enqLog = s.enqLog ++ [{ val := v, stage := .claimed, thread := t }] ∧ s4.deqLog = s.deqLog ∧ s4.n = s.n ∧ s4.rets = s.rets := by
    rw [← hs4]; exact ⟨by rw [l3.1], l3.2.1, l3.2.2.1, l3.2.2.2.1⟩
  have o4 : ∀ t', t' ≠ t → (s4.threads t').pc = .idle := by
    intro t' h; rw [← hs4]
    change ((s3.goto t _).threads t').pc = _
    rw [goto_ne _ _ h]; exact o3 t' h
  -- write
  obtain ⟨s5, e5, I5⟩ := I4.enqWritten p4
  have e5' : step s4 t (.go 0) = .ok s5 := by simp only [step, p4, advance]; exact e5
  have h5 : s5 = { accessed s4 t (s4.idx s.enqLog.length) v (.ePub s.enqLog.length s.enqLog.length) with
      enqLog := setStage s4.enqLog s.enqLog.length .written } := by
    unfold enqWrite at e5
    rw [R.bind_eq_ok] at e5
    obtain ⟨_, _, h⟩ := e5
    cases h
    rfl
  have p5 : (s5.threads t).pc = .ePub s.enqLog.length s.enqLog.length := by
    rw [h5]
    change (upd s4.threads t _ t).pc = _
    rw [upd_same]
  have l5 : s5.enqLog = s.enqLog ++ [{ val := v, stage := .written, thread := t }] ∧ s5.deqLog = s.deqLog ∧ s5.n = s.n ∧ s5.rets = s.rets := by
    refine ⟨?_, by rw [h5]; exact l4.2.1, by rw [h5]; exact l4.2.2.1, by rw [h5]; exact l4.2.2.2⟩
    rw [h5]
    change setStage s4.enqLog s.enqLog.length .written = _
    rw [l4.1, setStage_eq (e := { val := v, stage := .claimed, thread := t }) (by simp)]
    simp
  have o5 : ∀ t', t' ≠ t → (s5.threads t').pc = .idle := by
    intro t' h; rw [h5]
    change (upd s4.threads t _ t').pc = _
    rw [upd_ne _ _ h]; exact o4 t' h
  -- publish
  obtain ⟨s6, e6, I6⟩ := I5.enqPublished p5
  have e6' : step s5 t (.go 0) = .ok s6 := by simp only [step, p5, advance]; exact e6
  have h6 : s6 = { (s5.store t (s5.idx s.enqLog.length) ((s.enqLog.length + 1) % 2 ^ 64)).ret t (.enqueued true) with
      enqLog := setStage s5.enqLog s.enqLog.length .published } := by
    unfold enqPub at e6
    cases e6
    rfl
  refine ⟨s6, ?_, I6, fun t' => ?_, ?_, ?_, ?_, ?_⟩
  · unfold soloEnqueue
    rw [run_cons e1, run_cons e2, run_cons e3', run_cons e4, run_cons e5', run_cons e6']
    rfl
  · rw [h6]
    change (upd s5.threads t _ t').pc = _
    by_cases h : t' = t
    · rw [h, upd_same]
    · rw [upd_ne _ _ h]; exact o5 t' h
  · rw [h6]; exact l5.2.2.1
  · rw [h6]
    change (t, Ret.enqueued true) :: s5.rets = _
    rw [l5.2.2.2]
  · rw [h6]
    change setStage s5.enqLog s.enqLog.length .published = _
    rw [l5.1, setStage_eq (e := { val := v, stage := .written, thread := t }) (by simp)]
    simp
  · rw [h6]; exact l5.2.1

/-- An undisturbed enqueue into a full queue. -/
theorem solo_enqueue_full {s : State α} (I : Inv s) (Q : Quiescent s) (t : Nat) (v : α) (hroom : s.deqLog.length + s.n ≤ s.enqLog.length) :
    ∃ s', run s (soloEnqueue t v) = .ok s' ∧ Inv s' ∧ Quiescent s' ∧ s'.n = s.n ∧ s'.rets = (t, .enqueued false) :: s.rets ∧
      s'.enqLog = s.enqLog ∧ s'.deqLog = s.deqLog := by
  have C := I.core
  have hn2 := C.n2
  have hidle := Q t
  have hle := C.le
  have hsm := C.small
  have e1 : step s t (.enqueue v) = .ok (s.goto t (.eLoad v)) := by simp only [step, hidle, begin]
  have I1 : Inv (s.goto t (.eLoad v)) := I.goto t (by rw [hidle]; trivial) _ trivial
  generalize hs1 : s.goto t (.eLoad v) = s1 at e1 I1
  have p1 : (s1.threads t).pc = .eLoad v := by rw [← hs1]; exact goto_pc _ _ _
  have e2 : step s1 t (.go 0) = .ok (s1.goto t (.eSeq v s1.enq)) := by simp only [step, p1, advance, enqLoad, List.getElem?_cons_zero]
  have q1 : s1.enq = s.enqLog.length := by rw [← hs1]; exact C.enq
  rw [q1] at e2
  have l1 : s1.enqLog = s.enqLog ∧ s1.deqLog = s.deqLog ∧ s1.n = s.n ∧ s1.rets = s.rets := by rw [← hs1]; exact ⟨rfl, rfl, rfl, rfl⟩
  have o1 : ∀ t', t' ≠ t → (s1.threads t').pc = .idle := by intro t' h; rw [← hs1, goto_ne _ _ h]; exact Q t'
  have I2 : Inv (s1.goto t (.eSeq v s.enqLog.length)) := I1.goto t (by rw [p1]; trivial) _ (by change _ ≤ s1.enqLog.length; rw [l1.1]; exact Nat.le_refl _)
  generalize hs2 : s1.goto t (.eSeq v s.enqLog.length) = s2 at e2 I2
  have p2 : (s2.threads t).pc = .eSeq v s.enqLog.length := by rw [← hs2]; exact goto_pc _ _ _
  have l2 : s2.enqLog = s.enqLog ∧ s2.deqLog = s.deqLog ∧ s2.n = s.n ∧ s2.rets = s.rets ∧ s2.enq = s.enqLog.length := by
    rw [← hs2]; exact ⟨l1.1, l1.2.1, l1.2.2.1, l1.2.2.2, q1⟩
  have o2 : ∀ t', t' ≠ t → (s2.threads t').pc = .idle := by intro t' h; rw [← hs2, goto_ne _ _ h]; exact o1 t' h
  have C2 := I2.core
  have hp2 : ∀ p, Published s2 p ↔ Published s p := by intro p; unfold Published; rw [l2.1]
  have hE : s.enqLog.length - s.n < s.enqLog.length := by omega
  have hf2 : Free s2 (s.enqLog.length - s.n) := C2.free _ (by rw [l2.1]; exact hE)
  have hnd2 : ¬ Done s2 (s.enqLog.length - s.n) := fun h => by have := done_lt h; rw [l2.2.1] at this; omega
  obtain ⟨m, rest, hm, hms, _⟩ := C2.head _ hf2 hnd2
  have hms := hms ((hp2 _).2 (quiet_published I Q hE))
  have hmod : (s.enqLog.length - s.n) % s2.n = s.enqLog.length % s2.n := by rw [l2.2.2.1]; exact sub_mod (by omega)
  rw [hmod] at hm
  obtain ⟨s3, e3, I3⟩ := enqSeq_ok I2 0 p2
  have e3' : step s2 t (.go 0) = .ok s3 := by simp only [step, p2, advance]; exact e3
  have h3 : s3 = (s2.acquire t m).ret t (.enqueued false) := by
    unfold enqSeq at e3
    rw [idx_eq C2, ccAssert_true (decide_eq_true (Nat.mod_lt _ (by omega))), R.ok_bind, hm] at e3
    simp only [List.getElem?_cons_zero] at e3
    rw [hms, sdiff_small (by omega) (by omega), R.ok_bind] at e3
    unfold enqBranch at e3
    rw [if_neg (by omega), if_pos (by omega)] at e3
    cases e3
    rfl
  have p3 : (s3.threads t).pc = .idle := by rw [h3]; exact goto_pc _ _ _
  refine ⟨s3, ?_, I3, fun t' => ?_, ?_, ?_, ?_, ?_⟩
  · unfold soloEnqueue
    rw [run_cons e1, run_cons e2, run_cons e3', run_idle p3, run_idle p3, run_idle p3]
    rfl
  · by_cases h : t' = t
    · rw [h]; exact p3
    · rw [h3, acquire_ret]
      change (upd s2.threads t _ t').pc = _
      rw [upd_ne _ _ h]; exact o2 t' h
  · rw [h3]; exact l2.2.2.1
  · rw [h3, acquire_ret]
    change (t, Ret.enqueued false) :: s2.rets = _
    rw [l2.2.2.2.1]
  · rw [h3]; exact l2.1
  · rw [h3]; exact l2.2.1

/-- An undisturbed dequeue from a queue that is not empty. -/
theorem solo_dequeue_some {s : State α} (I : Inv s) (Q : Quiescent s) (t : Nat) (hne : s.deqLog.length < s.enqLog.length) :
    ∃ s' v, run s (soloDequeue t) = .ok s' ∧ Inv s' ∧ Quiescent s' ∧ s'.n = s.n ∧ s'.rets = (t, .dequeued (some v)) :: s.rets ∧
      s'.enqLog = s.enqLog ∧ s'.deqLog = s.deqLog ++ [{ stage := .done v, thread := t }] ∧ (values s)[s.deqLog.length]? = some v := by
  have C := I.core
  have hn2 := C.n2
  have hidle := Q t
  have hle := C.le
  have hsm := C.small
  have e1 : step s t .dequeue = .ok (s.goto t .dLoad) := by simp only [step, hidle, begin]
  have I1 : Inv (s.goto t .dLoad) := I.goto t (by rw [hidle]; trivial) _ trivial
  generalize hs1 : s.goto t .dLoad = s1 at e1 I1
  have p1 : (s1.threads t).pc = .dLoad := by rw [← hs1]; exact goto_pc _ _ _
  have e2 : step s1 t (.go 0) = .ok (s1.goto t (.dSeq s1.deq)) := by simp only [step, p1, advance, deqLoad, List.getElem?_cons_zero]
  have q1 : s1.deq = s.deqLog.length := by rw [← hs1]; exact C.deq
  rw [q1] at e2
  have l1 : s1.enqLog = s.enqLog ∧ s1.deqLog = s.deqLog ∧ s1.n = s.n ∧ s1.rets = s.rets := by rw [← hs1]; exact ⟨rfl, rfl, rfl, rfl⟩
  have o1 : ∀ t', t' ≠ t → (s1.threads t').pc = .idle := by intro t' h; rw [← hs1, goto_ne _ _ h]; exact Q t'
  have I2 : Inv (s1.goto t (.dSeq s.deqLog.length)) := I1.goto t (by rw [p1]; trivial) _ (by change _ ≤ s1.deqLog.length; rw [l1.2.1]; exact Nat.le_refl _)
  generalize hs2 : s1.goto t (.dSeq s.deqLog.length) = s2 at e2 I2
  have p2 : (s2.threads t).pc = .dSeq s.deqLog.length := by rw [← hs2]; exact goto_pc _ _ _
  have l2 : s2.enqLog = s.enqLog ∧ s2.deqLog = s.deqLog ∧ s2.n = s.n ∧ s2.rets = s.rets ∧ s2.deq = s.deqLog.length := by
    rw [← hs2]; exact ⟨l1.1, l1.2.1, l1.2.2.1, l1.2.2.2, q1⟩
  have o2 : ∀ t', t' ≠ t → (s2.threads t').pc = .idle := by intro t' h; rw [← hs2, goto_ne _ _ h]; exact o1 t' h
  have C2 := I2.core
  have hp2 : ∀ p, Published s2 p ↔ Published s p := by intro p; unfold Published; rw [l2.1]
  have hf2 : Free s2 s.deqLog.length := C2.free _ (by rw [l2.1]; exact hne)
  have hnd2 : ¬ Done s2 s.deqLog.length := fun h => by have := done_lt h; rw [l2.2.1] at this; omega
  obtain ⟨m, rest, hm, hms, _⟩ := C2.head _ hf2 hnd2
  have hms := hms ((hp2 _).2 (quiet_published I Q hne))
  obtain ⟨s3, e3, I3⟩ := deqSeq_ok I2 0 p2
  have e3' : step s2 t (.go 0) = .ok s3 := by simp only [step, p2, advance]; exact e3
  have hmod1 : (s.deqLog.length + 1) % 2 ^ 64 = s.deqLog.length + 1 := Nat.mod_eq_of_lt (by omega)
  have h3 : s3 = (s2.acquire t m).goto t (.dCas s.deqLog.length) := by
    unfold deqSeq at e3
    rw [idx_eq C2, ccAssert_true (decide_eq_true (Nat.mod_lt _ (by omega))), R.ok_bind, hm] at e3
    simp only [List.getElem?_cons_zero] at e3
    rw [hms, hmod1, sdiff_small (by omega) (by omega), R.ok_bind] at e3
    simp only [deqBranch, Int.sub_self, if_true] at e3
    cases e3
    rfl
  have p3 : (s3.threads t).pc = .dCas s.deqLog.length := by rw [h3]; exact goto_pc _ _ _
  have l3 : s3.enqLog = s.enqLog ∧ s3.deqLog = s.deqLog ∧ s3.n = s.n ∧ s3.rets = s.rets ∧ s3.deq = s.deqLog.length := by rw [h3]; exact l2
  have o3 : ∀ t', t' ≠ t → (s3.threads t').pc = .idle := by
    intro t' h; rw [h3, goto_ne _ _ h]
    change (upd s2.threads t _ t').pc = _
    rw [upd_ne _ _ h]; exact o2 t' h
  have e4 : step s3 t (.go 0) = .ok { s3.goto t (.dRead s.deqLog.length s3.deqLog.length) with
      deq := (s.deqLog.length + 1) % 2 ^ 64, deqOld := s3.deq :: s3.deqOld, deqLog := s3.deqLog ++ [{ stage := .claimed, thread := t }] } := by
    simp only [step, p3, advance, deqCas, if_true, l3.2.2.2.2]
  have I4 := I3.deqClaim p3 l3.2.2.2.2
  generalize hs4 : ({ s3.goto t (.dRead s.deqLog.length s3.deqLog.length) with
      deq := (s.deqLog.length + 1) % 2 ^ 64, deqOld := s3.deq :: s3.deqOld,
      deqLog := s3.deqLog ++ [{ stage := .claimed, thread := t }] } : State α) = s4 at e4 I4
  have p4 : (s4.threads t).pc = .dRead s.deqLog.length s.deqLog.length := by rw [← hs4, l3.2.1]; exact goto_pc _ _ _
  have l4 : s4.enqLog = s.enqLog ∧ s4.deqLog = s.deqLog ++ [{ stage := .claimed, thread := t }] ∧ s4.n = s.n ∧ s4.rets = s.rets := by
    rw [← hs4]; exact ⟨l3.1, by rw [l3.2.1], l3.2.2.1, l3.2.2.2.1⟩
  have o4 : ∀ t', t' ≠ t → (s4.threads t').pc = .idle := by
    intro t' h; rw [← hs4]
    change ((s3.goto t _).threads t').pc = _
    rw [goto_ne _ _ h]; exact o3 t' h
  obtain ⟨s5, e5, I5⟩ := I4.deqReadOk p4
  have e5' : step s4 t (.go 0) = .ok s5 := by simp only [step, p4, advance]; exact e5
  generalize hv : (s4.cells (s4.idx s.deqLog.length)).data = v
  have h5 : s5 = { accessed s4 t (s4.idx s.deqLog.length) v (.dRel s.deqLog.length s.deqLog.length v) with
      deqLog := setDStage s4.deqLog s.deqLog.length (.read v) } := by
    unfold deqRead at e5
    rw [R.bind_eq_ok] at e5
    obtain ⟨_, _, h⟩ := e5
    rw [hv] at h
    cases h
    rfl
  have p5 : (s5.threads t).pc = .dRel s.deqLog.length s.deqLog.length v := by
    rw [h5]
    change (upd s4.threads t _ t).pc = _
    rw [upd_same]
  have l5 : s5.enqLog = s.enqLog ∧ s5.deqLog = s.deqLog ++ [{ stage := .read v, thread := t }] ∧ s5.n = s.n ∧ s5.rets = s.rets := by
    refine ⟨by rw [h5]; exact l4.1, ?_, by rw [h5]; exact l4.2.2.1, by rw [h5]; exact l4.2.2.2⟩
    rw [h5]
    change setDStage s4.deqLog s.deqLog.length (.read v) = _
    rw [l4.2.1, setDStage_eq (e := { stage := .claimed, thread := t }) (by simp)]
    simp
  have o5 : ∀ t', t' ≠ t → (s5.threads t').pc = .idle := by
    intro t' h; rw [h5]
    change (upd s4.threads t _ t').pc = _
    rw [upd_ne _ _ h]; exact o4 t' h
  obtain ⟨s6, e6, I6⟩ := I5.deqReleased p5
  have e6' : step s5 t (.go 0) = .ok s6 := by simp only [step, p5, advance]; exact e6
  have h6 : s6 = { (s5.store t (s5.idx s.deqLog.length) ((s.deqLog.length + (s5.n - 1) + 1) % 2 ^ 64)).ret t (.dequeued (some v)) with
      deqLog := setDStage s5.deqLog s.deqLog.length (.done v) } := by
    unfold deqRel at e6
    cases e6
    rfl
  have hord := I5.core.order s.deqLog.length { stage := .read v, thread := t } v (by rw [l5.2.1]; simp) rfl
  rw [l5.1] at hord
  refine ⟨s6, v, ?_, I6, fun t' => ?_, ?_, ?_, ?_, ?_, ?_⟩
  · unfold soloDequeue
    rw [run_cons e1, run_cons e2, run_cons e3', run_cons e4, run_cons e5', run_cons e6']
    rfl
  · rw [h6]
    change (upd s5.threads t _ t').pc = _
    by_cases h : t' = t
    · rw [h, upd_same]
    · rw [upd_ne _ _ h]; exact o5 t' h
  · rw [h6]; exact l5.2.2.1
  · rw [h6]
    change (t, Ret.dequeued (some v)) :: s5.rets = _
    rw [l5.2.2.2]
  · rw [h6]; exact l5.1
  · rw [h6]
    change setDStage s5.deqLog s.deqLog.length (.done v) = _
    rw [l5.2.1, setDStage_eq (e := { stage := .read v, thread := t }) (by simp)]
    simp
  · unfold values
    rw [List.getElem?_map]
    exact hord

/-- An undisturbed dequeue from an empty queue. -/
theorem solo_dequeue_none {s : State α} (I : Inv s) (Q : Quiescent s) (t : Nat) (hne : s.deqLog.length = s.enqLog.length) :
    ∃ s', run s (soloDequeue t) = .ok s' ∧ Inv s' ∧ Quiescent s' ∧ s'.n = s.n ∧ s'.rets = (t, .dequeued none) :: s.rets ∧
      s'.enqLog = s.enqLog ∧ s'.deqLog = s.deqLog := by
  have C := I.core
  have hn2 := C.n2
  have hidle := Q t
  have hle := C.le
  have hsm := C.small
  have e1 : step s t .dequeue = .ok (s.goto t .dLoad) := by simp only [step, hidle, begin]
  have I1 : Inv (s.goto t .dLoad) := I.goto t (by rw [hidle]; trivial) _ trivial
  generalize hs1 : s.goto t .dLoad = s1 at e1 I1
  have p1 : (s1.threads t).pc = .dLoad := by rw [← hs1]; exact goto_pc _ _ _
  have e2 : step s1 t (.go 0) = .ok (s1.goto t (.dSeq s1.deq)) := by simp only [step, p1, advance, deqLoad, List.getElem?_cons_zero]
  have q1 : s1.deq = s.deqLog.length := by rw [← hs1]; exact C.deq
  rw [q1] at e2
  have l1 : s1.enqLog = s.enqLog ∧ s1.deqLog = s.deqLog ∧ s1.n = s.n ∧ s1.rets = s.rets := by rw [← hs1]; exact ⟨rfl, rfl, rfl, rfl⟩
  have o1 : ∀ t', t' ≠ t → (s1.threads t').pc = .idle := by intro t' h; rw [← hs1, goto_ne _ _ h]; exact Q t'
  have I2 : Inv (s1.goto t (.dSeq s.deqLog.length)) := I1.goto t (by rw [p1]; trivial) _ (by change _ ≤ s1.deqLog.length; rw [l1.2.1]; exact Nat.le_refl _)
  generalize hs2 : s1.goto t (.dSeq s.deqLog.length) = s2 at e2 I2
  have p2 : (s2.threads t).pc = .dSeq s.deqLog.length := by rw [← hs2]; exact goto_pc _ _ _
  have l2 : s2.enqLog = s.enqLog ∧ s2.deqLog = s.deqLog ∧ s2.n = s.n ∧ s2.rets = s.rets ∧ s2.deq = s.deqLog.length := by
    rw [← hs2]; exact ⟨l1.1, l1.2.1, l1.2.2.1, l1.2.2.2, q1⟩
  have o2 : ∀ t', t' ≠ t → (s2.threads t').pc = .idle := by intro t' h; rw [← hs2, goto_ne _ _ h]; exact o1 t' h
  have C2 := I2.core
  have hd2 : ∀ p, Done s2 p ↔ Done s p := by intro p; unfold Done; rw [l2.2.1]
  have hf2 : Free s2 s.deqLog.length := by
    unfold Free
    rw [l2.2.2.1]
    by_cases h : s.deqLog.length < s.n
    · exact Or.inl h
    · exact Or.inr ⟨by omega, (hd2 _).2 (quiet_done I Q (by omega))⟩
  have hnd2 : ¬ Done s2 s.deqLog.length := fun h => by have := done_lt h; rw [l2.2.1] at this; omega
  have hnp2 : ¬ Published s2 s.deqLog.length := fun h => by have := pub_lt h; rw [l2.1] at this; omega
  obtain ⟨m, rest, hm, _, hms⟩ := C2.head _ hf2 hnd2
  have hms := hms hnp2
  obtain ⟨s3, e3, I3⟩ := deqSeq_ok I2 0 p2
  have e3' : step s2 t (.go 0) = .ok s3 := by simp only [step, p2, advance]; exact e3
  have hmod1 : (s.deqLog.length + 1) % 2 ^ 64 = s.deqLog.length + 1 := Nat.mod_eq_of_lt (by omega)
  have h3 : s3 = (s2.acquire t m).ret t (.dequeued none) := by
    unfold deqSeq at e3
    rw [idx_eq C2, ccAssert_true (decide_eq_true (Nat.mod_lt _ (by omega))), R.ok_bind, hm] at e3
    simp only [List.getElem?_cons_zero] at e3
    rw [hms, hmod1, sdiff_small (by omega) (by omega), R.ok_bind] at e3
    unfold deqBranch at e3
    rw [if_neg (by omega), if_pos (by omega)] at e3
    cases e3
    rfl
  have p3 : (s3.threads t).pc = .idle := by rw [h3]; exact goto_pc _ _ _
  refine ⟨s3, ?_, I3, fun t' => ?_, ?_, ?_, ?_, ?_⟩
  · unfold soloDequeue
    rw [run_cons e1, run_cons e2, run_cons e3', run_idle p3, run_idle p3, run_idle p3]
    rfl
  · by_cases h : t' = t
    · rw [h]; exact p3
    · rw [h3, acquire_ret]
      change (upd s2.threads t _ t').pc = _
      rw [upd_ne _ _ h]; exact o2 t' h
  · rw [h3]; exact l2.2.2.1
  · rw [h3, acquire_ret]
    change (t, Ret.dequeued none) :: s2.rets = _
    rw [l2.2.2.2.1]
  · rw [h3]; exact l2.1
  · rw [h3]; exact l2.2.1

/-- Calls one after the other behave like a bounded queue. -/
theorem sequential_ok : ∀ (cs : List (Call α)) {s : State α}, Inv s → Quiescent s → s.enqLog.length + cs.length + s.n < 2 ^ 63 →
    ∃ s', run s (sequential cs) = .ok s' ∧ s'.rets = (bounded s.n (content s) cs).1.reverse ++ s.rets ∧ content s' = (bounded s.n (content s) cs).2 ∧ Quiescent s'
  | [], s, _, Q, _ => ⟨s, rfl, by simp [bounded], by simp [bounded], Q⟩
  | .enqueue t v :: cs, s, I, Q, hs => by
    have hle := I.core.le
    rw [List.length_cons] at hs
    by_cases h : s.enqLog.length < s.deqLog.length + s.n
    · obtain ⟨s1, h1, I1, Q1, n1, r1, e1, d1⟩ := solo_enqueue_room I Q t v h (by omega)
      have hc : content s1 = content s ++ [v] := by
        unfold content values
        rw [e1, d1, List.map_append, List.drop_append_of_le_length (by simpa using hle)]
        rfl
      obtain ⟨s2, h2, r2, c2, Q2⟩ := sequential_ok cs I1 Q1 (by rw [e1, n1]; simp only [List.length_append, List.length_cons, List.length_nil]; omega)
      refine ⟨s2, by rw [sequential, run_append, h1, R.ok_bind, h2], ?_, ?_, Q2⟩
      · rw [r2, r1, hc, n1, bounded, if_pos (by rw [content_length]; omega)]
        simp
      · rw [c2, hc, n1, bounded, if_pos (by rw [content_length]; omega)]
    · obtain ⟨s1, h1, I1, Q1, n1, r1, e1, d1⟩ := solo_enqueue_full I Q t v (by omega)
      have hc : content s1 = content s := by unfold content values; rw [e1, d1]
      obtain ⟨s2, h2, r2, c2, Q2⟩ := sequential_ok cs I1 Q1 (by rw [e1, n1]; omega)
      refine ⟨s2, by rw [sequential, run_append, h1, R.ok_bind, h2], ?_, ?_, Q2⟩
      · rw [r2, r1, hc, n1, bounded, if_neg (by rw [content_length]; omega)]
        simp
      · rw [c2, hc, n1, bounded, if_neg (by rw [content_length]; omega)]
  | .dequeue t :: cs, s, I, Q, hs => by
    have hle := I.core.le
    rw [List.length_cons] at hs
    by_cases h : s.deqLog.length < s.enqLog.length
    · obtain ⟨s1, v, h1, I1, Q1, n1, r1, e1, d1, hv⟩ := solo_dequeue_some I Q t h
      have hc : content s = v :: content s1 := by
        unfold content
        have hv1 : values s1 = values s := by unfold values; rw [e1]
        rw [hv1, d1]
        simp only [List.length_append, List.length_cons, List.length_nil]
        have hl : s.deqLog.length < (values s).length := by unfold values; simpa using h
        rw [List.drop_eq_getElem_cons hl]
        rw [List.getElem?_eq_getElem hl] at hv
        rw [Option.some.inj hv]
      obtain ⟨s2, h2, r2, c2, Q2⟩ := sequential_ok cs I1 Q1 (by rw [e1, n1]; omega)
      refine ⟨s2, by rw [sequential, run_append, h1, R.ok_bind, h2], ?_, ?_, Q2⟩
      · rw [r2, r1, hc, n1, bounded]
        simp
      · rw [c2, hc, n1, bounded]
    · have hz : s.deqLog.length = s.enqLog.length := by omega
      obtain ⟨s1, h1, I1, Q1, n1, r1, e1, d1⟩ := solo_dequeue_none I Q t hz
      have hc : content s = [] := List.eq_nil_of_length_eq_zero (by rw [content_length]; omega)
      have hc1 : content s1 = [] := List.eq_nil_of_length_eq_zero (by rw [content_length, e1, d1]; omega)
      obtain ⟨s2, h2, r2, c2, Q2⟩ := sequential_ok cs I1 Q1 (by rw [e1, n1]; omega)
      refine ⟨s2, by rw [sequential, run_append, h1, R.ok_bind, h2], ?_, ?_, Q2⟩
      · rw [r2, r1, hc1, hc, n1, bounded]
        simp
      · rw [c2, hc1, hc, n1, bounded]

end Verif.Mpmc
