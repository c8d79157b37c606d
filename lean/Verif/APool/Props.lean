import Verif.APool.Lemmas

/-! C33: the atomic pool allocator, with and without interleaved calls. -/
namespace Verif.APool
open Spec

theorem proper_of_properB : ∀ (sched : List (Nat × Act)) (s : State), properB s sched = true → Proper s sched
  | [], _, _ => trivial
  | (t, a) :: as, s, h => by
    unfold properB at h
    rw [Bool.and_eq_true] at h
    refine ⟨?_, fun s' e => ?_⟩
    · have h1 := h.1
      cases a with
      | alloc => trivial
      | go c => trivial
      | free i =>
        intro hi
        simp only [hi, ne_eq, not_true_eq_false, decide_false, Bool.false_or, List.any_eq_true, Bool.and_eq_true, beq_iff_eq] at h1
        exact h1
      | write i v =>
        intro hi
        simp only [hi, ne_eq, not_true_eq_false, decide_false, Bool.false_or, List.any_eq_true, Bool.and_eq_true, beq_iff_eq] at h1
        exact h1
    · have h2 := h.2
      rw [e] at h2
      exact proper_of_properB as s' h2

/-! ### The failures -/

/-- The schedule of the ABA failure: thread 0 reads block 0 and its link (block 1) and is stopped. Thread 1 allocates blocks 0 and 1 and frees block 0. Thread 0 goes on, its
compare-exchange succeeds, and block 1 becomes the first free block although thread 1 has it; thread 2 gets it. -/
def abaSchedule : List (Nat × Act) :=
  [(0, .alloc), (0, .go 0), (0, .go 0), (0, .go 0)] ++ soloAlloc 1 ++ soloAlloc 1 ++ soloFree 1 0 ++ [(0, .go 0)] ++ soloAlloc 2

/-- The full property fails: there is a schedule in which all clients behave, no step fails, and one block is given to two threads. -/
theorem C33_block_given_twice :
    ∃ s0 sched s, init 3 = .ok s0 ∧ Proper s0 sched ∧ run s0 sched = .ok s ∧
      s.given.map (fun g => (g.thread, g.block)) = [(2, 1), (0, 0), (1, 1)] ∧ ¬ Disjoint s := by
  have h0 : ((init 3).toOption.bind fun s0 => some (properB s0 abaSchedule)) = some true := by decide +kernel
  have h1 : ((init 3).toOption.bind fun s0 => (run s0 abaSchedule).toOption.map fun s => s.given.map (fun g => (g.thread, g.block))) = some [(2, 1), (0, 0), (1, 1)] := by
    decide +kernel
  cases e0 : init 3 with
  | error _ => rw [e0] at h0; cases h0
  | ok s0 =>
    rw [e0] at h0 h1
    have h0 : some (properB s0 abaSchedule) = some true := h0
    injection h0 with h0
    have h1 : ((run s0 abaSchedule).toOption.map fun s => s.given.map (fun g => (g.thread, g.block))) = some [(2, 1), (0, 0), (1, 1)] := h1
    cases e1 : run s0 abaSchedule with
    | error _ => rw [e1] at h1; cases h1
    | ok s =>
      rw [e1] at h1
      have h1 : some (s.given.map (fun g => (g.thread, g.block))) = some [(2, 1), (0, 0), (1, 1)] := h1
      injection h1 with h1
      refine ⟨s0, abaSchedule, s, rfl, proper_of_properB _ _ h0, e1, h1, fun hd => ?_⟩
      have h2 : s.given.map Given.block = [1, 0, 1] := by
        have := congrArg (List.map Prod.snd) h1
        rw [List.map_map] at this
        exact this
      have h3 := hd.blocks
      rw [h2] at h3
      exact absurd h3 (by decide)

/-- Also false: that `alloc` is either refused or succeeds. Two threads find one free block; the slower one dereferences a null pointer. -/
theorem C33_null_dereference :
    ∃ s0 sched, init 1 = .ok s0 ∧ Proper s0 sched ∧ run s0 sched = .error .ub := by
  have h0 : ((init 1).toOption.bind fun s0 => some (properB s0 ([(0, .alloc), (0, .go 0)] ++ soloAlloc 1 ++ [(0, .go 0), (0, .go 0)]))) = some true := by decide +kernel
  have h1 : ((init 1).toOption.bind fun s0 => some ((run s0 ([(0, .alloc), (0, .go 0)] ++ soloAlloc 1 ++ [(0, .go 0), (0, .go 0)])).map fun _ => ())) = some (.error .ub) := by
    decide +kernel
  cases e0 : init 1 with
  | error _ => rw [e0] at h0; cases h0
  | ok s0 =>
    rw [e0] at h0 h1
    have h0 : some (properB s0 _) = some true := h0
    injection h0 with h0
    have h1 : some ((run s0 _).map fun _ => ()) = some (.error .ub) := h1
    injection h1 with h1
    refine ⟨s0, _, rfl, proper_of_properB _ _ h0, ?_⟩
    cases e1 : run s0 ([(0, .alloc), (0, .go 0)] ++ soloAlloc 1 ++ [(0, .go 0), (0, .go 0)]) with
    | ok _ => rw [e1] at h1; cases h1
    | error f => rw [e1] at h1; injection h1 with h1; rw [h1]

/-- `free` accepts the address behind the last block and writes there. -/
theorem C33_free_behind_the_buffer (n : Nat) (s0 : State) (h : init n = .ok s0) (t : Nat) : run s0 [(t, .free n), (t, .go 0), (t, .go 0)] = .error .ub := by
  obtain ⟨_, hn, _, hpc⟩ := init_ok h
  have e1 : step s0 t (.free n) = .ok { s0.goto t (.fLoad n) with given := s0.given.filter (fun g => g.block ≠ n) } := by
    refine (if_pos (hpc t)).trans ?_
    unfold fCall
    rw [ccAssert_true (decide_eq_true (show n ≤ s0.n by omega)), R.ok_bind]
  unfold run
  rw [e1, R.ok_bind]
  unfold run
  change (advance _ t 0 (upd s0.pc t (.fLoad n) t) >>= _) = _
  rw [upd_same]
  change (Except.ok _ >>= _) = _
  rw [R.ok_bind]
  unfold run
  change (advance _ t 0 (upd (upd s0.pc t (.fLoad n)) t (.fWrite n s0.head) t) >>= _) = _
  rw [upd_same]
  change ((if n < s0.n then _ else _) >>= _) = _
  rw [if_neg (by omega)]
  rfl

/-! ### What holds -/

/-- Any number of threads, any schedule with stale loads and spurious failures, as long as no block returns to the free list while another thread stands between
reading this block's link and its compare-exchange, and the pool does not run empty between the check and the load of one `alloc`. -/
theorem C33_calm_partial (n : Nat) (s0 : State) (h : init n = .ok s0) (sched : List (Nat × Act)) (hp : Proper s0 sched) (hc : CalmRun s0 sched) :
    (∃ s, run s0 sched = .ok s ∧ Disjoint s) ∨ run s0 sched = .error .assert := by
  rcases run_ok sched (init_ok h).1 hp hc with ⟨s, fl, e, hi⟩ | e
  · exact Or.inl ⟨s, e, hi.disjoint⟩
  · exact Or.inr e

theorem run_append (s : State) (a b : List (Nat × Act)) : run s (a ++ b) = (run s a >>= fun s => run s b) := by
  induction a generalizing s with
  | nil => rfl
  | cons x a ih =>
    obtain ⟨t, x⟩ := x
    change (step s t x >>= fun s => run s (a ++ b)) = ((step s t x >>= fun s => run s a) >>= fun s => run s b)
    cases step s t x with
    | error e => rfl
    | ok s' => exact ih s'

theorem upd_upd {β : Type} (f : Nat → β) (i : Nat) (a b : β) : upd (upd f i a) i b = upd f i b := by
  funext j
  unfold upd
  split <;> rfl

theorem goto_goto (s : State) (t : Nat) (p q : Pc) : (s.goto t p).goto t q = s.goto t q := by
  unfold State.goto
  simp only [upd_upd]

theorem run_go (s : State) (t c : Nat) (p : Pc) (as : List (Nat × Act)) : run (s.goto t p) ((t, .go c) :: as) = (advance (s.goto t p) t c p >>= fun s => run s as) := by
  change (advance (s.goto t p) t c (upd s.pc t p t) >>= _) = _
  rw [upd_same]

/-- An undisturbed `alloc`. -/
theorem soloAlloc_ok {s : State} {fl : List Nat} (h : Inv s fl) (hq : Quiescent s) (t : Nat) :
    (fl = [] ∧ run s (soloAlloc t) = .error .assert) ∨
    ∃ i l s', fl = i :: l ∧ run s (soloAlloc t) = .ok s' ∧ (∃ fl', Inv s' fl') ∧ Quiescent s' ∧ s'.n = s.n ∧
      s'.given = { thread := t, block := i, val := none } :: s.given := by
  have e1 : run s (soloAlloc t) = run (s.goto t .aCheck) [(t, .go 0), (t, .go 0), (t, .go 0), (t, .go 0)] := by
    change (step s t .alloc >>= _) = _
    rw [show step s t .alloc = .ok (s.goto t .aCheck) from if_pos (hq t), R.ok_bind]
  cases fl with
  | nil =>
    left
    refine ⟨rfl, ?_⟩
    rw [e1, run_go]
    have hh : s.head = .null := h.chain
    have : advance (s.goto t .aCheck) t 0 .aCheck = .error .assert := by
      change (ccAssert (decide (s.head ≠ .null)) >>= _) = _
      rw [ccAssert_false (by simp [hh]), R.error_bind]
    rw [this, R.error_bind]
  | cons i l =>
    right
    have hh : s.head = .block i := h.chain.1
    have hi : i < s.n := h.flb i (by simp)
    have e2 : advance (s.goto t .aCheck) t 0 .aCheck = .ok (s.goto t .aLoad) := by
      change (ccAssert (decide (s.head ≠ .null)) >>= _) = _
      rw [ccAssert_true (by simp [hh]), R.ok_bind, goto_goto]
    have e3 : advance (s.goto t .aLoad) t 0 .aLoad = .ok (s.goto t (.aRead (.block i))) := by
      change Except.ok ((s.goto t .aLoad).goto t (.aRead s.head)) = _
      rw [goto_goto, hh]
    have e4 : advance (s.goto t (.aRead (.block i))) t 0 (.aRead (.block i)) = .ok (s.goto t (.aCas (.block i) (s.mem i).asPtr)) := by
      change (if i < s.n then _ else _) = _
      rw [if_pos hi, goto_goto]
      rfl
    have h4 : Inv (s.goto t (.aCas (.block i) (s.mem i).asPtr)) (i :: l) :=
      goto_ok h t _ (by rw [hq t]; rfl) ⟨i, hi, rfl, fun _ => rfl⟩
    obtain ⟨s', fl', e5, h5⟩ := aCas_ok h4 (t := t) 0 (upd_same _ _ _)
    have e6 : aCas (s.goto t (.aCas (.block i) (s.mem i).asPtr)) t (.block i) (s.mem i).asPtr 0 =
        .ok { s.goto t .idle with head := (s.mem i).asPtr, older := s.head :: s.older, given := { thread := t, block := i, val := none } :: s.given } := by
      unfold aCas
      rw [if_pos ⟨rfl, hh⟩]
      simp only [goto_goto]
      rfl
    rw [e6] at e5
    injection e5 with e5
    subst e5
    refine ⟨i, l, _, rfl, ?_, ⟨fl', h5⟩, fun u => ?_, rfl, rfl⟩
    · rw [e1, run_go, e2, R.ok_bind, run_go, e3, R.ok_bind, run_go, e4, R.ok_bind, run_go]
      change (aCas _ t _ _ 0 >>= _) = _
      rw [e6, R.ok_bind]
      rfl
    · change upd s.pc t .idle u = .idle
      by_cases e : u = t
      · subst e; exact upd_same _ _ _
      · rw [upd_ne _ _ e]; exact hq u

/-- An undisturbed `free`. -/
theorem soloFree_ok {s : State} {fl : List Nat} (h : Inv s fl) (hq : Quiescent s) (t i : Nat) (hh : Has s t i) :
    ∃ s' fl', run s (soloFree t i) = .ok s' ∧ Inv s' fl' ∧ Quiescent s' ∧ s'.n = s.n ∧ s'.given = s.given.filter (fun g => g.block ≠ i) ∧ s'.head = .block i := by
  obtain ⟨s1, e1, h1⟩ := fCall_ok h (hq t) hh
  have hi : i < s.n := by obtain ⟨g, hg, _, e⟩ := hh; rw [← e]; exact (h.giv g hg).1
  have e1' : fCall s t i = .ok (({ s with given := s.given.filter (fun g => g.block ≠ i) } : State).goto t (.fLoad i)) := by
    unfold fCall
    rw [ccAssert_true (decide_eq_true (show i ≤ s.n by omega)), R.ok_bind]
    rfl
  rw [e1'] at e1
  injection e1 with e1
  subst e1
  generalize hb : ({ s with given := s.given.filter (fun g => g.block ≠ i) } : State) = b at *
  have hbh : b.head = s.head := by rw [← hb]
  have hbn : b.n = s.n := by rw [← hb]
  have hbp : b.pc = s.pc := by rw [← hb]
  have hbg : b.given = s.given.filter (fun g => g.block ≠ i) := by rw [← hb]
  have e2 : advance (b.goto t (.fLoad i)) t 0 (.fLoad i) = .ok (b.goto t (.fWrite i b.head)) := by
    change Except.ok ((b.goto t (.fLoad i)).goto t (.fWrite i b.head)) = _
    rw [goto_goto]
  have h2 : Inv (b.goto t (.fWrite i b.head)) fl := by
    have := goto_ok h1 t (.fWrite i b.head) (by change some i = transit (upd b.pc t (.fLoad i) t); rw [upd_same]; rfl) (h1.heads b.head (List.mem_cons_self))
    rwa [goto_goto] at this
  obtain ⟨s3, e3, h3⟩ := fWrite_ok h2 (t := t) (i := i) (x := b.head) (upd_same _ _ _)
  have e3' : fWrite (b.goto t (.fWrite i b.head)) t i b.head = .ok (({ b with mem := upd b.mem i (.link b.head) } : State).goto t (.fCas i b.head)) := by
    unfold fWrite
    rw [if_pos (show i < (b.goto t (.fWrite i b.head)).n by change i < b.n; omega)]
    simp only [goto_goto]
    rfl
  rw [e3'] at e3
  injection e3 with e3
  subst e3
  obtain ⟨s4, fl4, e4, h4⟩ := fCas_ok h3 (t := t) (i := i) (x := b.head) 0 (upd_same _ _ _) (by
    intro _ u nxt hu
    have hu : upd b.pc t (.fCas i b.head) u = _ := hu
    by_cases e : u = t
    · subst e; rw [upd_same] at hu; cases hu
    · rw [upd_ne _ _ e, hbp, hq u] at hu; cases hu)
  have e4' : fCas (({ b with mem := upd b.mem i (.link b.head) } : State).goto t (.fCas i b.head)) t i b.head 0 =
      .ok { ({ b with mem := upd b.mem i (.link b.head) } : State).goto t .idle with head := .block i, older := b.head :: b.older } := by
    unfold fCas
    rw [if_pos ⟨rfl, rfl⟩]
    simp only [goto_goto]
    rfl
  rw [e4'] at e4
  injection e4 with e4
  subst e4
  refine ⟨_, fl4, ?_, h4, fun u => ?_, hbn, hbg, rfl⟩
  · change (step s t (.free i) >>= _) = _
    rw [show step s t (.free i) = .ok (b.goto t (.fLoad i)) from (if_pos (hq t)).trans e1', R.ok_bind, run_go, e2, R.ok_bind, run_go]
    change (fWrite _ t i b.head >>= _) = _
    rw [e3', R.ok_bind, run_go]
    change (fCas _ t i b.head 0 >>= _) = _
    rw [e4', R.ok_bind]
    rfl
  · change upd b.pc t .idle u = .idle
    by_cases e : u = t
    · subst e; exact upd_same _ _ _
    · rw [upd_ne _ _ e, hbp]; exact hq u

/-- Free and given blocks add up. -/
theorem count_ok {s : State} {fl : List Nat} (h : Inv s fl) (hq : Quiescent s) : fl.length + s.given.length = s.n := by
  have hp : (fl ++ s.given.map Given.block).Perm (List.range s.n) := by
    refine (List.perm_ext_iff_of_nodup ?_ List.nodup_range).mpr (fun j => ?_)
    · refine List.nodup_append.mpr ⟨h.nodup, h.givn, fun a ha b hb e => ?_⟩
      obtain ⟨g, hg, rfl⟩ := List.mem_map.mp hb
      exact (h.giv g hg).2.1 (e ▸ ha)
    · rw [List.mem_append, List.mem_range]
      constructor
      · rintro (a | a)
        · exact h.flb j a
        · obtain ⟨g, hg, rfl⟩ := List.mem_map.mp a
          exact (h.giv g hg).1
      · intro hj
        rcases h.all j hj with a | ⟨g, hg, a⟩ | ⟨t, ht⟩
        · exact Or.inl a
        · exact Or.inr (List.mem_map.mpr ⟨g, hg, a⟩)
        · rw [hq t] at ht; cases ht
  have := hp.length_eq
  rw [List.length_append, List.length_map, List.length_range] at this
  exact this

theorem proper_append {s s' : State} {a b : List (Nat × Act)} (hp : Proper s (a ++ b)) (e : run s a = .ok s') : Proper s' b := by
  induction a generalizing s with
  | nil => injection e with e; subst e; exact hp
  | cons x a ih =>
    obtain ⟨t, x⟩ := x
    change (step s t x >>= fun s => run s a) = _ at e
    cases e1 : step s t x with
    | error f => rw [e1] at e; cases e
    | ok s1 =>
      rw [e1] at e
      exact ih (hp.2 s1 e1) e

/-- One undisturbed call after the other keeps the invariant. -/
theorem sequential_ok : ∀ (calls : List (Nat × Call)) {s : State} {fl : List Nat}, Inv s fl → Quiescent s → Proper s (sequential calls) →
    (∃ s' fl', run s (sequential calls) = .ok s' ∧ Inv s' fl' ∧ Quiescent s' ∧ s'.n = s.n) ∨
    (run s (sequential calls) = .error .assert ∧ ∃ k s', run s (sequential (calls.take k)) = .ok s' ∧ s'.given.length = s.n)
  | [], s, fl, h, hq, _ => Or.inl ⟨s, fl, rfl, h, hq, rfl⟩
  | (t, c) :: calls, s, fl, h, hq, hp => by
    have hp : Proper s (script (t, c) ++ sequential calls) := hp
    have er : run s (sequential ((t, c) :: calls)) = (run s (script (t, c)) >>= fun s => run s (sequential calls)) := run_append s _ _
    have key : (∃ s1 fl1, run s (script (t, c)) = .ok s1 ∧ Inv s1 fl1 ∧ Quiescent s1 ∧ s1.n = s.n) ∨ (run s (script (t, c)) = .error .assert ∧ fl = []) := by
      cases c with
      | alloc =>
        rcases soloAlloc_ok h hq t with ⟨e, e1⟩ | ⟨i, l, s', e, e1, ⟨fl', h'⟩, q', n', _⟩
        · exact Or.inr ⟨e1, e⟩
        · exact Or.inl ⟨s', fl', e1, h', q', n'⟩
      | free i =>
        obtain ⟨s', fl', e1, h', q', n', _, _⟩ := soloFree_ok h hq t i (hp.1 (hq t))
        exact Or.inl ⟨s', fl', e1, h', q', n'⟩
      | write i v =>
        obtain ⟨s', e1, h'⟩ := write_ok h (v := v) (hq t) (hp.1 (hq t))
        have e2 : step s t (.write i v) = _ := if_pos (hq t)
        rw [e2] at e1
        injection e1 with e1
        refine Or.inl ⟨s', fl, ?_, h', ?_, ?_⟩
        · change (step s t (.write i v) >>= _) = _
          rw [e2, R.ok_bind, e1]; rfl
        · intro u; rw [← e1]; exact hq u
        · rw [← e1]
    rcases key with ⟨s1, fl1, e1, h1, q1, n1⟩ | ⟨e1, ef⟩
    · rw [e1, R.ok_bind] at er
      rcases sequential_ok calls h1 q1 (proper_append hp e1) with ⟨s', fl', e2, h2, q2, n2⟩ | ⟨e2, k, s', e3, l3⟩
      · exact Or.inl ⟨s', fl', by rw [er, e2], h2, q2, by rw [n2, n1]⟩
      · refine Or.inr ⟨by rw [er, e2], k + 1, s', ?_, by rw [l3, n1]⟩
        rw [List.take_succ_cons]
        exact (run_append s _ _).trans (by rw [e1, R.ok_bind]; exact e3)
    · refine Or.inr ⟨by rw [er, e1, R.error_bind], 0, s, rfl, ?_⟩
      have := count_ok h hq
      rw [ef] at this
      simpa using this

/-- Without interleaving the property holds for all histories: any number of threads, one call after the other. A call is refused only when all blocks are in use. -/
theorem C33_sequential_partial (n : Nat) (s0 : State) (h : init n = .ok s0) (calls : List (Nat × Call)) (hp : Proper s0 (sequential calls)) :
    (∃ s, run s0 (sequential calls) = .ok s ∧ Disjoint s) ∨
    (run s0 (sequential calls) = .error .assert ∧ ∃ k s, run s0 (sequential (calls.take k)) = .ok s ∧ s.given.length = n) := by
  obtain ⟨hi, hn, _, hq⟩ := init_ok h
  rcases sequential_ok calls hi hq hp with ⟨s, fl, e, h', _⟩ | ⟨e, k, s', e', l⟩
  · exact Or.inl ⟨s, e, h'.disjoint⟩
  · exact Or.inr ⟨e, k, s', e', by rw [l, hn]⟩

/-- After any sequential history `alloc` returns a block that nobody has if fewer than `n` blocks are in use, and is refused otherwise. -/
theorem C33_sequential_alloc_partial (n : Nat) (s0 : State) (h : init n = .ok s0) (calls : List (Nat × Call)) (hp : Proper s0 (sequential calls)) (s : State)
    (e : run s0 (sequential calls) = .ok s) (t : Nat) :
    (s.given.length < n → ∃ s' i, run s (soloAlloc t) = .ok s' ∧ s'.given = { thread := t, block := i, val := none } :: s.given ∧ i < n ∧ ∀ g ∈ s.given, g.block ≠ i) ∧
    (s.given.length = n → run s (soloAlloc t) = .error .assert) := by
  obtain ⟨hi, hn, _, hq⟩ := init_ok h
  rcases sequential_ok calls hi hq hp with ⟨s', fl, e', h', q', n'⟩ | ⟨e', _⟩
  · rw [e] at e'
    injection e' with e'
    subst e'
    have hc := count_ok h' q'
    rcases soloAlloc_ok h' q' t with ⟨ef, e1⟩ | ⟨i, l, s2, ef, e1, ⟨fl2, h2⟩, q2, n2, g2⟩
    · subst ef
      exact ⟨fun hl => by simp at hc; omega, fun _ => e1⟩
    · subst ef
      refine ⟨fun _ => ⟨s2, i, e1, g2, ?_, ?_⟩, fun hl => by simp at hc; omega⟩
      · have := h'.flb i (by simp)
        omega
      · intro g hg e2
        exact (h'.giv g hg).2.1 (by simp [e2])
  · rw [e] at e'; cases e'

/-- After any sequential history, a block that was just freed is the next one to be returned. -/
theorem C33_sequential_reuse_partial (n : Nat) (s0 : State) (h : init n = .ok s0) (calls : List (Nat × Call)) (hp : Proper s0 (sequential calls)) (s : State)
    (e : run s0 (sequential calls) = .ok s) (t u i : Nat) (hh : Has s t i) :
    ∃ s', run s (soloFree t i ++ soloAlloc u) = .ok s' ∧ s'.given = { thread := u, block := i, val := none } :: s.given.filter (fun g => g.block ≠ i) := by
  obtain ⟨hi, hn, _, hq⟩ := init_ok h
  rcases sequential_ok calls hi hq hp with ⟨s', fl, e', h', q', n'⟩ | ⟨e', _⟩
  · rw [e] at e'
    injection e' with e'
    subst e'
    obtain ⟨s1, fl1, e1, h1, q1, n1, g1, hd⟩ := soloFree_ok h' q' t i hh
    rcases soloAlloc_ok h1 q1 u with ⟨ef, _⟩ | ⟨j, l, s2, ef, e2, _, _, _, g2⟩
    · have := h1.chain
      rw [ef] at this
      have : s1.head = .null := this
      rw [hd] at this
      cases this
    · have := h1.chain
      rw [ef] at this
      have := this.1
      rw [hd] at this
      injection this with this
      refine ⟨s2, ?_, ?_⟩
      · rw [run_append, e1, R.ok_bind, e2]
      · rw [g2, g1, this]
  · rw [e] at e'; cases e'

/-! ### Examples -/

theorem step_pc {s s' : State} {t : Nat} {a : Act} (e : step s t a = .ok s') (u : Nat) (hu : u ≠ t) : s'.pc u = s.pc u := by
  have hg : ∀ (b : State) p, (b.goto t p).pc u = b.pc u := fun b p => upd_ne _ _ hu
  cases a with
  | alloc =>
    change (if _ then _ else _) = _ at e
    split at e <;> (injection e with e; subst e)
    · exact hg _ _
    · rfl
  | write i v =>
    change (if _ then _ else _) = _ at e
    split at e <;> (injection e with e; subst e) <;> rfl
  | free i =>
    change (if _ then fCall s t i else _) = _ at e
    split at e
    · unfold fCall at e
      obtain ⟨_, _, e⟩ := R.bind_eq_ok.mp e
      injection e with e; subst e
      exact hg _ _
    · injection e with e; subst e; rfl
  | go c =>
    change advance s t c (s.pc t) = _ at e
    cases hpc : s.pc t with
    | idle => rw [hpc] at e; injection e with e; subst e; rfl
    | aCheck =>
      rw [hpc] at e
      change aCheck s t c = _ at e
      unfold aCheck at e
      split at e
      · obtain ⟨_, _, e⟩ := R.bind_eq_ok.mp e
        injection e with e; subst e; exact hg _ _
      · injection e with e; subst e; rfl
    | aLoad =>
      rw [hpc] at e
      change aLoad s t c = _ at e
      unfold aLoad at e
      split at e <;> (injection e with e; subst e)
      · exact hg _ _
      · rfl
    | aRead x =>
      rw [hpc] at e
      change aRead s t x = _ at e
      unfold aRead at e
      split at e
      · split at e
        · injection e with e; subst e; exact hg _ _
        · cases e
      · cases e
    | aCas x nxt =>
      rw [hpc] at e
      change aCas s t x nxt c = _ at e
      unfold aCas at e
      split at e
      · split at e
        · injection e with e; subst e; exact hg _ _
        · cases e
      · injection e with e; subst e; exact hg _ _
    | fLoad i =>
      rw [hpc] at e
      change fLoad s t i c = _ at e
      unfold fLoad at e
      split at e <;> (injection e with e; subst e)
      · exact hg _ _
      · rfl
    | fWrite i x =>
      rw [hpc] at e
      change fWrite s t i x = _ at e
      unfold fWrite at e
      split at e
      · injection e with e; subst e; exact hg _ _
      · cases e
    | fCas i x =>
      rw [hpc] at e
      change fCas s t i x c = _ at e
      unfold fCas at e
      split at e <;> (injection e with e; subst e; exact hg _ _)

theorem calm_of_calmB (k : Nat) : ∀ (sched : List (Nat × Act)) (s : State), (∀ u, k ≤ u → s.pc u = .idle) → calmB k s sched = true → CalmRun s sched
  | [], _, _, _ => trivial
  | (t, a) :: as, s, hk, h => by
    unfold calmB at h
    rw [Bool.and_eq_true, Bool.and_eq_true] at h
    have ht : t < k := of_decide_eq_true h.1
    refine ⟨?_, fun s' e => ?_⟩
    · have h1 := h.2.1
      cases a with
      | alloc => trivial
      | free i => trivial
      | write i v => trivial
      | go c =>
        simp only at h1
        change (match s.pc t with
          | .fCas i x => c = 0 ∧ s.head = x → ∀ u nxt, s.pc u ≠ .aCas (.block i) nxt
          | .aLoad => (s.head :: s.older)[c]? ≠ some .null
          | _ => True)
        cases hpc : s.pc t with
        | aLoad => rw [hpc] at h1; exact of_decide_eq_true h1
        | fCas i x =>
          rw [hpc] at h1
          intro hc u nxt hu
          rw [Bool.or_eq_true] at h1
          rcases h1 with h1 | h1
          · exact absurd hc (of_decide_eq_true h1)
          · by_cases huk : u < k
            · have := (List.all_eq_true.mp h1) u (List.mem_range.mpr huk)
              rw [hu] at this
              exact absurd rfl (of_decide_eq_true this)
            · rw [hk u (by omega)] at hu; cases hu
        | _ => trivial
    · have h2 := h.2.2
      rw [e] at h2
      exact calm_of_calmB k as s' (fun u hu => by rw [step_pc e u (by omega)]; exact hk u hu) h2

/-- Two threads, interleaved allocations and frees, a stale load and a spurious failure: a calm schedule. -/
example : ((init 3).toOption.bind fun s0 => (run s0 ([(0, .alloc), (1, .alloc), (0, .go 0), (1, .go 0), (0, .go 0), (1, .go 0), (0, .go 0), (1, .go 0), (0, .go 0), (1, .go 0),
    (1, .go 1), (1, .go 0), (1, .go 0), (1, .go 0), (1, .go 0), (1, .go 1), (1, .go 0), (1, .go 0), (1, .go 0), (0, .write 0 7), (1, .write 1 8)])).toOption.map
      fun s => (s.given, s.head)) = some ([⟨1, 1, some 8⟩, ⟨0, 0, some 7⟩], .block 2) := by decide +kernel

/-- Two threads; thread 0 is stopped in the middle of `alloc`, while thread 1 allocates, writes and frees another block. -/
def calmSchedule : List (Nat × Act) :=
  soloAlloc 1 ++ soloAlloc 1 ++ [(0, .alloc), (0, .go 0), (0, .go 0), (0, .go 0), (1, .write 1 4)] ++ soloFree 1 1 ++ [(0, .go 0), (0, .go 0), (0, .go 0), (0, .go 0), (0, .write 1 9)]

/-- The hypotheses of `C33_calm_partial` hold for it, and of its conclusion the first half. -/
example : ∃ s0 s, init 3 = .ok s0 ∧ Proper s0 calmSchedule ∧ CalmRun s0 calmSchedule ∧ run s0 calmSchedule = .ok s ∧ s.given = [⟨0, 1, some 9⟩, ⟨1, 0, none⟩] := by
  have h0 : ((init 3).toOption.bind fun s0 => some (properB s0 calmSchedule, calmB 2 s0 calmSchedule)) = some (true, true) := by decide +kernel
  have h1 : ((init 3).toOption.bind fun s0 => (run s0 calmSchedule).toOption.map fun s => s.given) = some [⟨0, 1, some 9⟩, ⟨1, 0, none⟩] := by decide +kernel
  cases e0 : init 3 with
  | error _ => rw [e0] at h0; cases h0
  | ok s0 =>
    rw [e0] at h0 h1
    have h0 : some (properB s0 calmSchedule, calmB 2 s0 calmSchedule) = some (true, true) := h0
    injection h0 with h0
    have h1 : ((run s0 calmSchedule).toOption.map fun s => s.given) = some [⟨0, 1, some 9⟩, ⟨1, 0, none⟩] := h1
    cases e1 : run s0 calmSchedule with
    | error _ => rw [e1] at h1; cases h1
    | ok s =>
      rw [e1] at h1
      have h1 : some s.given = some [⟨0, 1, some 9⟩, ⟨1, 0, none⟩] := h1
      injection h1 with h1
      exact ⟨s0, s, rfl, proper_of_properB _ _ (congrArg Prod.fst h0), calm_of_calmB 2 _ _ (fun u _ => (init_ok e0).2.2.2 u) (congrArg Prod.snd h0), e1, h1⟩

/-- A sequential history that fills the pool, frees and reuses a block. -/
example : ((init 2).toOption.bind fun s0 => (run s0 (sequential [(0, .alloc), (1, .alloc), (0, .write 0 5), (1, .free 1), (2, .alloc)])).toOption.map
      fun s => (s.given, s.head)) = some ([⟨2, 1, none⟩, ⟨0, 0, some 5⟩], .null) := by decide +kernel

example : ((init 2).toOption.bind fun s0 => some (properB s0 (sequential [(0, .alloc), (1, .alloc), (0, .write 0 5), (1, .free 1), (2, .alloc)]))) = some true := by decide +kernel

/-- A third allocation from a pool of two is refused. -/
example : ((init 2).toOption.bind fun s0 => some ((run s0 (sequential [(0, .alloc), (1, .alloc), (0, .alloc)])).map fun _ => ())) = some (.error .assert) := by decide +kernel

end Verif.APool
