import Verif.Watch.Stop
/-! Property C125: destroying a file watch returns. -/
namespace Verif.Watch

namespace Unix

/-- The number of steps of the thread in a sequence. -/
def threadSteps : List Act → Nat
  | [] => 0
  | .thread _ :: as => threadSteps as + 1
  | _ :: as => threadSteps as

/-- The program waits, the thread waits for an event, and none will ever come. -/
def Stuck (s : S) : Prop := s.prog = .joining ∧ s.th = .read ∧ s.queue = 0 ∧ s.watch = false

/-- Steps the thread still needs, when it is told to stop. -/
def left (s : S) : Nat :=
  match s.th with
  | .done => 0
  | .close => 1
  | .check => 2
  | .busy n => n + 3
  | .read => s.queue + 4

/-! ### Invariants -/

structure Inv (s : S) : Prop where
  /-- the thread is told to stop by the first step of the destructor -/
  alive : s.alive = true ↔ s.prog = .before
  /-- the descriptor is open until the thread closes it -/
  fd : s.fdOpen = true ↔ s.th ≠ .done
  ends : s.th = .done ∨ s.th = .close → s.prog ≠ .before
  watch : s.prog = .joining ∨ s.prog = .gone → s.watch = false
  gone : s.prog = .gone → s.th = .done
  closed : s.th = .done → s.watch = false ∧ s.queue = 0

theorem inv_init : Inv init := by
  refine ⟨?_, ?_, ?_, ?_, ?_, ?_⟩ <;> decide

theorem push_pos {lim q : Nat} (h : 1 ≤ lim) : 1 ≤ push lim q := by
  unfold push
  split <;> omega

theorem inv_step {lim : Nat} {s s' : S} {a : Act} (h : Inv s) (e : step lim s a = some s') : Inv s' := by
  obtain ⟨w, f, q, al, th, pg, b⟩ := s
  obtain ⟨h1, h2, h3, h4, h5, h6⟩ := h
  dsimp only at h1 h2 h3 h4 h5 h6
  cases a with
  | change =>
    cases Option.some.inj e
    dsimp only
    cases w with
    | false => exact ⟨h1, h2, h3, h4, h5, h6⟩
    | true => exact ⟨h1, h2, h3, h4, h5, fun e => (nomatch (h6 e).1)⟩
  | delete =>
    cases Option.some.inj e
    dsimp only
    cases w with
    | false => exact ⟨h1, h2, h3, h4, h5, h6⟩
    | true => exact ⟨h1, h2, h3, fun _ => rfl, h5, fun e => (nomatch (h6 e).1)⟩
  | thread n =>
    cases th with
    | check =>
      cases Option.some.inj e
      cases al with
      | false => exact ⟨h1, ⟨fun _ => (fun e => nomatch e), fun _ => h2.mpr (fun e => nomatch e)⟩,
          fun _ e => (nomatch h1.mpr e), h4, (fun e => nomatch (h5 e)), (fun e => nomatch e)⟩
      | true => exact ⟨h1, ⟨fun _ => (fun e => nomatch e), fun _ => h2.mpr (fun e => nomatch e)⟩,
          (fun e => by rcases e with e | e <;> cases e), h4, (fun e => nomatch (h5 e)), (fun e => nomatch e)⟩
    | read =>
      change (if 1 ≤ n ∧ n ≤ q then some _ else none) = some s' at e
      split at e
      · cases Option.some.inj e
        exact ⟨h1, ⟨fun _ => (fun e => nomatch e), fun _ => h2.mpr (fun e => nomatch e)⟩,
          (fun e => by rcases e with e | e <;> cases e), h4, (fun e => nomatch (h5 e)), (fun e => nomatch e)⟩
      · cases e
    | busy k =>
      cases k with
      | zero =>
        cases Option.some.inj e
        exact ⟨h1, ⟨fun _ => (fun e => nomatch e), fun _ => h2.mpr (fun e => nomatch e)⟩,
          (fun e => by rcases e with e | e <;> cases e), h4, (fun e => nomatch (h5 e)), (fun e => nomatch e)⟩
      | succ k =>
        cases Option.some.inj e
        exact ⟨h1, ⟨fun _ => (fun e => nomatch e), fun _ => h2.mpr (fun e => nomatch e)⟩,
          (fun e => by rcases e with e | e <;> cases e), h4, (fun e => nomatch (h5 e)), (fun e => nomatch e)⟩
    | close =>
      cases Option.some.inj e
      exact ⟨h1, ⟨(fun e => nomatch e), fun e => absurd rfl e⟩, fun _ => h3 (Or.inr rfl), fun _ => rfl, fun _ => rfl, fun _ => ⟨rfl, rfl⟩⟩
    | done => cases e
  | prog =>
    cases pg with
    | before =>
      cases Option.some.inj e
      exact ⟨⟨(fun e => nomatch e), (fun e => nomatch e)⟩, h2, fun _ => (fun e => nomatch e),
        (fun e => by rcases e with e | e <;> cases e), (fun e => nomatch e), h6⟩
    | stored =>
      have ha : ¬ al = true := fun e => nomatch (h1.mp e)
      cases Option.some.inj e
      dsimp only
      cases f with
      | false =>
        have hd : th = .done := by
          by_cases c : th = .done
          · exact c
          · exact nomatch h2.mpr c
        exact ⟨⟨fun e => absurd e ha, (fun e => nomatch e)⟩, h2, fun _ => (fun e => nomatch e), fun _ => (h6 hd).1, fun _ => hd, h6⟩
      | true =>
        have hd : th ≠ .done := h2.mp rfl
        cases w with
        | false => exact ⟨⟨fun e => absurd e ha, (fun e => nomatch e)⟩, h2, fun _ => (fun e => nomatch e), fun _ => rfl,
            (fun e => nomatch e), h6⟩
        | true => exact ⟨⟨fun e => absurd e ha, (fun e => nomatch e)⟩, h2, fun _ => (fun e => nomatch e), fun _ => rfl,
            (fun e => nomatch e), fun e => absurd e hd⟩
    | joining =>
      change (if th = .done then some _ else none) = some s' at e
      split at e
      · rename_i hd
        cases Option.some.inj e
        exact ⟨⟨fun e => (nomatch h1.mp e), (fun e => nomatch e)⟩, h2, fun _ => (fun e => nomatch e), fun _ => h4 (Or.inl rfl),
          fun _ => hd, h6⟩
      · cases e
    | gone => cases e

theorem run_append {lim : Nat} {s : S} {as bs : List Act} {s' : S} (h : run lim s (as ++ bs) = some s') :
    ∃ m, run lim s as = some m ∧ run lim m bs = some s' := by
  induction as generalizing s with
  | nil => exact ⟨s, rfl, h⟩
  | cons a as ih =>
    obtain ⟨x, e, h⟩ := Option.bind_eq_some_iff.mp h
    obtain ⟨m, h1, h2⟩ := ih h
    exact ⟨m, Option.bind_eq_some_iff.mpr ⟨x, e, h1⟩, h2⟩

theorem inv_run {lim : Nat} {s s' : S} {as : List Act} (h : Inv s) (e : run lim s as = some s') : Inv s' := by
  induction as generalizing s with
  | nil => cases Option.some.inj e; exact h
  | cons a as ih =>
    obtain ⟨x, e1, e2⟩ := Option.bind_eq_some_iff.mp e
    exact ih (inv_step h e1) e2

/-! ### While the program waits -/

/-- While the program waits: nothing but the thread changes anything, and the thread comes closer to its end. -/
theorem wait_step {lim : Nat} {s s' : S} {a : Act} (h : Inv s) (hj : s.prog = .joining) (hs : ¬ Stuck s)
    (e : step lim s a = some s') :
    (s'.prog = .gone ∧ s.th = .done) ∨
    (s'.prog = .joining ∧ ¬ Stuck s' ∧ left s' + threadSteps [a] ≤ left s) := by
  have hw := h.watch (Or.inl hj)
  have ha : ¬ s.alive = true := fun e => by have := h.alive.mp e; rw [hj] at this; cases this
  obtain ⟨w, f, q, al, th, pg, b⟩ := s
  dsimp only at hj hw ha
  subst hj hw
  cases a with
  | change => cases Option.some.inj e; exact Or.inr ⟨rfl, hs, Nat.le_refl _⟩
  | delete => cases Option.some.inj e; exact Or.inr ⟨rfl, hs, Nat.le_refl _⟩
  | thread n =>
    refine Or.inr ?_
    cases th with
    | check =>
      cases Option.some.inj e
      cases al with
      | true => exact absurd rfl ha
      | false => exact ⟨rfl, (fun h => nomatch h.2.1), Nat.le_refl _⟩
    | read =>
      change (if 1 ≤ n ∧ n ≤ q then some _ else none) = some s' at e
      split at e
      · rename_i c
        cases Option.some.inj e
        refine ⟨rfl, (fun h => nomatch h.2.1), ?_⟩
        change n + 3 + 1 ≤ q + 4
        omega
      · cases e
    | busy k =>
      cases k with
      | zero => cases Option.some.inj e; exact ⟨rfl, (fun h => nomatch h.2.1), Nat.le_refl _⟩
      | succ k => cases Option.some.inj e; exact ⟨rfl, (fun h => nomatch h.2.1), Nat.le_refl _⟩
    | close => cases Option.some.inj e; exact ⟨rfl, (fun h => nomatch h.2.1), Nat.le_refl _⟩
    | done => cases e
  | prog =>
    change (if th = .done then some _ else none) = some s' at e
    split at e
    · rename_i hd
      cases Option.some.inj e
      exact Or.inl ⟨rfl, hd⟩
    · cases e

theorem gone_step {lim : Nat} {s s' : S} {a : Act} (h : Inv s) (hj : s.prog = .gone) (e : step lim s a = some s') :
    s' = s ∧ threadSteps [a] = 0 := by
  have hw := h.watch (Or.inr hj)
  have hd := h.gone hj
  obtain ⟨w, f, q, al, th, pg, b⟩ := s
  dsimp only at hj hw hd
  subst hj hw hd
  cases a with
  | change => cases Option.some.inj e; exact ⟨rfl, rfl⟩
  | delete => cases Option.some.inj e; exact ⟨rfl, rfl⟩
  | thread n => cases e
  | prog => cases e

theorem threadSteps_cons (a : Act) (as : List Act) : threadSteps (a :: as) = threadSteps [a] + threadSteps as := by
  cases a <;> simp [threadSteps] <;> omega

theorem wait_run {lim : Nat} {s s' : S} {as : List Act} (h : Inv s) (hj : s.prog = .joining ∨ s.prog = .gone) (hs : ¬ Stuck s)
    (e : run lim s as = some s') :
    (s'.prog = .joining ∨ s'.prog = .gone) ∧ ¬ Stuck s' ∧ left s' + threadSteps as ≤ left s := by
  induction as generalizing s with
  | nil => cases Option.some.inj e; exact ⟨hj, hs, Nat.le_refl _⟩
  | cons a as ih =>
    obtain ⟨x, e1, e2⟩ := Option.bind_eq_some_iff.mp e
    rw [threadSteps_cons]
    rcases hj with hj | hj
    · rcases wait_step h hj hs e1 with ⟨g, hd⟩ | ⟨g, ns, le⟩
      · have hx := inv_step h e1
        have t0 : threadSteps [a] = 0 := by
          cases a with
          | thread n =>
            exfalso
            unfold step at e1
            rw [hd] at e1
            cases e1
          | _ => rfl
        obtain ⟨p, q, r⟩ := ih hx (Or.inr g) (fun st => by have := st.1; rw [g] at this; cases this) e2
        have l0 : left x = 0 := by unfold left; rw [hx.gone g]
        exact ⟨p, q, by omega⟩
      · obtain ⟨p, q, r⟩ := ih (inv_step h e1) (Or.inl g) ns e2
        exact ⟨p, q, by omega⟩
    · obtain ⟨rfl, t0⟩ := gone_step h hj e1
      obtain ⟨p, q, r⟩ := ih h (Or.inr hj) hs e2
      exact ⟨p, q, by omega⟩

/-! ### C125 on unix -/

/-- **C125** on unix, in part. Whatever happened before, when `~Monitor` waits for the thread and they are not stuck: in every
continuation the thread can always make a step until it has ended, it has ended after at most `left s` steps of its own (events already read
or in the queue, and four more), and then the destructor returns. -/
theorem C125_stops_partial (lim : Nat) (before : List Act) (s : S) (h : run lim init before = some s) (hj : s.prog = .joining)
    (hs : ¬ Stuck s) (after : List Act) (s' : S) (h' : run lim s after = some s') :
    (s'.th ≠ .done → ∃ n, (step lim s' (.thread n)).isSome = true) ∧ (left s ≤ threadSteps after → s'.th = .done) ∧
      (s'.th = .done → s'.prog = .gone ∨ ∃ g, step lim s' .prog = some g ∧ g.prog = .gone) := by
  have hI := inv_run inv_init h
  have hI' := inv_run hI h'
  obtain ⟨hp, ns, le⟩ := wait_run hI (Or.inl hj) hs h'
  refine ⟨fun hd => ?_, fun hle => ?_, fun hd => ?_⟩
  · have hpj : s'.prog = .joining := hp.resolve_right fun e => hd (hI'.gone e)
    have hw := hI'.watch hp
    obtain ⟨w, f, q, al, th, pg, b⟩ := s'
    cases th with
    | check => exact ⟨0, rfl⟩
    | read =>
      have hq : q ≠ 0 := fun e => ns ⟨hpj, rfl, e, hw⟩
      refine ⟨1, ?_⟩
      change (if 1 ≤ 1 ∧ 1 ≤ q then some _ else none : Option S).isSome = true
      rw [if_pos (by omega)]
      rfl
    | busy k => cases k <;> exact ⟨0, rfl⟩
    | close => exact ⟨0, rfl⟩
    | done => exact absurd rfl hd
  · have : left s' = 0 := by omega
    unfold left at this
    cases e : s'.th with
    | done => rfl
    | _ => rw [e] at this; simp at this
  · rcases hp with hp | hp
    · refine Or.inr ⟨{ s' with prog := .gone }, ?_, rfl⟩
      unfold step
      rw [hp]
      exact if_pos hd
    · exact Or.inl hp

/-- The watch is there until the destructor removes it, and then the last event is. -/
def NoDel (s : S) : Prop :=
  (s.prog = .before ∨ s.prog = .stored → s.th ≠ .done → s.watch = true) ∧ (s.prog = .joining → s.th = .read → 1 ≤ s.queue)

theorem noDel_step {lim : Nat} (hl : 1 ≤ lim) {s s' : S} {a : Act} (h : Inv s) (hn : NoDel s) (ha : a ≠ .delete)
    (e : step lim s a = some s') : NoDel s' := by
  have h4 := h.alive
  have h5 := h.fd
  have h3 := h.watch
  obtain ⟨w, f, q, al, th, pg, b⟩ := s
  obtain ⟨h1, h2⟩ := hn
  dsimp only at h1 h2 h3 h4 h5
  cases a with
  | change =>
    cases Option.some.inj e
    dsimp only
    cases w with
    | false => exact ⟨h1, h2⟩
    | true => exact ⟨h1, fun _ _ => push_pos hl⟩
  | delete => exact absurd rfl ha
  | thread n =>
    cases th with
    | check =>
      cases Option.some.inj e
      cases al with
      | false => exact ⟨fun e _ => h1 e (fun e => nomatch e), (fun _ e => nomatch e)⟩
      | true =>
        refine ⟨fun e _ => h1 e (fun e => nomatch e), fun e _ => ?_⟩
        have := h4.mp rfl
        rw [show pg = _ from this] at e
        cases e
    | read =>
      change (if 1 ≤ n ∧ n ≤ q then some _ else none) = some s' at e
      split at e
      · cases Option.some.inj e
        exact ⟨fun e _ => h1 e (fun e => nomatch e), (fun _ e => nomatch e)⟩
      · cases e
    | busy k =>
      cases k with
      | zero =>
        cases Option.some.inj e
        exact ⟨fun e _ => h1 e (fun e => nomatch e), (fun _ e => nomatch e)⟩
      | succ k =>
        cases Option.some.inj e
        exact ⟨fun e _ => h1 e (fun e => nomatch e), (fun _ e => nomatch e)⟩
    | close =>
      cases Option.some.inj e
      exact ⟨fun _ e => absurd rfl e, (fun _ e => nomatch e)⟩
    | done => cases e
  | prog =>
    cases pg with
    | before =>
      cases Option.some.inj e
      exact ⟨fun _ => h1 (Or.inl rfl), (fun e => nomatch e)⟩
    | stored =>
      have h1' := h1 (Or.inr rfl)
      cases Option.some.inj e
      dsimp only
      cases f with
      | false =>
        refine ⟨(fun e => by rcases e with e | e <;> cases e), fun _ e => ?_⟩
        change th = .read at e
        subst e
        exact nomatch h5.mpr (fun e => nomatch e)
      | true =>
        have hw : w = true := h1' (h5.mp rfl)
        subst hw
        exact ⟨(fun e => by rcases e with e | e <;> cases e), fun _ _ => push_pos hl⟩
    | joining =>
      change (if th = .done then some _ else none) = some s' at e
      split at e
      · cases Option.some.inj e
        exact ⟨(fun e => by rcases e with e | e <;> cases e), (fun e => nomatch e)⟩
      · cases e
    | gone => cases e

theorem noDel_run {lim : Nat} (hl : 1 ≤ lim) {s s' : S} {as : List Act} (h : Inv s) (hn : NoDel s) (ha : Act.delete ∉ as)
    (e : run lim s as = some s') : NoDel s' := by
  induction as generalizing s with
  | nil => cases Option.some.inj e; exact hn
  | cons a as ih =>
    obtain ⟨x, e1, e2⟩ := Option.bind_eq_some_iff.mp e
    exact ih (inv_step h e1) (noDel_step hl h hn (fun e => ha (e ▸ List.mem_cons_self ..)) e1) (fun m => ha (List.mem_cons_of_mem _ m)) e2

/-- **C125** on unix: if the directory is not deleted while it is watched, the program and the thread are never stuck, so that
`C125_stops_partial` applies to every run. -/
theorem C125_undeleted (lim : Nat) (hl : 1 ≤ lim) (before : List Act) (s : S) (h : run lim init before = some s)
    (hd : Act.delete ∉ before) : ¬ Stuck s := by
  rintro ⟨h1, h2, h3, -⟩
  have := (noDel_run hl inv_init ⟨fun _ _ => rfl, (fun e => nomatch e)⟩ hd h).2 h1 h2
  omega

/-- **C125 fails** on unix: once stuck, the destructor waits for ever. -/
theorem C125_stuck_for_ever (lim : Nat) (s : S) (hs : Stuck s) (after : List Act) (s' : S) (h' : run lim s after = some s') : s' = s := by
  induction after generalizing s with
  | nil => exact (Option.some.inj h').symm
  | cons a as ih =>
    obtain ⟨x, e1, e2⟩ := Option.bind_eq_some_iff.mp h'
    have : x = s := by
      obtain ⟨w, f, q, al, th, pg, b⟩ := s
      obtain ⟨p1, p2, p3, p4⟩ := hs
      dsimp only at p1 p2 p3 p4
      subst p1 p2 p3 p4
      cases a with
      | change => exact (Option.some.inj e1).symm
      | delete => exact (Option.some.inj e1).symm
      | thread n =>
        change (if 1 ≤ n ∧ n ≤ 0 then some _ else none) = some x at e1
        rw [if_neg (by omega)] at e1
        cases e1
      | prog => cases e1
    subst this
    exact ih x hs e2

/-- **C125 fails** on unix: a directory is deleted while a file in it is watched, and the thread reads the last event. Destroying the watch
now never returns: `inotify_rm_watch` fails, so nothing wakes the thread. -/
theorem C125_deleted_hangs (lim : Nat) (hl : 1 ≤ lim) :
    ∃ s, run lim init [.thread 0, .delete, .thread 1, .thread 0, .thread 0, .thread 0, .prog, .prog] = some s ∧ Stuck s := by
  have h1 : push lim 0 = 1 := if_pos hl
  refine ⟨⟨false, true, 0, false, .read, .joining, false⟩, ?_, rfl, rfl, rfl, rfl⟩
  have e : run lim init [.thread 0, .delete] = some ⟨false, true, 1, true, .read, .before, false⟩ := by
    change some (S.mk false true (push lim 0) true .read .before false) = _
    rw [h1]
  have e2 : run lim ⟨false, true, 1, true, .read, .before, false⟩ [.thread 1, .thread 0, .thread 0, .thread 0, .prog, .prog] =
      some ⟨false, true, 0, false, .read, .joining, false⟩ := rfl
  have app : ∀ (as bs : List Act) (s m : S), run lim s as = some m → run lim s (as ++ bs) = run lim m bs := by
    intro as
    induction as with
    | nil => intro bs s m h; cases Option.some.inj h; rfl
    | cons a as ih =>
      intro bs s m h
      obtain ⟨x, e1, e2⟩ := Option.bind_eq_some_iff.mp h
      change (step lim s a).bind _ = _
      rw [e1]
      exact ih bs x m e2
  exact (app _ _ _ _ e).trans e2

/-- **C125 fails** on unix: without any event the thread may see that it shall stop and close the descriptor before the destructor calls
`inotify_rm_watch` with it: by then the number may mean another file. -/
theorem C125_closed_descriptor (lim : Nat) :
    ∃ s, run lim init [.prog, .thread 0, .thread 0, .prog, .prog] = some s ∧ s.wrongFd = true ∧ s.prog = .gone := ⟨_, rfl, rfl, rfl⟩

/-- **C125** on unix: when the destructor has returned the thread has ended and the descriptor and the watch are given back; until
then the thread never uses a closed descriptor. -/
theorem C125_given_back (lim : Nat) (acts : List Act) (s : S) (h : run lim init acts = some s) :
    (s.prog = .gone → s.th = .done ∧ s.fdOpen = false ∧ s.watch = false) ∧ (s.th ≠ .done → s.fdOpen = true) := by
  have hI := inv_run inv_init h
  refine ⟨fun hg => ?_, hI.fd.mpr⟩
  have hd := hI.gone hg
  refine ⟨hd, ?_, hI.watch (Or.inr hg)⟩
  cases e : s.fdOpen with
  | false => rfl
  | true => exact absurd hd (hI.fd.mp e)

/-- Three changes, two of them read; the destructor starts while the thread is busy: five more steps of the thread. -/
example : ∃ s, run 16 init [.thread 0, .change, .change, .thread 2, .change, .prog, .prog] = some s ∧ s.prog = .joining ∧
    ¬ Stuck s ∧ left s = 5 ∧ ∃ s', run 16 s [.thread 0, .thread 0, .change, .thread 0, .thread 0, .thread 0, .prog] = some s' ∧
      s'.prog = .gone := ⟨_, rfl, rfl, (fun h => nomatch h.2.1), rfl, _, rfl, rfl⟩

end Unix

namespace Win

def threadSteps : List Act → Nat
  | [] => 0
  | .thread _ :: as => threadSteps as + 1
  | _ :: as => threadSteps as

/-- Steps the thread still needs when it is told to stop, if a finished request reports at most `k` entries. -/
def left (k : Nat) (s : S) : Nat :=
  match s.th with
  | .done => 0
  | .clean => 1
  | .check => 2
  | .busy n => n + 3
  | .fetch => k + 4
  | .wait => k + 5
  | .issue => k + 6
  | .start => 3

/-- Finished requests report at most `k` entries. -/
def AtMost (k : Nat) : List Act → Prop
  | [] => True
  | .thread n :: as => n ≤ k ∧ AtMost k as
  | _ :: as => AtMost k as

structure Inv (s : S) : Prop where
  alive : s.alive = true ↔ s.prog = .before
  set : s.closeSet = true ↔ s.prog = .joining ∨ s.prog = .gone
  gone : s.prog = .gone → s.th = .done
  handles : s.handles = if s.th = .done ∨ s.th = .start then 2 else 3

theorem inv_init : Inv init := by
  refine ⟨?_, ?_, ?_, ?_⟩ <;> decide

theorem inv_step {s s' : S} {a : Act} (h : Inv s) (e : step s a = some s') : Inv s' := by
  obtain ⟨pd, io, cs, al, th, pg, hd⟩ := s
  obtain ⟨h1, h2, h3, h4⟩ := h
  dsimp only at h1 h2 h3 h4
  cases a with
  | change =>
    cases Option.some.inj e
    cases pd <;> exact ⟨h1, h2, h3, h4⟩
  | thread n =>
    cases th with
    | start =>
      cases Option.some.inj e
      exact ⟨h1, h2, (fun e => nomatch (h3 e)), by rw [if_pos (Or.inr rfl)] at h4; subst h4; rfl⟩
    | check =>
      cases Option.some.inj e
      cases al <;> exact ⟨h1, h2, (fun e => nomatch (h3 e)), h4⟩
    | issue => cases Option.some.inj e; exact ⟨h1, h2, (fun e => nomatch (h3 e)), h4⟩
    | wait =>
      cases io with
      | true => cases Option.some.inj e; exact ⟨h1, h2, (fun e => nomatch (h3 e)), h4⟩
      | false =>
        cases cs with
        | true => cases Option.some.inj e; exact ⟨h1, h2, (fun e => nomatch (h3 e)), h4⟩
        | false => cases e
    | fetch => cases Option.some.inj e; exact ⟨h1, h2, (fun e => nomatch (h3 e)), h4⟩
    | busy k => cases k <;> cases Option.some.inj e <;> exact ⟨h1, h2, (fun e => nomatch (h3 e)), h4⟩
    | clean =>
      cases Option.some.inj e
      exact ⟨h1, h2, fun _ => rfl, by
        rw [if_neg (fun e => by rcases e with e | e <;> cases e)] at h4; subst h4; rfl⟩
    | done => cases e
  | prog =>
    cases pg with
    | before =>
      cases Option.some.inj e
      exact ⟨⟨(fun e => nomatch e), (fun e => nomatch e)⟩, ⟨(fun e => by rcases h2.mp e with e | e <;> cases e), (fun e => by rcases e with e | e <;> cases e)⟩,
        (fun e => nomatch e), h4⟩
    | stored =>
      cases Option.some.inj e
      exact ⟨⟨fun e => (nomatch h1.mp e), (fun e => nomatch e)⟩, ⟨fun _ => Or.inl rfl, fun _ => rfl⟩, (fun e => nomatch e), h4⟩
    | joining =>
      change (if th = .done then some _ else none) = some s' at e
      split at e
      · rename_i hd
        cases Option.some.inj e
        exact ⟨⟨fun e => (nomatch h1.mp e), (fun e => nomatch e)⟩, ⟨fun _ => Or.inr rfl, fun _ => h2.mpr (Or.inl rfl)⟩, fun _ => hd, h4⟩
      · cases e
    | gone => cases e

theorem inv_run {s s' : S} {as : List Act} (h : Inv s) (e : run s as = some s') : Inv s' := by
  induction as generalizing s with
  | nil => cases Option.some.inj e; exact h
  | cons a as ih =>
    obtain ⟨x, e1, e2⟩ := Option.bind_eq_some_iff.mp e
    exact ih (inv_step h e1) e2

theorem wait_step {k : Nat} {s s' : S} {a : Act} (h : Inv s) (hj : s.prog = .joining ∨ s.prog = .gone) (hk : AtMost k [a])
    (e : step s a = some s') : (s'.prog = .joining ∨ s'.prog = .gone) ∧ left k s' + threadSteps [a] ≤ left k s := by
  have ha : ¬ s.alive = true := fun e => by
    have := h.alive.mp e
    rw [this] at hj
    rcases hj with e | e <;> cases e
  obtain ⟨pd, io, cs, al, th, pg, hd⟩ := s
  dsimp only at ha
  cases a with
  | change => cases Option.some.inj e; cases pd <;> exact ⟨hj, Nat.le_refl _⟩
  | thread n =>
    have hk : n ≤ k := hk.1
    cases th with
    | start => cases Option.some.inj e; exact ⟨hj, Nat.le_refl _⟩
    | check =>
      cases Option.some.inj e
      cases al with
      | true => exact absurd rfl ha
      | false => exact ⟨hj, Nat.le_refl _⟩
    | issue => cases Option.some.inj e; exact ⟨hj, Nat.le_refl _⟩
    | wait =>
      cases io with
      | true => cases Option.some.inj e; exact ⟨hj, Nat.le_refl _⟩
      | false =>
        cases cs with
        | true =>
          cases Option.some.inj e
          refine ⟨hj, ?_⟩
          change 2 + 1 ≤ k + 5
          omega
        | false => cases e
    | fetch =>
      cases Option.some.inj e
      refine ⟨hj, ?_⟩
      change n + 3 + 1 ≤ k + 4
      omega
    | busy m => cases m <;> cases Option.some.inj e <;> exact ⟨hj, Nat.le_refl _⟩
    | clean => cases Option.some.inj e; exact ⟨hj, Nat.le_refl _⟩
    | done => cases e
  | prog =>
    rcases hj with hj | hj
    · cases (hj : pg = .joining)
      change (if th = .done then some _ else none) = some s' at e
      split at e
      · cases Option.some.inj e
        exact ⟨Or.inr rfl, Nat.le_refl _⟩
      · cases e
    · cases (hj : pg = .gone)
      cases e

theorem threadSteps_cons (a : Act) (as : List Act) : threadSteps (a :: as) = threadSteps [a] + threadSteps as := by
  cases a <;> simp [threadSteps] <;> omega

theorem wait_run {k : Nat} {s s' : S} {as : List Act} (h : Inv s) (hj : s.prog = .joining ∨ s.prog = .gone) (hk : AtMost k as)
    (e : run s as = some s') : (s'.prog = .joining ∨ s'.prog = .gone) ∧ left k s' + threadSteps as ≤ left k s := by
  induction as generalizing s with
  | nil => cases Option.some.inj e; exact ⟨hj, Nat.le_refl _⟩
  | cons a as ih =>
    obtain ⟨x, e1, e2⟩ := Option.bind_eq_some_iff.mp e
    rw [threadSteps_cons]
    have hk1 : AtMost k [a] := by cases a <;> first | exact ⟨hk.1, trivial⟩ | trivial
    have hk2 : AtMost k as := by cases a <;> first | exact hk.2 | exact hk
    obtain ⟨p, q⟩ := wait_step h hj hk1 e1
    obtain ⟨p', q'⟩ := ih (inv_step h e1) p hk2 e2
    exact ⟨p', by omega⟩

/-- **C125** on Windows: whatever happened before, once `~Monitor` waits for the thread: in every continuation the thread can always make
a step until it has ended, it has ended after at most `left k s` steps of its own (`k` entries fit into its buffer), and then the destructor
returns. -/
theorem C125_windows_stops (k : Nat) (before : List Act) (s : S) (h : run init before = some s) (hj : s.prog = .joining)
    (after : List Act) (hk : AtMost k after) (s' : S) (h' : run s after = some s') :
    (s'.th ≠ .done → ∀ n, (step s' (.thread n)).isSome = true) ∧ (left k s ≤ threadSteps after → s'.th = .done) ∧
      (s'.th = .done → s'.prog = .gone ∨ ∃ g, step s' .prog = some g ∧ g.prog = .gone) := by
  have hI := inv_run inv_init h
  have hI' := inv_run hI h'
  obtain ⟨hp, le⟩ := wait_run hI (Or.inl hj) hk h'
  refine ⟨fun hd n => ?_, fun hle => ?_, fun hd => ?_⟩
  · have hc := hI'.set.mpr hp
    obtain ⟨pd, io, cs, al, th, pg, hd⟩ := s'
    cases (hc : cs = true)
    cases th with
    | wait => cases io <;> rfl
    | busy m => cases m <;> rfl
    | done => exact absurd rfl hd
    | _ => rfl
  · have : left k s' = 0 := by omega
    unfold left at this
    cases e : s'.th with
    | done => rfl
    | _ => rw [e] at this; simp at this
  · rcases hp with hp | hp
    · refine Or.inr ⟨{ s' with prog := .gone }, ?_, rfl⟩
      unfold step
      rw [hp]
      exact if_pos hd
    · exact Or.inl hp

/-- **C125 fails** on Windows: every monitor that was destroyed leaves two handles open, the two events. -/
theorem C125_windows_leak (acts : List Act) (s : S) (h : run init acts = some s) (hg : s.prog = .gone) : s.th = .done ∧ s.handles = 2 := by
  have hI := inv_run inv_init h
  have hd := hI.gone hg
  exact ⟨hd, by rw [hI.handles, if_pos (Or.inl hd)]⟩

/-- The thread waits, a change arrives while the program stops the monitor. -/
example : ∃ s, run init [.thread 0, .thread 0, .thread 0, .prog, .change, .prog] = some s ∧ s.prog = .joining ∧ s.th = .wait ∧
    ∃ s', run s [.thread 0, .thread 1, .thread 0, .thread 0, .thread 0, .thread 0, .prog] = some s' ∧ s'.prog = .gone :=
  ⟨_, rfl, rfl, rfl, _, rfl, rfl⟩

end Win
end Verif.Watch
