import Verif.Spin.Spec

/-! # `cc::spin_lock` and `cc::lock_guard` (C27) -/
namespace Verif.Spin

open Spec

variable {α : Type}

theorem upd_same {β : Type} (f : Nat → β) (i : Nat) (b : β) : upd f i b i = b := by simp [upd]

theorem upd_ne {β : Type} (f : Nat → β) {i j : Nat} (b : β) (h : j ≠ i) : upd f i b j = f j := by simp [upd, h]

theorem holder_append : ∀ (h : Option Nat) (a b : List Ev), holder h (a ++ b) = (holder h a).bind (fun h' => holder h' b) := by
  intro h a b
  induction a generalizing h with
  | nil => rfl
  | cons e a ih =>
    cases h with
    | none => cases e <;> simp [holder, ih]
    | some x =>
      cases e with
      | acquired t => simp [holder]
      | released t =>
        simp only [List.cons_append, holder]
        split
        · exact ih _
        · rfl

/-- What holds in all reachable states; `h` is the holder. -/
structure Inv (s : State α) (h : Option Nat) : Prop where
  hist : holder none s.log.reverse = some h
  held : ∀ t, (s.threads t).held = true ↔ h = some t
  locked : s.newest.locked = h.isSome
  guards : ∀ t, (s.threads t).guard = true → (s.threads t).held = true
  free : h = none → s.newest.view = s.acc
  knows : ∀ t, h = some t → (s.threads t).known = s.acc
  known : ∀ t, (s.threads t).known ≤ s.acc
  view : s.newest.view ≤ s.acc
  counts : ∀ t, s.log.count (.acquired t) = s.log.count (.released t) + if h = some t then 1 else 0

theorem Inv.goto {s : State α} {h : Option Nat} (I : Inv s h) (t : Nat) (pc : Pc) : Inv (s.goto t pc) h := by
  have hth : ∀ t', ((s.goto t pc).threads t').held = (s.threads t').held ∧ ((s.goto t pc).threads t').guard = (s.threads t').guard ∧
      ((s.goto t pc).threads t').known = (s.threads t').known := by
    intro t'
    unfold State.goto
    by_cases e : t' = t
    · subst e; simp [upd]
    · simp [upd, e]
  exact ⟨I.hist, fun t' => by rw [(hth t').1]; exact I.held t', I.locked, fun t' => by rw [(hth t').1, (hth t').2.1]; exact I.guards t', I.free,
    fun t' e => by rw [(hth t').2.2]; exact I.knows t' e, fun t' => by rw [(hth t').2.2]; exact I.known t', I.view, I.counts⟩

theorem Inv.rets {s : State α} {h : Option Nat} (I : Inv s h) (r : List (Nat × Bool)) : Inv { s with rets := r } h :=
  ⟨I.hist, I.held, I.locked, I.guards, I.free, I.knows, I.known, I.view, I.counts⟩

/-- An exchange that fails. -/
theorem Inv.busy {s : State α} {h : Option Nat} (I : Inv s h) (t : Nat) (pc : Pc) (hb : s.newest.locked = true) :
    Inv (s.exchange t pc (s.threads t).held (s.threads t).guard) h := by
  have hth : ∀ t', ((s.exchange t pc (s.threads t).held (s.threads t).guard).threads t').held = (s.threads t').held ∧
      ((s.exchange t pc (s.threads t).held (s.threads t).guard).threads t').guard = (s.threads t').guard := by
    intro t'
    unfold State.exchange
    by_cases e : t' = t
    · subst e; simp [upd]
    · simp [upd, e]
  have hne : h ≠ none := by
    intro e
    have := I.locked
    rw [hb, e] at this
    cases this
  refine ⟨I.hist, fun t' => by rw [(hth t').1]; exact I.held t', ?_, fun t' => by rw [(hth t').1, (hth t').2]; exact I.guards t',
    fun e => (hne e).elim, fun t' e => ?_, fun t' => ?_, I.view, I.counts⟩
  · have := I.locked
    rw [hb] at this
    exact this
  · change (upd s.threads t _ t').known = s.acc
    by_cases e' : t' = t
    · subst e'
      rw [upd_same]
      have h1 := I.knows t' e
      have h2 := I.view
      change max _ _ = _
      omega
    · rw [upd_ne _ _ e']; exact I.knows t' e
  · change (upd s.threads t _ t').known ≤ s.acc
    by_cases e' : t' = t
    · subst e'
      rw [upd_same]
      exact Nat.max_le.2 ⟨I.known t', I.view⟩
    · rw [upd_ne _ _ e']; exact I.known t'

/-- An exchange that takes the lock. -/
theorem Inv.take {s : State α} {h : Option Nat} (I : Inv s h) (t : Nat) (g : Bool) (hf : s.newest.locked = false) :
    h = none ∧ Inv { s.exchange t .idle true g with log := .acquired t :: s.log } (some t) := by
  have hn : h = none := by
    have := I.locked
    rw [hf] at this
    cases h with
    | none => rfl
    | some x => cases this
  subst hn
  refine ⟨rfl, ?_, fun t' => ?_, rfl, fun t' => ?_, (fun e => by cases e), fun t' e => ?_, fun t' => ?_, I.view, fun t' => ?_⟩
  · change holder none (Ev.acquired t :: s.log).reverse = _
    rw [List.reverse_cons, holder_append, I.hist]
    rfl
  · change (upd s.threads t _ t').held = true ↔ _
    by_cases e : t' = t
    · rw [e, upd_same]; simp
    · rw [upd_ne _ _ e, I.held t']
      constructor
      · intro h; cases h
      · intro h; cases h; exact (e rfl).elim
  · change (upd s.threads t _ t').guard = true → (upd s.threads t _ t').held = true
    by_cases e : t' = t
    · rw [e, upd_same]; intro _; rfl
    · rw [upd_ne _ _ e]; exact I.guards t'
  · cases e
    change (upd s.threads t _ t).known = s.acc
    rw [upd_same]
    have h1 := I.free rfl
    have h2 := I.known t
    change max _ _ = _
    omega
  · change (upd s.threads t _ t').known ≤ s.acc
    by_cases e' : t' = t
    · subst e'
      rw [upd_same]
      exact Nat.max_le.2 ⟨I.known t', I.view⟩
    · rw [upd_ne _ _ e']; exact I.known t'
  · have h1 := I.counts t'
    change (Ev.acquired t :: s.log).count _ = (Ev.acquired t :: s.log).count _ + _
    rw [List.count_cons, List.count_cons, h1]
    by_cases e : t = t'
    · subst e; simp
    · simp [e]

/-- The holder releases. -/
theorem Inv.release {s : State α} {t : Nat} (I : Inv s (some t)) (g : Bool) (hg : g = false) : Inv (unlock s t g) none := by
  subst hg
  refine ⟨?_, fun t' => ?_, rfl, fun t' => ?_, fun _ => I.knows t rfl, (fun t' e => by cases e), fun t' => ?_, I.known t, fun t' => ?_⟩
  · change holder none (Ev.released t :: s.log).reverse = _
    rw [List.reverse_cons, holder_append, I.hist]
    simp [holder]
  · change (upd s.threads t _ t').held = true ↔ _
    by_cases e : t' = t
    · rw [e, upd_same]; simp
    · rw [upd_ne _ _ e, I.held t']
      constructor
      · intro h; cases h; exact (e rfl).elim
      · intro h; cases h
  · change (upd s.threads t _ t').guard = true → (upd s.threads t _ t').held = true
    by_cases e : t' = t
    · rw [e, upd_same]; intro h; cases h
    · rw [upd_ne _ _ e]; exact I.guards t'
  · change (upd s.threads t _ t').known ≤ s.acc
    by_cases e' : t' = t
    · subst e'; rw [upd_same]; exact I.known t'
    · rw [upd_ne _ _ e']; exact I.known t'
  · have h1 := I.counts t'
    change (Ev.released t :: s.log).count _ = (Ev.released t :: s.log).count _ + _
    rw [List.count_cons, List.count_cons, h1]
    by_cases e : t = t'
    · subst e; simp
    · simp [e]

/-- The holder uses the data. -/
theorem Inv.use {s : State α} {t : Nat} (I : Inv s (some t)) (f : α → α) : ∃ s', access s t f = .ok s' ∧ Inv s' (some t) := by
  unfold access
  rw [if_pos (I.knows t rfl)]
  refine ⟨_, rfl, I.hist, fun t' => ?_, I.locked, fun t' => ?_, (fun e => by cases e), fun t' e => ?_, fun t' => ?_, Nat.le_succ_of_le I.view, I.counts⟩
  · change (upd s.threads t _ t').held = true ↔ _
    by_cases e : t' = t
    · subst e; rw [upd_same]; exact I.held t'
    · rw [upd_ne _ _ e]; exact I.held t'
  · change (upd s.threads t _ t').guard = true → (upd s.threads t _ t').held = true
    by_cases e : t' = t
    · subst e; rw [upd_same]; exact I.guards t'
    · rw [upd_ne _ _ e]; exact I.guards t'
  · cases e
    change (upd s.threads t _ t).known = s.acc + 1
    rw [upd_same]
  · change (upd s.threads t _ t').known ≤ s.acc + 1
    by_cases e' : t' = t
    · subst e'; rw [upd_same]; exact Nat.le_refl _
    · rw [upd_ne _ _ e']; exact Nat.le_succ_of_le (I.known t')

theorem step_ok {s : State α} {h : Option Nat} (I : Inv s h) (t : Nat) (a : Act α) (ha : allowed s t a) : ∃ s' h', step s t a = .ok s' ∧ Inv s' h' := by
  cases a with
  | lock =>
    simp only [step]
    by_cases e : (s.threads t).pc = .idle
    · rw [if_pos e]; exact ⟨_, _, rfl, I.goto t _⟩
    · rw [if_neg e]; exact ⟨_, _, rfl, I⟩
  | tryLock =>
    simp only [step]
    by_cases e : (s.threads t).pc = .idle
    · rw [if_pos e]; exact ⟨_, _, rfl, I.goto t _⟩
    · rw [if_neg e]; exact ⟨_, _, rfl, I⟩
  | unlock =>
    simp only [step]
    by_cases e : (s.threads t).pc = .idle
    · rw [if_pos e]
      obtain ⟨h1, h2⟩ := ha e
      have := (I.held t).1 h1
      subst this
      exact ⟨_, _, rfl, I.release _ h2⟩
    · rw [if_neg e]; exact ⟨_, _, rfl, I⟩
  | guard =>
    simp only [step]
    by_cases e : (s.threads t).pc = .idle
    · rw [if_pos e]; exact ⟨_, _, rfl, I.goto t _⟩
    · rw [if_neg e]; exact ⟨_, _, rfl, I⟩
  | endGuard =>
    simp only [step]
    by_cases e : (s.threads t).pc = .idle ∧ (s.threads t).guard = true
    · rw [if_pos e]
      have := (I.held t).1 (I.guards t e.2)
      subst this
      exact ⟨_, _, rfl, I.release _ rfl⟩
    · rw [if_neg e]; exact ⟨_, _, rfl, I⟩
  | access f =>
    simp only [step]
    by_cases e : (s.threads t).pc = .idle
    · rw [if_pos e]
      have := (I.held t).1 (ha e)
      subst this
      obtain ⟨s', h1, h2⟩ := I.use f
      exact ⟨s', _, h1, h2⟩
    · rw [if_neg e]; exact ⟨_, _, rfl, I⟩
  | go c =>
    simp only [step]
    generalize (s.threads t).pc = pc
    refine (?_ : ∃ h', Inv (advance s t c pc) h').elim (fun h' I' => ⟨_, h', rfl, I'⟩)
    cases pc with
    | idle => exact ⟨h, I⟩
    | lockX g =>
      simp only [advance, lockX]
      by_cases e : s.newest.locked = false
      · rw [if_pos e]; exact ⟨_, (I.take t _ e).2⟩
      · rw [if_neg e]; exact ⟨_, I.busy t _ (by simpa using e)⟩
    | lockWait g =>
      simp only [advance, lockWait]
      split
      · split
        · exact ⟨h, I⟩
        · exact ⟨h, I.goto t _⟩
      · exact ⟨h, I⟩
    | tryLoad =>
      simp only [advance, tryLoad]
      split
      · split
        · exact ⟨h, (I.goto t _).rets _⟩
        · exact ⟨h, I.goto t _⟩
      · exact ⟨h, I⟩
    | tryX =>
      simp only [advance, tryX]
      by_cases e : s.newest.locked = false
      · rw [if_pos e]; exact ⟨_, (I.take t _ e).2.rets _⟩
      · rw [if_neg e]; exact ⟨_, (I.busy t _ (by simpa using e)).rets _⟩

theorem run_ok : ∀ (sched : List (Nat × Act α)) {s : State α} {h : Option Nat}, Inv s h → Proper s sched → ∃ s' h', run s sched = .ok s' ∧ Inv s' h'
  | [], s, h, I, _ => ⟨s, h, rfl, I⟩
  | (t, a) :: as, s, h, I, hp => by
    obtain ⟨s1, h1, e1, I1⟩ := step_ok I t a hp.1
    obtain ⟨s2, h2, e2, I2⟩ := run_ok as I1 (hp.2 s1 e1)
    exact ⟨s2, h2, by simp only [run, e1, R.ok_bind, e2], I2⟩

theorem run_cons {s s' : State α} {t : Nat} {a : Act α} (h : step s t a = .ok s') (as : List (Nat × Act α)) : run s ((t, a) :: as) = run s' as := by
  simp only [run, h, R.ok_bind]

theorem init_inv (d : α) : Inv (init d) none :=
  ⟨rfl, fun t => ⟨(fun h => by cases h), (fun h => by cases h)⟩, rfl, (fun t h => by cases h), fun _ => rfl, (fun t h => by cases h), fun _ => Nat.le_refl _,
    Nat.le_refl _, fun _ => rfl⟩

/-- **C27**: under every schedule whose clients obey the rule, there is no data race on the protected data (the run is `ok`), at most one thread is
between lock and unlock, the lock is taken only when free and given back only by its holder, and a living `lock_guard` holds the lock. -/
theorem C27_mutual_exclusion (d : α) (sched : List (Nat × Act α)) (hp : Proper (init d) sched) : ∃ s, run (init d) sched = .ok s ∧ Exclusive s := by
  obtain ⟨s, h, e, I⟩ := run_ok sched (init_inv d) hp
  refine ⟨s, e, fun t t' h1 h2 => ?_, ⟨h, I.hist, I.held⟩, I.guards⟩
  have e1 := (I.held t).1 h1
  have e2 := (I.held t').1 h2
  rw [e1] at e2
  exact Option.some.inj e2

/-- **C27**: every acquisition is released exactly once, except the one that is still held; a `lock_guard` is among them. -/
theorem C27_released_once (d : α) (sched : List (Nat × Act α)) (hp : Proper (init d) sched) {s : State α} (hs : run (init d) sched = .ok s) (t : Nat) :
    acquisitions s t = releases s t + if (s.threads t).held = true then 1 else 0 := by
  obtain ⟨s1, h, e, I⟩ := run_ok sched (init_inv d) hp
  rw [hs] at e
  cases e
  unfold acquisitions releases
  rw [I.counts t]
  simp only [I.held t]

/-- **C27**: when nobody has the lock it can be taken: a call of `lock()` by any thread succeeds with its first exchange, a waiting thread gets it
with the next two steps, and `try_lock()` returns true. (The loads return the newest value.) -/
theorem C27_unlocked_can_be_taken (d : α) (sched : List (Nat × Act α)) (hp : Proper (init d) sched) {s : State α} (hs : run (init d) sched = .ok s)
    (hu : Unlocked s) (t : Nat) :
    ((s.threads t).pc = .idle → ∃ s', run s [(t, .lock), (t, .go 0)] = .ok s' ∧ (s'.threads t).held = true ∧ (s'.threads t).pc = .idle) ∧
    (∀ g, (s.threads t).pc = .lockWait g → ∃ s', run s [(t, .go 0), (t, .go 0)] = .ok s' ∧ (s'.threads t).held = true ∧ (s'.threads t).pc = .idle) ∧
    ((s.threads t).pc = .idle → ∃ s', run s [(t, .tryLock), (t, .go 0), (t, .go 0)] = .ok s' ∧ (s'.threads t).held = true ∧ s'.rets = (t, true) :: s.rets) := by
  obtain ⟨s1, h, e, I⟩ := run_ok sched (init_inv d) hp
  rw [hs] at e
  cases e
  have hn : h = none := by
    cases h with
    | none => rfl
    | some x =>
      have := (I.held x).2 rfl
      rw [hu x] at this
      cases this
  have hl : s.newest.locked = false := by rw [I.locked, hn]; rfl
  have hg : ∀ pc, ((s.goto t pc).threads t).pc = pc := by
    intro pc
    change (upd s.threads t _ t).pc = pc
    rw [upd_same]
  have hg2 : ∀ pc, (s.goto t pc).newest = s.newest ∧ (s.goto t pc).older = s.older ∧ (s.goto t pc).rets = s.rets := fun pc => ⟨rfl, rfl, rfl⟩
  refine ⟨fun hi => ?_, fun g hi => ?_, fun hi => ?_⟩
  · refine ⟨_, by simp only [run, step, if_pos hi, R.ok_bind, hg, advance, lockX, (hg2 _).1, hl, if_true]; rfl, ?_, ?_⟩
    · exact congrArg Thread.held (upd_same _ _ _)
    · exact congrArg Thread.pc (upd_same _ _ _)
  · refine ⟨_, by simp only [run, step, R.ok_bind, hi, advance, lockWait, List.getElem?_cons_zero, hl, Bool.false_eq_true, if_false, hg, lockX, (hg2 _).1, if_true]; rfl, ?_, ?_⟩
    · exact congrArg Thread.held (upd_same _ _ _)
    · exact congrArg Thread.pc (upd_same _ _ _)
  · have e1 : step s t .tryLock = .ok (s.goto t .tryLoad) := by simp only [step, if_pos hi]
    have e2 : step (s.goto t .tryLoad) t (.go 0) = .ok ((s.goto t .tryLoad).goto t .tryX) := by
      simp only [step, hg, advance, tryLoad, List.getElem?_cons_zero, (hg2 _).1, hl, Bool.false_eq_true, if_false]
    have h3 : (((s.goto t .tryLoad).goto t .tryX).threads t).pc = .tryX := congrArg Thread.pc (upd_same _ _ _)
    have h4 : ((s.goto t .tryLoad).goto t .tryX).newest.locked = false := hl
    have e3 : step ((s.goto t .tryLoad).goto t .tryX) t (.go 0) = .ok (tryX ((s.goto t .tryLoad).goto t .tryX) t) := by
      simp only [step, h3, advance]
    refine ⟨_, by rw [run_cons e1, run_cons e2, run_cons e3]; rfl, ?_, ?_⟩
    · unfold tryX
      rw [if_pos h4]
      exact congrArg Thread.held (upd_same _ _ _)
    · unfold tryX
      rw [if_pos h4]
      rfl

/-- **C27**: `try_lock()` fails only if some thread has the lock at that moment (if its load returns the newest value). -/
theorem C27_try_lock_false (d : α) (sched : List (Nat × Act α)) (hp : Proper (init d) sched) {s s' : State α} (hs : run (init d) sched = .ok s)
    (t : Nat) (h : step s t (.go 0) = .ok s') (hr : s'.rets = (t, false) :: s.rets) : ∃ t', (s.threads t').held = true := by
  obtain ⟨s1, hh, e, I⟩ := run_ok sched (init_inv d) hp
  rw [hs] at e
  cases e
  have hself : ∀ {P : Prop} {x : Nat × Bool}, s.rets = x :: s.rets → P := by
    intro P x h
    have := congrArg List.length h
    simp at this
  have hfin : s.newest.locked = true → ∃ t', (s.threads t').held = true := by
    intro hl
    rw [I.locked] at hl
    obtain ⟨x, hx⟩ := Option.isSome_iff_exists.1 hl
    exact ⟨x, (I.held x).2 hx⟩
  simp only [step] at h
  cases h
  generalize (s.threads t).pc = pc at hr
  cases pc with
  | idle => exact hself hr
  | lockX g =>
    simp only [advance, lockX] at hr
    split at hr <;> exact hself hr
  | lockWait g =>
    simp only [advance, lockWait, List.getElem?_cons_zero] at hr
    split at hr <;> exact hself hr
  | tryLoad =>
    simp only [advance, tryLoad, List.getElem?_cons_zero] at hr
    by_cases e : s.newest.locked = true
    · exact hfin e
    · rw [if_neg e] at hr; exact hself hr
  | tryX =>
    simp only [advance, tryX] at hr
    by_cases e : s.newest.locked = false
    · rw [if_pos e] at hr; cases hr
    · exact hfin (by simpa using e)

/-- **C27**: when `try_lock()` returns true, the calling thread has the lock, by an acquisition of its own. -/
theorem C27_try_lock_true {s s' : State α} (t c : Nat) (h : step s t (.go c) = .ok s') (hr : s'.rets = (t, true) :: s.rets) :
    (s'.threads t).held = true ∧ s'.log = .acquired t :: s.log := by
  have hself : ∀ {P : Prop} {x : Nat × Bool}, s.rets = x :: s.rets → P := by
    intro P x h
    have := congrArg List.length h
    simp at this
  simp only [step] at h
  cases hp : (s.threads t).pc with
  | idle =>
    rw [hp] at h
    cases h
    exact hself hr
  | lockX g =>
    rw [hp] at h
    simp only [advance, lockX] at h
    split at h <;> cases h <;> exact hself hr
  | lockWait g =>
    rw [hp] at h
    simp only [advance, lockWait] at h
    split at h
    · split at h <;> cases h <;> exact hself hr
    · cases h
      exact hself hr
  | tryLoad =>
    rw [hp] at h
    simp only [advance, tryLoad] at h
    split at h
    · split at h
      · cases h
        simp at hr
      · cases h
        exact hself hr
    · cases h
      exact hself hr
  | tryX =>
    rw [hp] at h
    simp only [advance, tryX] at h
    split at h
    · cases h
      exact ⟨congrArg Thread.held (upd_same _ _ _), rfl⟩
    · cases h
      simp at hr

/-! ## Examples -/

/-- Two threads add to a counter, one with a `lock_guard`; the second has to wait and reads old values meanwhile. -/
def demo : List (Nat × Act Nat) :=
  [(0, .guard), (0, .go 0), (1, .lock), (1, .go 0), (0, .access (· + 1)), (1, .go 2), (1, .go 0), (1, .go 0), (0, .access (· + 10)), (0, .endGuard),
   (1, .go 0), (1, .go 0), (1, .access (· * 2)), (2, .tryLock), (2, .go 0), (1, .unlock), (2, .tryLock), (2, .go 0), (2, .go 0)]

example : Proper (init 0) demo := by
  simp [Proper, demo, allowed, step, advance, init, State.goto, State.exchange, lockX, lockWait, tryLoad, tryX, unlock, access, upd]

example : (run (init 0) demo).map (fun s => (s.data, s.log.reverse, s.rets)) =
    .ok (22, [.acquired 0, .released 0, .acquired 1, .released 1, .acquired 2], [(2, true), (2, false)]) := by decide +kernel

/-- Without the rule the lock protects nothing: an `unlock()` by a thread that does not have the lock lets a second one in, and their accesses race. -/
example : (run (init 0) [(0, .lock), (0, .go 0), (1, .unlock), (1, .lock), (1, .go 0), (0, .access (· + 1)), (1, .access (· + 1))]).map (·.data) = .error .ub := by
  decide +kernel

end Verif.Spin
