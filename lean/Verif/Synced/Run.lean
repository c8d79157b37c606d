import Verif.Synced.Lemmas

/-! Whole schedules, and that calls can always be completed. -/
namespace Verif.Synced
open Spec
open Spin (upd upd_same upd_ne)

variable {S C L A : Type}

/-- The schedule makes no call that the wrapper passes on without the lock. -/
def NoBare (o : Obj S C L A) (sched : List (Nat × Act C)) : Prop := ∀ t c, (t, Act.call c) ∈ sched → o.kind c ≠ .bare

section
variable {o : Obj S C L A} {seq : S → C → R (S × A)} {P : List C → Prop} {d : S} {w : World S C L A} {h : Option Nat} {s : S}

theorem step_ok (I : Inv o seq P d w h s) (hi : Implements o seq) (t : Nat) (a : Act C) (hb : ∀ c, a = .call c → o.kind c ≠ .bare)
    (hn : ∀ c x, o.kind c = .nothing x → ∀ cs, P cs → P (cs ++ [c]))
    (hP : ∀ c l, w.phase t = .body c l → P ((effects w.events).map Prod.fst ++ [c])) :
    (∃ w' h' s', step o w t a = .ok w' ∧ Inv o seq P d w' h' s') ∨
      (∃ f c l, step o w t a = .error f ∧ w.phase t = .body c l ∧ seq s c = .error f) := by
  cases a with
  | call c =>
    left
    simp only [step]
    cases hph : w.phase t with
    | idle => exact begin_ok I hi t c hph (hb c rfl) (fun a ha => hn c a ha _)
    | entering _ => exact ⟨w, h, s, rfl, I⟩
    | body _ _ => exact ⟨w, h, s, rfl, I⟩
    | leaving _ _ => exact ⟨w, h, s, rfl, I⟩
    | bare _ _ => exact ⟨w, h, s, rfl, I⟩
  | go k =>
    simp only [step]
    cases hph : w.phase t with
    | idle => left; exact ⟨w, h, s, rfl, I⟩
    | entering c => left; exact enter_ok I hi t k c hph
    | body c l =>
      rcases work_ok I t c l hph (hP c l hph) with h1 | ⟨f, e1, e2⟩
      · exact Or.inl h1
      · exact Or.inr ⟨f, c, l, e1, rfl, e2⟩
    | leaving c a => left; exact leave_ok I t c a hph
    | bare c l =>
      have := I.lock t
      rw [hph] at this
      exact this.elim

theorem run_ok (hi : Implements o seq) (hn : ∀ c x, o.kind c = .nothing x → ∀ cs, P cs → P (cs ++ [c])) (sched : List (Nat × Act C)) :
    ∀ {w : World S C L A} {h : Option Nat} {s : S}, Inv o seq P d w h s → NoBare o sched →
    (∀ pre post w' t c l, sched = pre ++ post → run o w pre = .ok w' → w'.phase t = .body c l →
      P ((effects w'.events).map Prod.fst) → P ((effects w'.events).map Prod.fst ++ [c])) →
    (∃ w' h' s', run o w sched = .ok w' ∧ Inv o seq P d w' h' s') ∨
    (∃ f pre post w' h' s' t c l, sched = pre ++ post ∧ run o w pre = .ok w' ∧ Inv o seq P d w' h' s' ∧ w'.phase t = .body c l ∧ seq s' c = .error f ∧
      run o w sched = .error f) := by
  induction sched with
  | nil => intro w h s I _ _; exact Or.inl ⟨w, h, s, rfl, I⟩
  | cons p sched ih =>
    obtain ⟨t, a⟩ := p
    intro w h s I hb hP
    rcases step_ok I hi t a (fun c e => hb t c (by rw [e]; exact List.mem_cons_self)) hn
      (fun c l e => hP [] _ w t c l rfl rfl e I.prop) with ⟨w1, h1, s1, e1, I1⟩ | ⟨f, c, l, e1, hph, e2⟩
    · rcases ih I1 (fun t' c' hm => hb t' c' (List.mem_cons_of_mem _ hm))
        (fun pre post w' t' c' l' e er => hP ((t, a) :: pre) post w' t' c' l' (by rw [e]; rfl) (by simp only [run, e1, R.ok_bind, er]))
        with ⟨w2, h2, s2, e2, I2⟩ | ⟨f, pre, post, w2, h2, s2, t2, c2, l2, e, er, I2, hph, hsq, e3⟩
      · exact Or.inl ⟨w2, h2, s2, by simp only [run, e1, R.ok_bind, e2], I2⟩
      · exact Or.inr ⟨f, (t, a) :: pre, post, w2, h2, s2, t2, c2, l2, by rw [e]; rfl, by simp only [run, e1, R.ok_bind, er], I2, hph, hsq,
          by simp only [run, e1, R.ok_bind, e3]⟩
    · exact Or.inr ⟨f, [], _, w, h, s, t, c, l, rfl, rfl, I, hph, e2, by simp only [run, e1, R.error_bind]⟩

theorem run_append (as bs : List (Nat × Act C)) : ∀ {w w' : World S C L A}, run o w as = .ok w' → run o w (as ++ bs) = run o w' bs := by
  induction as with
  | nil => intro w w' h; cases h; rfl
  | cons p as ih =>
    obtain ⟨t, a⟩ := p
    intro w w' h
    simp only [run, R.bind_eq_ok] at h
    obtain ⟨w1, e1, e2⟩ := h
    simp only [List.cons_append, run, e1, R.ok_bind]
    exact ih e2

/-- The steps of a thread change only its own phase. -/
theorem step_phase {w w' : World S C L A} {t t' : Nat} {a : Act C} (h : step o w t a = .ok w') (ht : t' ≠ t) : w'.phase t' = w.phase t' := by
  have hu : ∀ ph : Phase C L A, upd w.phase t ph t' = w.phase t' := fun ph => upd_ne _ _ ht
  cases a with
  | call c =>
    simp only [step] at h
    split at h
    · unfold begin' at h
      split at h
      · simp only [R.bind_eq_ok] at h
        obtain ⟨sp, _, e⟩ := h
        cases e
        exact hu _
      · cases h; exact hu _
      · cases h; rfl
    · cases h; rfl
  | go k =>
    simp only [step] at h
    split at h
    · cases h; rfl
    · unfold enter at h
      simp only [R.bind_eq_ok] at h
      obtain ⟨sp, _, e⟩ := h
      cases e
      show (if _ then _ else _ : Nat → Phase C L A) t' = _
      split
      · exact hu _
      · rfl
    · unfold work at h
      simp only [R.bind_eq_ok] at h
      obtain ⟨⟨sp, x⟩, _, e⟩ := h
      cases x with
      | inl l => cases e; exact hu _
      | inr a => cases e; exact hu _
    · unfold leave at h
      simp only [R.bind_eq_ok] at h
      obtain ⟨sp, _, e⟩ := h
      cases e
      exact hu _
    · unfold workBare at h
      simp only [R.bind_eq_ok] at h
      obtain ⟨⟨sp, x⟩, _, e⟩ := h
      cases x with
      | inl l => cases e; exact hu _
      | inr a => cases e; exact hu _

/-- A call that runs was begun by the schedule. -/
theorem called_aux (Q : C → Prop) (as : List (Nat × Act C)) : ∀ (w w' : World S C L A), (∀ t c, (t, Act.call c) ∈ as → Q c) →
    (∀ t, match w.phase t with | .entering c => Q c | .body c _ => Q c | _ => True) → run o w as = .ok w' →
    ∀ t, match w'.phase t with | .entering c => Q c | .body c _ => Q c | _ => True := by
  induction as with
  | nil => intro w w' _ h1 h2; cases h2; exact h1
  | cons p as ih =>
    obtain ⟨t0, a⟩ := p
    intro w w' h0 h1 h2
    simp only [run, R.bind_eq_ok] at h2
    obtain ⟨w1, e1, e2⟩ := h2
    refine ih w1 w' (fun t c hm => h0 t c (List.mem_cons_of_mem _ hm)) (fun t' => ?_) e2
    by_cases ht : t' = t0
    · subst ht
      have hown := h1 t'
      cases a with
      | call c =>
        have hc := h0 t' c List.mem_cons_self
        simp only [step] at e1
        split at e1
        · rename_i hidle
          unfold begin' at e1
          split at e1
          · simp only [R.bind_eq_ok] at e1
            obtain ⟨sp, _, e⟩ := e1
            cases e
            simp only [upd_same]
            exact hc
          · cases e1; simp only [upd_same]
          · cases e1; simp only [hidle]
        · cases e1; exact hown
      | go k =>
        simp only [step] at e1
        split at e1
        · cases e1; exact hown
        · rename_i c hph
          rw [hph] at hown
          unfold enter at e1
          simp only [R.bind_eq_ok] at e1
          obtain ⟨sp, _, e⟩ := e1
          cases e
          by_cases hg : (sp.threads t').guard = true
          · simp only [hg, if_true, upd_same]; exact hown
          · simp only [hg, Bool.false_eq_true, if_false, hph]; exact hown
        · rename_i c l hph
          rw [hph] at hown
          unfold work at e1
          simp only [R.bind_eq_ok] at e1
          obtain ⟨⟨sp, x⟩, _, e⟩ := e1
          cases x with
          | inl l => cases e; simp only [upd_same]; exact hown
          | inr a => cases e; simp only [upd_same]
        · unfold leave at e1
          simp only [R.bind_eq_ok] at e1
          obtain ⟨sp, _, e⟩ := e1
          cases e
          simp only [upd_same]
        · unfold workBare at e1
          simp only [R.bind_eq_ok] at e1
          obtain ⟨⟨sp, x⟩, _, e⟩ := e1
          cases x with
          | inl l => cases e; simp only [upd_same]
          | inr a => cases e; simp only [upd_same]
    · rw [step_phase e1 ht]; exact h1 t'

theorem called (Q : C → Prop) (as : List (Nat × Act C)) {d : S} {w : World S C L A} (h : ∀ t c, (t, Act.call c) ∈ as → Q c) (hr : run o (init d) as = .ok w)
    {t : Nat} {c : C} {l : L} (hph : w.phase t = .body c l) : Q c := by
  have := called_aux Q as (init d) w h (fun _ => trivial) hr t
  rw [hph] at this
  exact this

/-- `n` steps of thread `t`. -/
def steps (C : Type) (n t : Nat) : List (Nat × Act C) := List.replicate n (t, .go 0)

theorem steps_phase {t t' : Nat} (ht : t' ≠ t) (n : Nat) : ∀ {w w' : World S C L A}, run o w (steps C n t) = .ok w' → w'.phase t' = w.phase t' := by
  induction n with
  | zero => intro w w' h; cases h; rfl
  | succ n ih =>
    intro w w' h
    have h' : run o w ((t, .go 0) :: steps C n t) = .ok w' := h
    simp only [run, R.bind_eq_ok] at h'
    obtain ⟨w1, e1, e2⟩ := h'
    rw [ih e2, step_phase e1 ht]

theorem steps_add {t n m : Nat} {w w' : World S C L A} (h : run o w (steps C n t) = .ok w') : run o w (steps C (n + m) t) = run o w' (steps C m t) := by
  have : steps C (n + m) t = steps C n t ++ steps C m t := by
    unfold steps
    rw [List.replicate_append_replicate]
  rw [this, run_append _ _ h]

/-- A call that has the lock can be finished, unless it fails as it does alone. -/
theorem body_done {t : Nat} {c : C} {l : L} {x : S} {r : R (S × A)} (hr : Runs o l x r) :
    ∀ {w : World S C L A} {h : Option Nat} {s : S}, Inv o seq (fun _ => True) d w h s → w.phase t = .body c l → w.spin.data = x → seq s c = r →
    (∃ n w' h' s' a, run o w (steps C n t) = .ok w' ∧ Inv o seq (fun _ => True) d w' h' s' ∧ w'.phase t = .leaving c a) ∨
    (∃ n f, run o w (steps C n t) = .error f ∧ seq s c = .error f) := by
  induction hr with
  | fault hm =>
    intro w h s I hph hx hsq
    refine Or.inr ⟨1, _, ?_, hsq⟩
    rcases work_ok I t c _ hph trivial with ⟨w', h', s', e, _⟩ | ⟨f, e1, e2⟩
    · unfold work access at e
      simp only [R.bind_eq_ok] at e
      obtain ⟨y, ⟨sp, e1, z, e2, _⟩, _⟩ := e
      have hl := I.lock t
      rw [hph] at hl
      simp only [Spin.step, if_pos hl.1] at e1
      rw [(use_thread e1 t).2.2, hx, hm] at e2
      cases e2
    · rw [hsq] at e2
      cases e2
      show (step o w t (.go 0) >>= fun w => run o w []) = _
      simp only [step, hph, e1, R.error_bind]
  | done hm =>
    intro w h s I hph hx hsq
    rcases work_ok I t c _ hph trivial with ⟨w', h', s', e, I'⟩ | ⟨f, e1, e2⟩
    · left
      have hph' : ∃ a, w'.phase t = .leaving c a := by
        unfold work access at e
        simp only [R.bind_eq_ok] at e
        obtain ⟨y, ⟨sp, e1, z, e2, e4⟩, e3⟩ := e
        have hl := I.lock t
        rw [hph] at hl
        simp only [Spin.step, if_pos hl.1] at e1
        rw [(use_thread e1 t).2.2, hx, hm] at e2
        cases e2
        cases e4
        cases e3
        exact ⟨_, upd_same _ _ _⟩
      obtain ⟨a, ha⟩ := hph'
      refine ⟨1, w', h', s', a, ?_, I', ha⟩
      show (step o w t (.go 0) >>= fun w => run o w []) = _
      simp only [step, hph, e, R.ok_bind, run]
    · rw [hsq] at e2; cases e2
  | more hm _ ih =>
    rename_i l0 x0 x1 l1 r1 _
    intro w h s I hph hx hsq
    have hd : ∀ w', work o w t c l0 = .ok w' → w'.phase t = .body c l1 ∧ w'.spin.data = x1 ∧ w'.events = w.events := by
      intro w' e
      unfold work access at e
      simp only [R.bind_eq_ok] at e
      obtain ⟨y, ⟨sp, e1, z, e2, e4⟩, e3⟩ := e
      have hl := I.lock t
      rw [hph] at hl
      simp only [Spin.step, if_pos hl.1] at e1
      rw [(use_thread e1 t).2.2, hx, hm] at e2
      cases e2
      cases e4
      cases e3
      exact ⟨upd_same _ _ _, rfl, rfl⟩
    have hstep : step o w t (.go 0) = work o w t c l0 := by simp only [step, hph]
    rcases work_ok I t c l0 hph trivial with ⟨w', h', s', e, I'⟩ | ⟨f, e1, e2⟩
    · obtain ⟨h1, h2, h3⟩ := hd w' e
      have hs : s' = s := by
        have e1 := I'.legal
        rw [h3, I.legal] at e1
        simp only [Except.ok.injEq, Prod.mk.injEq] at e1
        exact e1.1.symm
      subst hs
      have hsucc : ∀ n, run o w (steps C (n + 1) t) = run o w' (steps C n t) := by
        intro n
        show (step o w t (.go 0) >>= fun w => run o w (steps C n t)) = _
        rw [hstep, e]
        rfl
      rcases ih I' h1 h2 hsq with ⟨n, w2, h2, s2, a, e2, I2, hp2⟩ | ⟨n, f, e2, e3⟩
      · exact Or.inl ⟨n + 1, w2, h2, s2, a, by rw [hsucc, e2], I2, hp2⟩
      · exact Or.inr ⟨n + 1, f, by rw [hsucc, e2], e3⟩
    · refine Or.inr ⟨1, f, ?_, e2⟩
      show (step o w t (.go 0) >>= fun w => run o w []) = _
      simp only [hstep, e1, R.error_bind]

/-- Giving back the lock. -/
theorem leave_done (I : Inv o seq (fun _ => True) d w h s) {t : Nat} {c : C} {a : A} (hph : w.phase t = .leaving c a) :
    ∃ w' s', run o w (steps C 1 t) = .ok w' ∧ Inv o seq (fun _ => True) d w' none s' ∧ w'.phase t = .idle := by
  obtain ⟨w', h', s', e, I'⟩ := leave_ok I t c a hph
  have hstep : step o w t (.go 0) = .ok w' := by simp only [step, hph, e]
  have hi : w'.phase t = .idle := by
    unfold leave at e
    simp only [R.bind_eq_ok] at e
    obtain ⟨sp, _, e2⟩ := e
    cases e2
    exact upd_same _ _ _
  have hl := I.lock t
  rw [hph] at hl
  have hnone : h' = none := by
    cases h' with
    | none => rfl
    | some x =>
      have hx : (w'.spin.threads x).held = true := (I'.spin.held x).2 rfl
      by_cases ex : x = t
      · subst ex
        have := I'.lock x
        rw [hi] at this
        exact absurd rfl this.2
      · unfold leave at e
        simp only [Spin.step, if_pos (And.intro hl.1 hl.2.1), R.ok_bind] at e
        cases e
        have hx2 : (w.spin.threads x).held = true := by
          have : Spin.Thread.held (upd w.spin.threads t _ x) = true := hx
          rwa [upd_ne _ _ ex] at this
        have h1 := (I.spin.held x).1 hx2
        rw [hl.2.2] at h1
        cases h1
        exact absurd rfl ex
  subst hnone
  refine ⟨w', s', ?_, I', hi⟩
  show (step o w t (.go 0) >>= fun w => run o w []) = _
  rw [hstep]
  rfl

/-- The holder can finish its call. -/
theorem holder_done (I : Inv o seq (fun _ => True) d w h s) {t : Nat} (hh : h = some t) :
    (∃ n w' s', run o w (steps C n t) = .ok w' ∧ Inv o seq (fun _ => True) d w' none s' ∧ w'.phase t = .idle) ∨
    (∃ n f c, run o w (steps C n t) = .error f ∧ seq s c = .error f) := by
  have hl := I.lock t
  cases hph : w.phase t with
  | idle => rw [hph] at hl; exact absurd hh hl.2
  | entering c => rw [hph] at hl; exact absurd hh hl.2
  | bare c l => rw [hph] at hl; exact hl.elim
  | leaving c a =>
    obtain ⟨w', s', e, I', hi⟩ := leave_done I hph
    exact Or.inl ⟨1, w', s', e, I', hi⟩
  | body c l =>
    rcases body_done (I.body t c l hph) I hph rfl rfl with ⟨n, w1, h1, s1, a, e1, I1, hp1⟩ | ⟨n, f, e1, e2⟩
    · obtain ⟨w', s', e, I', hi⟩ := leave_done I1 hp1
      exact Or.inl ⟨n + 1, w', s', by rw [steps_add e1, e], I', hi⟩
    · exact Or.inr ⟨n, f, c, e1, e2⟩

/-- With the lock free, a waiting thread gets it. -/
theorem enter_done (hi : Implements o seq) (I : Inv o seq (fun _ => True) d w none s) {t : Nat} {c : C} (hph : w.phase t = .entering c) :
    ∃ n w' h' s' l, run o w (steps C n t) = .ok w' ∧ Inv o seq (fun _ => True) d w' h' s' ∧ w'.phase t = .body c l := by
  have key : ∀ {w : World S C L A} {s : S}, Inv o seq (fun _ => True) d w none s → w.phase t = .entering c → (w.spin.threads t).pc = .lockX true →
      ∃ w' h' s' l, run o w (steps C 1 t) = .ok w' ∧ Inv o seq (fun _ => True) d w' h' s' ∧ w'.phase t = .body c l := by
    intro w s I hph hpc
    obtain ⟨w', h', s', e, I'⟩ := enter_ok I hi t 0 c hph
    have hlk : w.spin.newest.locked = false := by rw [I.spin.locked]; rfl
    refine ⟨w', h', s', o.start c, ?_, I', ?_⟩
    · show (step o w t (.go 0) >>= fun w => run o w []) = _
      simp only [step, hph, e, R.ok_bind, run]
    · unfold enter at e
      simp only [Spin.step, hpc, Spin.advance, Spin.lockX, hlk, if_true, R.ok_bind, exchange_thread, Bool.true_or] at e
      cases e
      exact upd_same _ _ _
  have hl := I.lock t
  rw [hph] at hl
  rcases hl.1 with hpc | hpc
  · obtain ⟨w', h', s', l, h⟩ := key I hph hpc
    exact ⟨1, w', h', s', l, h⟩
  · obtain ⟨w1, h1, s1, e, I1⟩ := enter_ok I hi t 0 c hph
    have hlk : w.spin.newest.locked = false := by rw [I.spin.locked]; rfl
    have hng : (w.spin.threads t).guard = false := by
      cases hg : (w.spin.threads t).guard with
      | false => rfl
      | true => exact absurd ((I.spin.held t).1 (I.spin.guards t hg)) hl.2
    have h2 : w1 = { w with spin := w.spin.goto t (.lockX true) } := by
      unfold enter at e
      simp only [Spin.step, hpc, Spin.advance, Spin.lockWait, List.getElem?_cons_zero, hlk, Bool.false_eq_true, if_false, R.ok_bind,
        (goto_thread _ _ _ _).1, hng] at e
      cases e
      rfl
    have hh1 : h1 = none := by
      cases h1 with
      | none => rfl
      | some x =>
        have : w1.spin.newest.locked = true := by rw [I1.spin.locked]; rfl
        rw [h2] at this
        rw [show ({ w with spin := w.spin.goto t (.lockX true) } : World S C L A).spin.newest = w.spin.newest from rfl, hlk] at this
        cases this
    subst hh1
    have e1 : run o w (steps C 1 t) = .ok w1 := by
      show (step o w t (.go 0) >>= fun w => run o w []) = _
      simp only [step, hph, e, R.ok_bind, run]
    obtain ⟨w', h', s', l, e2, I', hp⟩ := key I1 (by rw [h2]; exact hph) (by rw [h2]; show ((w.spin.goto t _).threads t).pc = _; rw [(goto_thread _ _ _ _).2, if_pos rfl])
    exact ⟨1 + 1, w', h', s', l, by rw [steps_add e1, e2], I', hp⟩

/-- Any call can be completed. -/
theorem can_finish (hi : Implements o seq) (I : Inv o seq (fun _ => True) d w h s) (t : Nat) :
    ∃ sched, (∀ p ∈ sched, p.2 = Act.go 0) ∧
      ((∃ w', run o w sched = .ok w' ∧ w'.phase t = .idle) ∨ ∃ f s c, run o w sched = .error f ∧ seq s c = .error f) := by
  have hgo : ∀ (n t : Nat), ∀ p ∈ steps C n t, p.2 = Act.go 0 := by
    intro n t p hp
    rw [(List.mem_replicate.1 hp).2]
  have finish : ∀ {w : World S C L A} {s : S} {c : C}, Inv o seq (fun _ => True) d w none s → w.phase t = .entering c → ∃ sched,
      (∀ p ∈ sched, p.2 = Act.go 0) ∧
      ((∃ w', run o w sched = .ok w' ∧ w'.phase t = .idle) ∨ ∃ f s c, run o w sched = .error f ∧ seq s c = .error f) := by
    intro w s c I hph
    obtain ⟨n, w1, h1, s1, l, e1, I1, hp1⟩ := enter_done hi I hph
    rcases holder_done I1 (I1.holder t hp1) with ⟨m, w2, s2, e2, _, hi2⟩ | ⟨m, f, c', e2, e3⟩
    · exact ⟨steps C (n + m) t, hgo _ _, Or.inl ⟨w2, by rw [steps_add e1, e2], hi2⟩⟩
    · exact ⟨steps C (n + m) t, hgo _ _, Or.inr ⟨f, s1, c', by rw [steps_add e1, e2], e3⟩⟩
  cases hph : w.phase t with
  | idle => exact ⟨[], by simp, Or.inl ⟨w, rfl, hph⟩⟩
  | bare c l => have := I.lock t; rw [hph] at this; exact this.elim
  | body c l =>
    rcases holder_done I (I.holder t hph) with ⟨m, w2, s2, e2, _, hi2⟩ | ⟨m, f, c', e2, e3⟩
    · exact ⟨steps C m t, hgo _ _, Or.inl ⟨w2, e2, hi2⟩⟩
    · exact ⟨steps C m t, hgo _ _, Or.inr ⟨f, s, c', e2, e3⟩⟩
  | leaving c a =>
    obtain ⟨w', s', e, I', hi⟩ := leave_done I hph
    exact ⟨steps C 1 t, hgo _ _, Or.inl ⟨w', e, hi⟩⟩
  | entering c =>
    cases h with
    | none => exact finish I hph
    | some t' =>
      have hne : t ≠ t' := by
        intro e
        subst e
        have := I.lock t
        rw [hph] at this
        exact this.2 rfl
      rcases holder_done I rfl with ⟨m, w2, s2, e2, I2, hi2⟩ | ⟨m, f, c', e2, e3⟩
      · obtain ⟨sched, hg, hs⟩ := finish I2 (by rw [steps_phase hne m e2]; exact hph)
        refine ⟨steps C m t' ++ sched, ?_, ?_⟩
        · intro p hp
          rcases List.mem_append.1 hp with h | h
          · exact hgo _ _ p h
          · exact hg p h
        · rw [run_append _ _ e2]; exact hs
      · exact ⟨steps C m t', hgo _ _, Or.inr ⟨f, s, c', e2, e3⟩⟩

end
end Verif.Synced
