import Verif.Synced.Spec
import Verif.Spin.Props

/-! Lemmas about guarded calls. -/
namespace Verif.Synced
open Spec
open Spin (upd upd_same upd_ne)

variable {S C L A : Type}

theorem effects_cons (e : Ev C A) (es : List (Ev C A)) :
    effects (e :: es) = effects es ++ (match e with | .lin _ c a => [(c, a)] | _ => []) := by
  unfold effects
  rw [List.reverse_cons, List.filterMap_append]
  cases e <;> rfl

theorem replay_snoc (seq : S → C → R (S × A)) (c : C) : ∀ (cs : List C) (s : S) {s' : S} {as : List A}, replay seq s cs = .ok (s', as) →
    ∀ {s'' : S} {a : A}, seq s' c = .ok (s'', a) → replay seq s (cs ++ [c]) = .ok (s'', as ++ [a]) := by
  intro cs
  induction cs with
  | nil =>
    intro s s' as h s'' a h'
    simp only [replay, Except.ok.injEq, Prod.mk.injEq] at h
    obtain ⟨rfl, rfl⟩ := h
    simp only [List.nil_append, replay, h', R.ok_bind]
  | cons c0 cs ih =>
    intro s s' as h s'' a h'
    simp only [replay, R.bind_eq_ok] at h
    obtain ⟨⟨s1, a1⟩, e1, ⟨s2, as2⟩, e2, e3⟩ := h
    simp only [Except.ok.injEq, Prod.mk.injEq] at e3
    obtain ⟨rfl, rfl⟩ := e3
    simp only [List.cons_append, replay, e1, R.ok_bind, ih s1 e2 h']

/-- What a phase says about the events of its thread. -/
def open' : Phase C L A → Option (C × Option A)
  | .idle => none
  | .entering c => some (c, none)
  | .body c _ => some (c, none)
  | .leaving c a => some (c, some a)
  | .bare c _ => some (c, none)

/-- What a phase says about the lock. -/
def LockOk (th : Spin.Thread) (isHolder : Prop) : Phase C L A → Prop
  | .idle => th.pc = .idle ∧ ¬ isHolder
  | .entering _ => (th.pc = .lockX true ∨ th.pc = .lockWait true) ∧ ¬ isHolder
  | .body _ _ => th.pc = .idle ∧ th.guard = true ∧ isHolder
  | .leaving _ _ => th.pc = .idle ∧ th.guard = true ∧ isHolder
  | .bare _ _ => False

/-- What holds in every reachable state; `s` is the state after the calls that took effect, `P` any property of their sequence. -/
structure Inv (o : Obj S C L A) (seq : S → C → R (S × A)) (P : List C → Prop) (d : S) (w : World S C L A) (h : Option Nat) (s : S) : Prop where
  spin : Spin.Inv w.spin h
  lock : ∀ t, LockOk (w.spin.threads t) (h = some t) (w.phase t)
  track : ∀ t, Track t w.events (open' (w.phase t))
  legal : replay seq d ((effects w.events).map Prod.fst) = .ok (s, (effects w.events).map Prod.snd)
  prop : P ((effects w.events).map Prod.fst)
  body : ∀ t c l, w.phase t = .body c l → Runs o l w.spin.data (seq s c)
  rest : (∀ t c l, w.phase t ≠ .body c l) → w.spin.data = s

theorem Inv.init (o : Obj S C L A) (seq : S → C → R (S × A)) (P : List C → Prop) (h0 : P []) (d : S) : Inv o seq P d (init d) none d where
  spin := Spin.init_inv d
  lock := fun t => ⟨rfl, by simp⟩
  track := fun t => .nil
  legal := rfl
  prop := h0
  body := fun t c l h => by simp [Synced.init] at h
  rest := fun _ => rfl

section
variable {o : Obj S C L A} {seq : S → C → R (S × A)} {P : List C → Prop} {d : S} {w : World S C L A} {h : Option Nat} {s : S}

theorem Inv.holder (I : Inv o seq P d w h s) (t : Nat) {c : C} {l : L} (e : w.phase t = .body c l) : h = some t := by
  have := I.lock t
  rw [e] at this
  exact this.2.2

/-- Only the holder is in a body. -/
theorem Inv.rest_of (I : Inv o seq P d w h s) (hh : ∀ t, h = some t → ∀ c l, w.phase t ≠ .body c l) : w.spin.data = s :=
  I.rest fun t c l e => hh t (I.holder t e) c l e

theorem goto_thread (sp : Spin.State S) (t t' : Nat) (pc : Spin.Pc) :
    ((sp.goto t pc).threads t').guard = (sp.threads t').guard ∧ ((sp.goto t pc).threads t').pc = if t' = t then pc else (sp.threads t').pc := by
  unfold Spin.State.goto
  by_cases e : t' = t
  · subst e; simp [upd]
  · simp [upd, e]

theorem LockOk.other {th th' : Spin.Thread} {p q : Prop} {ph : Phase C L A} (h : LockOk th p ph) (h1 : th'.pc = th.pc) (h2 : th'.guard = th.guard)
    (h3 : p ↔ q) : LockOk th' q ph := by
  cases ph <;> simp only [LockOk, h1, h2, ← h3] at * <;> exact h

theorem begin_ok (I : Inv o seq P d w h s) (hi : Implements o seq) (t : Nat) (c : C) (hph : w.phase t = .idle)
    (hk : o.kind c ≠ .bare) (hP : ∀ a, o.kind c = .nothing a → P ((effects w.events).map Prod.fst) → P ((effects w.events).map Prod.fst ++ [c])) :
    ∃ w' h' s', begin' o w t c = .ok w' ∧ Inv o seq P d w' h' s' := by
  have hl := I.lock t
  rw [hph] at hl
  have htr := I.track t
  rw [hph] at htr
  unfold begin'
  cases hkc : o.kind c with
  | bare => exact absurd hkc hk
  | guarded =>
    simp only [Spin.step, if_pos hl.1, R.ok_bind]
    refine ⟨_, h, s, rfl, I.spin.goto t _, fun t' => ?_, fun t' => ?_, ?_, ?_, fun t' c' l' e => ?_, fun hr => ?_⟩
    · by_cases e : t' = t
      · subst e
        simp only [upd_same, LockOk]
        refine ⟨Or.inl ?_, hl.2⟩
        rw [(goto_thread _ _ _ _).2, if_pos rfl]
      · simp only [upd_ne _ _ e]
        exact (I.lock t').other (by rw [(goto_thread _ _ _ _).2, if_neg e]) (goto_thread _ _ _ _).1 Iff.rfl
    · by_cases e : t' = t
      · subst e
        simp only [upd_same]
        exact .inv htr
      · simp only [upd_ne _ _ e]
        exact .other (fun h => e h.symm) (I.track t')
    · simp only [effects_cons, List.append_nil]; exact I.legal
    · simp only [effects_cons, List.append_nil]; exact I.prop
    · by_cases e' : t' = t
      · subst e'; simp [upd_same] at e
      · simp only [upd_ne _ _ e'] at e; exact I.body t' c' l' e
    · refine I.rest fun t' c' l' e => ?_
      by_cases e' : t' = t
      · subst e'; rw [hph] at e; cases e
      · exact hr t' c' l' (by simpa only [upd_ne _ _ e'] using e)
  | nothing a =>
    have hs := hi.nothing c a hkc s
    refine ⟨_, h, s, rfl, I.spin, I.lock, fun t' => ?_, ?_, ?_, I.body, I.rest⟩
    · by_cases e : t' = t
      · subst e
        simp only [hph]
        exact .ret (.lin (.inv htr))
      · exact .other (fun h => e h.symm) (.other (fun h => e h.symm) (.other (fun h => e h.symm) (I.track t')))
    · simp only [effects_cons, List.append_nil, List.map_append, List.map_cons, List.map_nil]
      exact replay_snoc seq c _ _ I.legal hs
    · simp only [effects_cons, List.append_nil, List.map_append, List.map_cons, List.map_nil]
      exact hP a hkc I.prop

/-- A step of the lock that is not about the thread's own guard. -/
theorem Inv.spinStep (I : Inv o seq P d w h s) {sp : Spin.State S} (hd : sp.data = w.spin.data) (hI : Spin.Inv sp h)
    (hth : ∀ t, LockOk (sp.threads t) (h = some t) (w.phase t)) : Inv o seq P d { w with spin := sp } h s :=
  ⟨hI, hth, I.track, I.legal, I.prop, fun t c l e => by rw [hd]; exact I.body t c l e, fun hr => by rw [hd]; exact I.rest hr⟩

theorem exchange_thread (sp : Spin.State S) (t t' : Nat) (pc : Spin.Pc) (hd gd : Bool) :
    (sp.exchange t pc hd gd).threads t' = if t' = t then { pc := pc, known := max (sp.threads t).known sp.newest.view, held := hd, guard := gd } else
      sp.threads t' := by
  unfold Spin.State.exchange
  by_cases e : t' = t
  · subst e; simp [upd]
  · simp [upd, e]

theorem enter_ok (I : Inv o seq P d w h s) (hi : Implements o seq) (t k : Nat) (c : C) (hph : w.phase t = .entering c) :
    ∃ w' h' s', enter o w t k c = .ok w' ∧ Inv o seq P d w' h' s' := by
  have hl := I.lock t
  rw [hph] at hl
  have hng : (w.spin.threads t).guard = false := by
    cases hg : (w.spin.threads t).guard with
    | false => rfl
    | true => exact absurd ((I.spin.held t).1 (I.spin.guards t hg)) hl.2
  unfold enter
  simp only [Spin.step]
  rcases hl.1 with hpc | hpc
  · rw [hpc]
    simp only [Spin.advance, Spin.lockX, R.ok_bind]
    by_cases hlk : w.spin.newest.locked = false
    · rw [if_pos hlk]
      obtain ⟨hn, hI⟩ := I.spin.take t (true || (w.spin.threads t).guard) hlk
      have hguard : (((w.spin.exchange t .idle true (true || (w.spin.threads t).guard)).threads t).guard) = true := by
        rw [exchange_thread, if_pos rfl]; rfl
      have hrest : w.spin.data = s := I.rest_of fun t' e => by rw [hn] at e; cases e
      simp only [hguard, if_true]
      refine ⟨_, some t, s, rfl, hI, fun t' => ?_, fun t' => ?_, I.legal, I.prop, fun t' c' l' e => ?_, fun hr => ?_⟩
      · by_cases e : t' = t
        · subst e
          simp only [upd_same, LockOk]
          refine ⟨?_, hguard, trivial⟩
          show ((w.spin.exchange t' _ _ _).threads t').pc = _
          rw [exchange_thread, if_pos rfl]
        · simp only [upd_ne _ _ e]
          refine (I.lock t').other ?_ ?_ ?_
          · show ((w.spin.exchange t _ _ _).threads t').pc = _
            rw [exchange_thread, if_neg e]
          · show ((w.spin.exchange t _ _ _).threads t').guard = _
            rw [exchange_thread, if_neg e]
          · rw [hn]
            constructor
            · intro h; cases h
            · intro h; cases h; exact absurd rfl e
      · by_cases e : t' = t
        · subst e
          simp only [upd_same]
          have := I.track t'
          rw [hph] at this
          exact this
        · simp only [upd_ne _ _ e]; exact I.track t'
      · by_cases e' : t' = t
        · subst e'
          simp only [upd_same, Phase.body.injEq] at e
          obtain ⟨rfl, rfl⟩ := e
          show Runs o _ w.spin.data _
          rw [hrest]
          exact hi.calls _ _
        · simp only [upd_ne _ _ e'] at e
          have := I.holder t' e
          rw [hn] at this
          cases this
      · exact absurd (upd_same _ _ _) (hr t c (o.start c))
    · rw [if_neg hlk]
      have hg : ((w.spin.exchange t (.lockWait true) (w.spin.threads t).held (w.spin.threads t).guard).threads t).guard = false := by
        rw [exchange_thread, if_pos rfl]; exact hng
      simp only [hg, Bool.false_eq_true, if_false]
      refine ⟨_, h, s, rfl, I.spinStep rfl (I.spin.busy t _ (by simpa using hlk)) fun t' => ?_⟩
      by_cases e : t' = t
      · subst e
        rw [hph]
        refine ⟨Or.inr ?_, hl.2⟩
        rw [exchange_thread, if_pos rfl]
      · exact (I.lock t').other (by rw [exchange_thread, if_neg e]) (by rw [exchange_thread, if_neg e]) Iff.rfl
  · rw [hpc]
    simp only [Spin.advance, Spin.lockWait, R.ok_bind]
    have hstay : ∃ w' h' s', (Except.ok { w with spin := w.spin, phase := if (w.spin.threads t).guard then upd w.phase t (.body c (o.start c)) else w.phase } :
        R (World S C L A)) = .ok w' ∧ Inv o seq P d w' h' s' := by
      simp only [hng, Bool.false_eq_true, if_false]
      exact ⟨_, h, s, rfl, I⟩
    split
    · split
      · exact hstay
      · simp only [(goto_thread _ _ _ _).1, hng, Bool.false_eq_true, if_false]
        refine ⟨_, h, s, rfl, I.spinStep rfl (I.spin.goto t _) fun t' => ?_⟩
        by_cases e : t' = t
        · subst e
          rw [hph]
          refine ⟨Or.inl ?_, hl.2⟩
          rw [(goto_thread _ _ _ _).2, if_pos rfl]
        · exact (I.lock t').other (by rw [(goto_thread _ _ _ _).2, if_neg e]) (goto_thread _ _ _ _).1 Iff.rfl
    · exact hstay

/-- The lock does not look at the data. -/
theorem spinInv_data {sp : Spin.State S} (I : Spin.Inv sp h) (x : S) : Spin.Inv { sp with data := x } h :=
  ⟨I.hist, I.held, I.locked, I.guards, I.free, I.knows, I.known, I.view, I.counts⟩

theorem use_thread {sp sp' : Spin.State S} {t : Nat} (h : Spin.access sp t id = .ok sp') (t' : Nat) :
    (sp'.threads t').pc = (sp.threads t').pc ∧ (sp'.threads t').guard = (sp.threads t').guard ∧ sp'.data = sp.data := by
  unfold Spin.access at h
  split at h
  · cases h
    refine ⟨?_, ?_, rfl⟩
    · show Spin.Thread.pc (upd _ _ _ _) = _
      by_cases e : t' = t
      · subst e; rw [upd_same]
      · rw [upd_ne _ _ e]
    · show Spin.Thread.guard (upd _ _ _ _) = _
      by_cases e : t' = t
      · subst e; rw [upd_same]
      · rw [upd_ne _ _ e]
  · cases h

/-- The next access by the holder: no race; either the call goes on or takes effect, or it fails as it does alone. -/
theorem work_ok (I : Inv o seq P d w h s) (t : Nat) (c : C) (l : L) (hph : w.phase t = .body c l)
    (hP : P ((effects w.events).map Prod.fst ++ [c])) :
    (∃ w' h' s', work o w t c l = .ok w' ∧ Inv o seq P d w' h' s') ∨ (∃ f, work o w t c l = .error f ∧ seq s c = .error f) := by
  have hl := I.lock t
  rw [hph] at hl
  have hh := hl.2.2
  subst hh
  obtain ⟨sp, e, hI⟩ := I.spin.use id
  have hth := use_thread e
  have hrun := I.body t c l hph
  have hd : sp.data = w.spin.data := (hth t).2.2
  have hothers : ∀ t', t' ≠ t → ∀ c' l', w.phase t' ≠ .body c' l' := by
    intro t' ht c' l' e'
    have := I.holder t' e'
    cases this
    exact ht rfl
  have hlock : ∀ (x : S) (ph : Phase C L A), (∀ q, LockOk (w.spin.threads t) q (.body c l : Phase C L A) → LockOk (w.spin.threads t) q ph) →
      ∀ t', LockOk (({ sp with data := x } : Spin.State S).threads t') (some t = some t') (upd w.phase t ph t') := by
    intro x ph hq t'
    by_cases e' : t' = t
    · subst e'
      rw [upd_same]
      exact (hq _ hl).other (hth t').1 (hth t').2.1 Iff.rfl
    · rw [upd_ne _ _ e']
      exact (I.lock t').other (hth t').1 (hth t').2.1 Iff.rfl
  unfold work access
  simp only [Spin.step, if_pos hl.1, e, R.ok_bind, hd]
  generalize hsq : seq s c = r at hrun
  cases hrun with
  | fault hm => right; exact ⟨_, by simp only [hm, R.error_bind], rfl⟩
  | done hm =>
    rename_i s' a
    left
    simp only [hm, R.ok_bind]
    refine ⟨_, some t, s', rfl, spinInv_data hI s', hlock s' _ (fun q h => h), fun t' => ?_, ?_, ?_, fun t' c' l' e' => ?_, fun _ => rfl⟩
    · by_cases e' : t' = t
      · subst e'
        simp only [upd_same]
        have := I.track t'
        rw [hph] at this
        exact .lin this
      · simp only [upd_ne _ _ e']
        exact .other (fun h => e' h.symm) (I.track t')
    · simp only [effects_cons, List.map_append, List.map_cons, List.map_nil]
      exact replay_snoc seq c _ _ I.legal hsq
    · simp only [effects_cons, List.map_append, List.map_cons, List.map_nil]
      exact hP
    · by_cases e2 : t' = t
      · subst e2; simp [upd_same] at e'
      · simp only [upd_ne _ _ e2] at e'
        exact absurd e' (hothers t' e2 c' l')
  | more hm hr =>
    rename_i s' l'
    left
    simp only [hm, R.ok_bind]
    refine ⟨_, some t, s, rfl, spinInv_data hI s', hlock s' _ (fun q h => h), fun t' => ?_, I.legal, I.prop, fun t' c' l2 e' => ?_, fun hr => ?_⟩
    · by_cases e' : t' = t
      · subst e'
        simp only [upd_same]
        have := I.track t'
        rw [hph] at this
        exact this
      · simp only [upd_ne _ _ e']; exact I.track t'
    · by_cases e2 : t' = t
      · subst e2
        simp only [upd_same, Phase.body.injEq] at e'
        obtain ⟨rfl, rfl⟩ := e'
        rw [hsq]; exact hr
      · simp only [upd_ne _ _ e2] at e'
        exact absurd e' (hothers t' e2 c' l2)
    · exact absurd (upd_same _ _ _) (hr t c l')

theorem leave_ok (I : Inv o seq P d w h s) (t : Nat) (c : C) (a : A) (hph : w.phase t = .leaving c a) :
    ∃ w' h' s', leave w t c a = .ok w' ∧ Inv o seq P d w' h' s' := by
  have hl := I.lock t
  rw [hph] at hl
  have hh := hl.2.2
  subst hh
  have hrest : w.spin.data = s := I.rest_of fun t' e c' l' e' => by cases e; rw [hph] at e'; cases e'
  unfold leave
  simp only [Spin.step, if_pos (And.intro hl.1 hl.2.1), R.ok_bind]
  refine ⟨_, none, s, rfl, I.spin.release false rfl, fun t' => ?_, fun t' => ?_, ?_, ?_, fun t' c' l' e' => ?_, fun _ => hrest⟩
  · by_cases e : t' = t
    · subst e
      simp only [upd_same]
      refine ⟨?_, by simp⟩
      show Spin.Thread.pc (upd _ _ _ _) = _
      rw [upd_same]
    · simp only [upd_ne _ _ e]
      refine (I.lock t').other ?_ ?_ ?_
      · show Spin.Thread.pc (upd _ _ _ _) = _
        rw [upd_ne _ _ e]
      · show Spin.Thread.guard (upd _ _ _ _) = _
        rw [upd_ne _ _ e]
      · constructor
        · intro h; cases h; exact absurd rfl e
        · intro h; cases h
  · by_cases e : t' = t
    · subst e
      simp only [upd_same]
      have := I.track t'
      rw [hph] at this
      exact .ret this
    · simp only [upd_ne _ _ e]
      exact .other (fun h => e h.symm) (I.track t')
  · simp only [effects_cons, List.append_nil]; exact I.legal
  · simp only [effects_cons, List.append_nil]; exact I.prop
  · by_cases e2 : t' = t
    · subst e2; simp [upd_same] at e'
    · simp only [upd_ne _ _ e2] at e'
      have := I.holder t' e'
      cases this
      exact absurd rfl e2

end
end Verif.Synced
