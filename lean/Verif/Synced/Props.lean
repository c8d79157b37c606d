import Verif.Synced.Run

/-! Property theorems for the synchronized allocators: C90, for any backing object. -/
namespace Verif.Synced
open Spec
open Spin (upd upd_same upd_ne)

variable {S C L A : Type}

/-- **C90.** Any number of threads, any backing object, any way in which its calls are made of accesses to its state, and every schedule of
guarded calls: there is no data race, and the calls are linearizable. That is: every thread sees begin, effect and return in this
order, with one answer; the answers are those of the calls made one after the other in the order of the effects; and when no call is
running, the state is the one after these calls. -/
theorem C90_linearizable (o : Obj S C L A) (seq : S → C → R (S × A)) (hi : Implements o seq) (d : S) (sched : List (Nat × Act C))
    (hb : NoBare o sched) (w : World S C L A) (hw : run o (init d) sched = .ok w) :
    (∀ t, ∃ x, Track t w.events x) ∧ (∀ t, w.phase t = .idle → Track t w.events none) ∧
    ∃ s, replay seq d ((effects w.events).map Prod.fst) = .ok (s, (effects w.events).map Prod.snd) ∧
      ((∀ t, w.phase t = .idle) → w.spin.data = s) := by
  rcases run_ok (P := fun _ => True) hi (fun _ _ _ _ _ => trivial) sched (Inv.init o seq _ trivial d) hb (fun _ _ _ _ _ _ _ _ _ _ => trivial) with
    ⟨w', h, s, e, I⟩ | ⟨f, _, _, _, _, _, _, _, _, _, _, _, _, _, e⟩
  · rw [hw] at e
    cases e
    refine ⟨fun t => ⟨_, I.track t⟩, fun t ht => ?_, s, I.legal, fun hidle => I.rest fun t c l e => ?_⟩
    · have := I.track t
      rw [ht] at this
      exact this
    · rw [hidle t] at e; cases e
  · rw [hw] at e; cases e

/-- **C90**: a run fails only where the backing object would fail alone: some thread, which has the lock, makes a call that fails in the state
after the calls that took effect before. -/
theorem C90_faults (o : Obj S C L A) (seq : S → C → R (S × A)) (hi : Implements o seq) (d : S) (sched : List (Nat × Act C)) (hb : NoBare o sched)
    (f : Fault) (hw : run o (init d) sched = .error f) :
    ∃ pre post w t c l s, sched = pre ++ post ∧ run o (init d) pre = .ok w ∧ w.phase t = .body c l ∧
      replay seq d ((effects w.events).map Prod.fst) = .ok (s, (effects w.events).map Prod.snd) ∧ seq s c = .error f := by
  rcases run_ok (P := fun _ => True) hi (fun _ _ _ _ _ => trivial) sched (Inv.init o seq _ trivial d) hb (fun _ _ _ _ _ _ _ _ _ _ => trivial) with
    ⟨w', h, s, e, I⟩ | ⟨f', pre, post, w, h, s, t, c, l, e1, e2, I, e3, e4, e5⟩
  · rw [hw] at e; cases e
  · rw [hw] at e5
    cases e5
    exact ⟨pre, post, w, t, c, l, s, e1, e2, e3, I.legal, e4⟩

theorem replay_snoc_inv (seq : S → C → R (S × A)) (c : C) : ∀ (cs : List C) (s : S) {s'' : S} {as : List A}, replay seq s (cs ++ [c]) = .ok (s'', as) →
    ∃ s' as' a, replay seq s cs = .ok (s', as') ∧ seq s' c = .ok (s'', a) := by
  intro cs
  induction cs with
  | nil =>
    intro s s'' as h
    simp only [List.nil_append, replay, R.bind_eq_ok] at h
    obtain ⟨⟨s1, a1⟩, e1, ⟨s2, a2⟩, e2, e3⟩ := h
    cases e2
    cases e3
    exact ⟨s, [], a1, rfl, e1⟩
  | cons c' cs ih =>
    intro s s'' as h
    simp only [List.cons_append, replay, R.bind_eq_ok] at h
    obtain ⟨⟨s1, a1⟩, e1, ⟨s2, a2⟩, e2, e3⟩ := h
    cases e3
    obtain ⟨s', as', a, e4, e5⟩ := ih s1 e2
    refine ⟨s', a1 :: as', a, ?_, e5⟩
    simp only [replay, e1, R.ok_bind, e4]

/-- **C90**, rules of use. `Ok s c` says when `c` may be called, and `J` is what calls by the rules keep, or they fail an assertion. If every call of
the schedule keeps the rules at the moment it runs, then the schedule fails an assertion, or `J` holds of the state after the calls. -/
theorem C90_invariant (o : Obj S C L A) (seq : S → C → R (S × A)) (hi : Implements o seq) (d : S) (J : S → Prop) (Ok : S → C → Prop) (h0 : J d)
    (hJ : ∀ s c, J s → Ok s c → (∃ s' a, seq s c = .ok (s', a) ∧ J s') ∨ seq s c = .error .assert) (sched : List (Nat × Act C)) (hb : NoBare o sched)
    (hOk : ∀ pre post w t c l s as, sched = pre ++ post → run o (init d) pre = .ok w → w.phase t = .body c l →
      replay seq d ((effects w.events).map Prod.fst) = .ok (s, as) → Ok s c) :
    run o (init d) sched = .error .assert ∨
    ∃ w s, run o (init d) sched = .ok w ∧ replay seq d ((effects w.events).map Prod.fst) = .ok (s, (effects w.events).map Prod.snd) ∧ J s ∧
      ((∀ t, w.phase t = .idle) → w.spin.data = s) := by
  rcases run_ok (P := fun cs => ∀ s as, replay seq d cs = .ok (s, as) → J s) hi
      (fun c x hx cs hcs s as hr => by
        obtain ⟨s', as', a, e1, e2⟩ := replay_snoc_inv seq c cs d hr
        rw [hi.nothing c x hx s'] at e2
        cases e2
        exact hcs _ _ e1)
      sched (Inv.init o seq _ (fun s as h => by cases h; exact h0) d) hb
      (fun pre post w t c l e er hph hcs s as hr => by
        obtain ⟨s', as', a, e1, e2⟩ := replay_snoc_inv seq c _ d hr
        rcases hJ s' c (hcs _ _ e1) (hOk pre post w t c l s' as' e er hph e1) with ⟨s'', a'', e3, hj⟩ | e3
        · rw [e2] at e3
          cases e3
          exact hj
        · rw [e2] at e3; cases e3) with
    ⟨w, h, s, e, I⟩ | ⟨f, pre, post, w, h, s, t, c, l, e1, e2, I, e3, e4, e5⟩
  · refine Or.inr ⟨w, s, e, I.legal, I.prop _ _ I.legal, fun hidle => I.rest fun t c l e => ?_⟩
    rw [hidle t] at e; cases e
  · left
    rcases hJ s c (I.prop _ _ I.legal) (hOk pre post w t c l s _ e1 e2 e3 I.legal) with ⟨_, _, e6, _⟩ | e6
    · rw [e4] at e6; cases e6
    · rw [e4] at e6; cases e6
      exact e5

/-- **C90**: no deadlock. In every reachable state every thread's call can be completed by letting the threads run on (no new calls), unless the
backing object fails. -/
theorem C90_no_deadlock (o : Obj S C L A) (seq : S → C → R (S × A)) (hi : Implements o seq) (d : S) (sched : List (Nat × Act C)) (hb : NoBare o sched)
    (w : World S C L A) (hw : run o (init d) sched = .ok w) (t : Nat) :
    ∃ more, (∀ p ∈ more, p.2 = Act.go 0) ∧
      ((∃ w', run o w more = .ok w' ∧ w'.phase t = .idle) ∨ ∃ f s c, run o w more = .error f ∧ seq s c = .error f) := by
  rcases run_ok (P := fun _ => True) hi (fun _ _ _ _ _ => trivial) sched (Inv.init o seq _ trivial d) hb (fun _ _ _ _ _ _ _ _ _ _ => trivial) with
    ⟨w', h, s, e, I⟩ | ⟨f, _, _, _, _, _, _, _, _, _, _, _, _, _, e⟩
  · rw [hw] at e
    cases e
    exact can_finish hi I t
  · rw [hw] at e; cases e

/-- **C90**, what is not protected: a call that the wrapper makes without the lock (`initialize`, or anything through `get_backing()`) in one thread
and a guarded call in another one are a data race, even if the first one is over: whatever the object, this schedule is undefined. -/
theorem C90_unguarded_races (o : Obj S C L A) (d : S) (c c' : C) (hc : o.kind c = .bare) (hc' : o.kind c' = .guarded) (d' : S) (x : L ⊕ A)
    (hm : o.micro (o.start c) d = .ok (d', x)) :
    run o (init d) [(0, .call c), (0, .go 0), (1, .call c'), (1, .go 0), (1, .go 0)] = .error .ub := by
  cases x <;>
  simp [run, step, init, begin', hc, hc', Spin.init, workBare, access, Spin.step, Spin.access, upd, hm, enter, Spin.State.goto, Spin.advance, Spin.lockX,
    Spin.State.exchange, work]

/-- An object whose calls are one access each. -/
def atomic (kind : C → Kind A) (seq : S → C → R (S × A)) : Obj S C C A where
  kind := kind
  start := id
  micro := fun c s => do
    let (s, a) ← seq s c
    .ok (s, .inr a)

theorem atomic_implements (kind : C → Kind A) (seq : S → C → R (S × A)) (h : ∀ c a, kind c = .nothing a → ∀ s, seq s c = .ok (s, a)) :
    Implements (atomic kind seq) seq := by
  refine ⟨fun c s => ?_, h⟩
  cases e : seq s c with
  | error f => exact .fault (by simp only [atomic, id, e, R.error_bind])
  | ok r => exact .done (by simp only [atomic, id, e, R.ok_bind])

/-! ### A case: two threads increment a counter, which takes two accesses each -/

namespace Example

/-- The calls: increment and return the old value; increment without the lock. -/
def obj : Obj Nat Bool (Option Nat) Nat where
  kind := fun c => if c then .guarded else .bare
  start := fun _ => none
  micro := fun l s => match l with
    | none => .ok (s, .inl (some s))
    | some x => .ok (x + 1, .inr x)

/-- What a call does. -/
def seq (s : Nat) (_ : Bool) : R (Nat × Nat) := .ok (s + 1, s)

theorem implements : Implements obj seq := by
  refine ⟨fun c s => ?_, fun c a h => ?_⟩
  · exact .more (l' := some s) rfl (.done rfl)
  · unfold obj at h
    cases c <;> simp at h

/-- Thread 1 waits while thread 0 is between its two accesses. -/
def sched : List (Nat × Act Bool) :=
  [(0, .call true), (1, .call true), (0, .go 0), (0, .go 0), (1, .go 0), (1, .go 0), (0, .go 0), (0, .go 0), (1, .go 0), (1, .go 0), (1, .go 0), (1, .go 0),
   (1, .go 0)]

theorem noBare : NoBare obj sched := by
  intro t c h
  have hk : ∀ p ∈ sched, ∀ c, p.2 = Act.call c → obj.kind c ≠ .bare := by
    intro p hp c hc
    have : c = true := by
      simp only [sched, List.mem_cons, List.not_mem_nil, or_false] at hp
      rcases hp with rfl | rfl | rfl | rfl | rfl | rfl | rfl | rfl | rfl | rfl | rfl | rfl | rfl <;> cases hc <;> rfl
    subst this
    simp [obj]
  exact hk _ h c rfl

example : (match run obj (init 5) sched with
    | .ok w => some (w.spin.data, effects w.events, w.events.reverse)
    | .error _ => none) =
    some (7, [(true, 5), (true, 6)], [.inv 0 true, .inv 1 true, .lin 0 true 5, .ret 0 true 5, .lin 1 true 6, .ret 1 true 6]) := by decide +kernel

example (w : World Nat Bool (Option Nat) Nat) (hw : run obj (init 5) sched = .ok w) :=
  C90_linearizable obj seq implements 5 sched noBare w hw

example : run obj (init 5) [(0, .call false), (0, .go 0), (1, .call true), (1, .go 0), (1, .go 0)] = .error .ub :=
  C90_unguarded_races obj 5 false true rfl rfl 5 (.inl (some 5)) rfl

end Example
end Verif.Synced
