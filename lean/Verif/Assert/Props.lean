import Verif.Assert.Spec

/-! Property theorems for assertions: C95. -/
namespace Verif.Assert
open Spec

theorem handlerOf_snoc_set (t u : Nat) (h : Option Nat) (past : List Event) : handlerOf t (past ++ [.set u h]) = if t = u then h else handlerOf t past := by
  unfold handlerOf
  rw [List.filterMap_append]
  by_cases e : t = u
  · subst e
    simp
  · simp [e, Ne.symm e]

theorem handlerOf_snoc_exec (t u : Nat) (m : Macro) (c : Bool) (i : Info) (past : List Event) : handlerOf t (past ++ [.exec u m c i]) = handlerOf t past := by
  unfold handlerOf
  rw [List.filterMap_append]
  simp

theorem expand_checks (f : Flags) (m : Macro) : (expand f m = .check ↔ checks f m = true) ∧ (expand f m = .promise ↔ m = .unreachable ∧ f.assertions = false) := by
  obtain ⟨a, b, n, c⟩ := f
  cases m <;> cases a <;> cases b <;> cases n <;> cases c <;> decide

theorem run_ended (f : Flags) (w : World) (s : State) (hs : s.running = false) (es : List Event) : run f w s es = .ok ([], s) := by
  induction es with
  | nil => rfl
  | cons e es ih =>
    unfold run step
    rw [if_neg (by rw [hs]; decide), R.ok_bind]
    dsimp only
    rw [ih]
    rfl

theorem run_cons (f : Flags) (w : World) (s : State) (e : Event) (es : List Event) : run f w s (e :: es) = (do
    let (o, s) ← step f w s e
    let (os, s) ← run f w s es
    .ok (o ++ os, s)) := rfl

theorem failed_none {w : World} {s : State} {t : Nat} {i : Info} (hw : w.trapEnds = false) (h : s.handlers t = none) :
    failed w s t i = ([.printed t i, .trapped, .aborted], { s with running := false }) := by
  simp [failed, breakAndAbort, h, hw]

theorem failed_returns {w : World} {s : State} {t k : Nat} {i : Info} (hw : w.trapEnds = false) (h : s.handlers t = some k) (hb : w.handler k = .returns) :
    failed w s t i = ([.called t k i, .trapped, .aborted], { s with running := false }) := by
  simp [failed, breakAndAbort, h, hw, hb]

theorem failed_throws {w : World} {s : State} {t k : Nat} {i : Info} (h : s.handlers t = some k) (hb : w.handler k = .throws) :
    failed w s t i = ([.called t k i, .threw t], s) := by
  simp [failed, h, hb]

/-- What the model shows of a history, when SIGTRAP does not end the process. -/
theorem run_observe (f : Flags) (w : World) (hw : w.trapEnds = false) : ∀ (es : List Event) (past : List Event) (s : State), NoPromise f es → s.running = true →
    (∀ t, s.handlers t = handlerOf t past) → ∃ os s', run f w s es = .ok (os, s') ∧ withoutTrap os = observe f w past es := by
  intro es
  induction es with
  | nil => intro past s _ _ _; exact ⟨[], s, rfl, rfl⟩
  | cons e es ih =>
    intro past s hp hr hh
    have hp' : NoPromise f es := by
      rcases hp with h | h
      · exact .inl h
      · exact .inr fun t c i hm => h t c i (List.mem_cons_of_mem _ hm)
    rw [run_cons]
    unfold step
    rw [if_pos hr]
    cases e with
    | set t h =>
      obtain ⟨os, s', e1, e2⟩ := ih (past ++ [.set t h]) { s with handlers := fun u => if u = t then h else s.handlers u } hp' hr (fun u => by
        rw [handlerOf_snoc_set]
        show (if u = t then h else s.handlers u) = _
        by_cases e : u = t
        · rw [if_pos e, if_pos e]
        · rw [if_neg e, if_neg e, hh])
      refine ⟨os, s', ?_, e2⟩
      rw [R.ok_bind]
      dsimp only
      rw [e1]
      rfl
    | exec t m c i =>
      dsimp only
      have hstep : ∀ u, s.handlers u = handlerOf u (past ++ [.exec t m c i]) := fun u => by rw [handlerOf_snoc_exec, hh]
      have hx := expand_checks f m
      cases hm : expand f m with
      | promise =>
        obtain ⟨h1, h2⟩ := hx.2.1 hm
        subst h1
        rcases hp with h | h
        · rw [h] at h2; cases h2
        · exact absurd List.mem_cons_self (h t c i)
      | nothing =>
        obtain ⟨os, s', e1, e2⟩ := ih (past ++ [.exec t m c i]) s hp' hr hstep
        have hf : fails f (.exec t m c i) = none := by
          have : checks f m = false := by
            cases hc : checks f m with
            | false => rfl
            | true => rw [hx.1.2 hc] at hm; cases hm
          simp [fails, this]
        refine ⟨os, s', ?_, by rw [e2]; simp only [observe, hf]⟩
        dsimp only
        rw [R.ok_bind]
        dsimp only
        rw [e1]
        rfl
      | check =>
        have hc := hx.1.1 hm
        dsimp only
        by_cases hcond : (c && m != .unreachable) = true
        · obtain ⟨os, s', e1, e2⟩ := ih (past ++ [.exec t m c i]) s hp' hr hstep
          have hf : fails f (.exec t m c i) = none := by
            simp only [Bool.and_eq_true, bne_iff_ne] at hcond
            simp [fails, hcond.1, hcond.2]
          refine ⟨os, s', ?_, by rw [e2]; simp only [observe, hf]⟩
          rw [if_pos hcond, R.ok_bind]
          dsimp only
          rw [e1]
          rfl
        · have hf : fails f (.exec t m c i) = some (t, i) := by
            have : (!c || m == .unreachable) = true := by
              cases c with
              | false => rfl
              | true =>
                simp only [Bool.true_and, bne_iff_ne, ne_eq, Decidable.not_not] at hcond
                simp [hcond]
            simp [fails, hc, this]
          rw [if_neg hcond, R.ok_bind]
          have hobs : observe f w past (.exec t m c i :: es) = (report w past t i).1 ++ if (report w past t i).2 then observe f w (past ++ [.exec t m c i]) es else [] := by
            simp only [observe, hf]
          rw [hobs]
          unfold report
          cases hhd : handlerOf t past with
          | none =>
            rw [failed_none hw (by rw [hh, hhd])]
            dsimp only
            rw [run_ended f w _ rfl]
            exact ⟨_, _, rfl, by simp [withoutTrap]⟩
          | some h =>
            by_cases hb : w.handler h = .throws
            · obtain ⟨os, s', e1, e2⟩ := ih (past ++ [.exec t m c i]) s hp' hr hstep
              rw [failed_throws (by rw [hh, hhd]) hb]
              dsimp only
              rw [e1]
              refine ⟨_, s', rfl, ?_⟩
              unfold withoutTrap at e2 ⊢
              simp [e2, hb]
            · have hb' : w.handler h = .returns := by
                cases hx : w.handler h with
                | throws => exact absurd hx hb
                | returns => rfl
              rw [failed_returns hw (by rw [hh, hhd]) hb']
              dsimp only
              rw [run_ended f w _ rfl]
              exact ⟨_, _, rfl, by simp [withoutTrap, hb']⟩

/-- **C95.** In every history of every number of threads, each active check that fails calls the handler that its own thread has set last, once, with its own information,
and the process is aborted there, unless the handler throws; nothing else can be seen. (If the signal of the breakpoint does not end the process before.) -/
theorem C95_assertions_partial (f : Flags) (w : World) (hw : w.trapEnds = false) (es : List Event) (hp : NoPromise f es) :
    ∃ os s, run f w init es = .ok (os, s) ∧ withoutTrap os = observe f w [] es :=
  run_observe f w hw es [] init hp rfl fun _ => rfl

theorem failed_ends (w : World) (hw : w.trapEnds = true) (s : State) (hs : s.running = true) (t : Nat) (i : Info) :
    Obs.aborted ∉ (failed w s t i).1 ∧ ((failed w s t i).2.running = true → (failed w s t i).2 = s ∧ Obs.trapped ∉ (failed w s t i).1) := by
  unfold failed breakAndAbort
  cases s.handlers t with
  | none => simp [hw]
  | some h => cases hb : w.handler h <;> simp [hw, hb]

/-- **C95** fails in part: when SIGTRAP has its default action, the process never comes to `std::abort`. -/
theorem C95_never_aborts (f : Flags) (w : World) (hw : w.trapEnds = true) (es : List Event) : ∀ (s : State) (os : List Obs) (s' : State),
    run f w s es = .ok (os, s') → Obs.aborted ∉ os := by
  induction es with
  | nil => intro s os s' h; cases h; simp
  | cons e es ih =>
    intro s os s' h
    rw [run_cons] at h
    obtain ⟨⟨o, s1⟩, h1, h2⟩ := R.bind_eq_ok.1 h
    obtain ⟨⟨os2, s2⟩, h3, h4⟩ := R.bind_eq_ok.1 h2
    cases h4
    rw [List.mem_append]
    rintro (hm | hm)
    · unfold step at h1
      by_cases hr : s.running = true
      · rw [if_pos hr] at h1
        cases e with
        | set t h => cases h1; cases hm
        | exec t m c i =>
          cases hx : expand f m with
          | nothing => simp only [hx] at h1; cases h1; cases hm
          | promise => simp only [hx] at h1; cases h1
          | check =>
            simp only [hx] at h1
            by_cases hc : (c && m != .unreachable) = true
            · rw [if_pos hc] at h1; cases h1; cases hm
            · rw [if_neg hc] at h1
              have := (failed_ends w hw s hr t i).1
              injection h1 with h1
              rw [h1] at this
              exact this hm
      · rw [if_neg hr] at h1; cases h1; cases hm
    · exact ih _ _ _ h3 hm

/-- In either case: a process in which a check has failed goes on only if the handler of the thread throws. -/
theorem C95_stops (f : Flags) (w : World) (s : State) (t : Nat) (m : Macro) (c : Bool) (i : Info) (hc : checks f m = true) (hf : c = false ∨ m = .unreachable)
    (hr : s.running = true) : ∃ os s', step f w s (.exec t m c i) = .ok (os, s') ∧
      (s'.running = true ↔ ∃ h, s.handlers t = some h ∧ w.handler h = .throws) ∧
      (os.head? = match s.handlers t with
        | none => some (.printed t i)
        | some h => some (.called t h i)) := by
  have hx := (expand_checks f m).1.2 hc
  have hn : ¬ (c && m != .unreachable) = true := by
    rcases hf with rfl | rfl <;> simp
  refine ⟨(failed w s t i).1, (failed w s t i).2, ?_, ?_, ?_⟩
  · unfold step
    rw [if_pos hr]
    simp only [hx, if_neg hn]
  · unfold failed breakAndAbort
    cases s.handlers t with
    | none => cases w.trapEnds <;> simp
    | some h => cases hb : w.handler h <;> cases w.trapEnds <;> simp [hb, hr]
  · unfold failed breakAndAbort
    cases s.handlers t with
    | none => cases w.trapEnds <;> simp
    | some h => cases hb : w.handler h <;> cases w.trapEnds <;> simp [hb]

/-- The flags for bounds, null pointers and contracts do nothing without the one for assertions. -/
theorem C95_flags (f : Flags) (h : f.assertions = false) (m : Macro) (w : World) (s : State) (hr : s.running = true) (t : Nat) (c : Bool) (i : Info) :
    (m ≠ .runtimeAssert → m ≠ .unreachable → step f w s (.exec t m c i) = .ok ([], s)) ∧ step f w s (.exec t .unreachable c i) = .error .ub := by
  constructor
  · intro h1 h2
    have : expand f m = .nothing := by
      obtain ⟨a, b, n, k⟩ := f
      cases h
      cases m <;> cases b <;> cases n <;> cases k <;> first | rfl | exact absurd rfl h1 | exact absurd rfl h2
    simp only [step, hr, if_true, this]
  · simp [step, hr, expand, h]

/-! ### Cases -/

def on : Flags := ⟨true, true, true, true⟩
/-- Handler 1 throws, the others return. -/
def world (trapEnds : Bool) : World := { handler := fun h => if h = 1 then .throws else .returns, trapEnds := trapEnds }
def i1 : Info := ⟨10, none, 1⟩
def i2 : Info := ⟨20, some 5, 2⟩

def history : List Event :=
  [.set 0 (some 1), .exec 0 .assert true i1, .exec 0 .inBounds false i1, .set 1 (some 2), .exec 0 .contract false i2, .set 0 none, .exec 1 .notNull false i1,
   .exec 0 .assert false i2]

example : NoPromise on history ∧ (run on (world false) init history).toOption.map (·.1) =
    some [.called 0 1 i1, .threw 0, .called 0 1 i2, .threw 0, .called 1 2 i1, .trapped, .aborted] := ⟨.inl rfl, by decide⟩
example : observe on (world false) [] history = [.called 0 1 i1, .threw 0, .called 0 1 i2, .threw 0, .called 1 2 i1, .aborted] := by decide
example : (run on (world true) init history).toOption.map (·.1) = some [.called 0 1 i1, .threw 0, .called 0 1 i2, .threw 0, .called 1 2 i1, .trapped] := by decide
example : (run on (world false) init [.set 3 (some 1), .exec 0 .runtimeAssert false i2]).toOption.map (·.1) = some [.printed 0 i2, .trapped, .aborted] := by decide
example : checks on .contract = true ∧ checks ⟨false, true, true, true⟩ .inBounds = false := by decide

end Verif.Assert
