import Verif.Defer.Spec
/-!
# C107: `CC_DEFER`, `CC_RETURN_DEFER`

The model is `Verif/Defer/Model.lean`, the specification `Verif/Defer/Spec.lean`.
-/
namespace Verif.Defer
open Spec (Proper NoCopy)

/-- A complete trace of the destructors of a list of objects. -/
inductive Unw : List Obj → List Ev → Prop
  | nil : Unw [] []
  | cons {o : Obj} {os : List Obj} {ext u : List Ev} : Proper (o.trace ++ ext) → (o.out ≠ .terminated → ext = []) → Unw os u →
      Unw (o :: os) (.run o.id :: ((o.trace ++ ext) ++ u))

theorem unwind_ok {os : List Obj} {u : List Ev} (h : Unw os u) : ((unwind os).2 = false → (unwind os).1 = u) ∧ ∃ e, (unwind os).1 ++ e = u := by
  induction h with
  | nil => exact ⟨fun _ => rfl, [], rfl⟩
  | @cons o os ext u h1 h2 _ ih =>
    unfold unwind
    split
    · exact ⟨nofun, ext ++ u, by dsimp only; rw [List.cons_append, List.append_assoc]⟩
    · rename_i hn
      have : ext = [] := h2 fun e => hn (Or.inr e)
      subst this
      obtain ⟨i1, e, i2⟩ := ih
      refine ⟨fun h => ?_, e, ?_⟩
      · dsimp only at h ⊢
        rw [i1 h, List.append_nil]
      · dsimp only
        rw [List.append_nil, ← i2]; simp

/-- What is known about the result of a statement: whatever proper things follow, with the destructors of its objects behind them the whole is proper; if the program has
ended, the trace is the beginning of a proper one. -/
def Fin (r : Res) : Prop :=
  if r.out = .terminated then ∃ ext, Proper (r.trace ++ ext)
  else ∃ u, Unw r.objs u ∧ ∀ w, Proper w → Proper (r.trace ++ (w ++ u))

/-- The same without objects. -/
def FinC (r : Res) : Prop :=
  r.objs = [] ∧ if r.out = .terminated then ∃ ext, Proper (r.trace ++ ext) else ∀ w, Proper w → Proper (r.trace ++ w)

theorem FinC.fin {r : Res} (h : FinC r) : Fin r := by
  obtain ⟨h1, h2⟩ := h
  unfold Fin
  split
  · rename_i e; rw [if_pos e] at h2; exact h2
  · rename_i e; rw [if_neg e] at h2
    refine ⟨[], by rw [h1]; exact .nil, fun w hw => ?_⟩
    rw [List.append_nil]; exact h2 w hw

theorem close_fin {r : Res} (h : Fin r) : FinC (close r) := by
  unfold Fin at h
  unfold close
  split
  · rename_i e
    rw [if_pos e] at h
    obtain ⟨ext, h⟩ := h
    refine ⟨rfl, ?_⟩
    rw [if_pos rfl]
    refine ⟨ext ++ [.leave], ?_⟩
    have := Proper.scope h .nil
    simpa using this
  · rename_i e
    rw [if_neg e] at h
    obtain ⟨u, h1, h2⟩ := h
    have h3 := h2 [] .nil
    obtain ⟨g1, x, g2⟩ := unwind_ok h1
    dsimp only
    split
    · refine ⟨rfl, ?_⟩
      rw [if_pos rfl]
      refine ⟨x ++ [.leave], ?_⟩
      rw [← g2] at h3
      have := Proper.scope h3 .nil
      simpa using this
    · rename_i hb
      refine ⟨rfl, ?_⟩
      rw [if_neg e]
      intro w hw
      rw [g1 (by simpa using hb)]
      have := Proper.scope h3 hw
      simpa using this

theorem finish_fin {r : Res} (h : Fin r) : FinC (finish r) := by
  obtain ⟨h1, h2⟩ := close_fin h
  refine ⟨h1, ?_⟩
  unfold finish
  dsimp only
  by_cases e : (close r).out = .terminated
  · rw [if_pos e] at h2
    simp only [e]
    exact h2
  · rw [if_neg e] at h2
    by_cases e' : (close r).out = .thrown
    · simp only [e']; exact h2
    · simp only [e, e', if_false]; exact h2

theorem finC_append {a b : Res} (ha : FinC a) (hb : FinC b) (hn : a.out ≠ .terminated) : FinC ⟨a.trace ++ b.trace, b.out, []⟩ := by
  obtain ⟨_, h2⟩ := ha
  obtain ⟨_, h3⟩ := hb
  rw [if_neg hn] at h2
  refine ⟨rfl, ?_⟩
  dsimp only
  split
  · rename_i e; rw [if_pos e] at h3
    obtain ⟨x, h3⟩ := h3
    exact ⟨x, by rw [List.append_assoc]; exact h2 _ h3⟩
  · rename_i e; rw [if_neg e] at h3
    intro w hw
    rw [List.append_assoc]; exact h2 _ (h3 w hw)

theorem repeated_fin {r : Res} (h : Fin r) (n : Nat) : FinC (repeated r n) := by
  induction n with
  | zero => exact ⟨rfl, by rw [if_neg (nofun)]; exact fun w hw => hw⟩
  | succ n ih =>
    have hc := close_fin h
    unfold repeated
    dsimp only
    split
    · rename_i e
      exact finC_append hc ih (by rcases e with e | e <;> rw [e] <;> decide)
    · split
      · rename_i e
        obtain ⟨_, h2⟩ := hc
        rw [if_neg (by rw [e]; decide)] at h2
        exact ⟨rfl, by rw [if_neg (nofun)]; exact h2⟩
      · exact ⟨rfl, hc.2⟩

theorem deferred_fin (id : Nat) {t : List Ev} {b : Res} (ht : ∀ w, Proper w → Proper (t ++ w)) (hb : Fin b) : Fin ⟨t ++ [.reg id], .normal, [mkDeferred id b]⟩ := by
  have hf := (finish_fin hb).2
  have : ∃ ext, Proper ((mkDeferred id b).trace ++ ext) ∧ ((mkDeferred id b).out ≠ .terminated → ext = []) := by
    unfold mkDeferred
    dsimp only
    by_cases e : (finish b).out = .terminated
    · rw [if_pos e] at hf
      obtain ⟨x, hx⟩ := hf
      exact ⟨x, hx, fun h => absurd e h⟩
    · rw [if_neg e] at hf
      exact ⟨[], hf [] .nil, fun _ => rfl⟩
  obtain ⟨ext, h1, h2⟩ := this
  unfold Fin
  rw [if_neg (nofun)]
  refine ⟨_, .cons h1 h2 .nil, fun w hw => ?_⟩
  have h3 := ht _ (Proper.defer id hw h1)
  have e1 : (mkDeferred id b).id = id := rfl
  simp only [List.append_assoc, List.cons_append, List.nil_append, List.append_nil, e1] at h3 ⊢
  exact h3

theorem simple_fin {o : Outcome} (h : o ≠ .terminated) : Fin ⟨[], o, []⟩ := by
  unfold Fin
  rw [if_neg h]
  exact ⟨[], .nil, fun w hw => by rw [List.append_nil]; exact hw⟩

theorem unw_append {a b : List Obj} {u v : List Ev} (ha : Unw a u) (hb : Unw b v) : Unw (a ++ b) (u ++ v) := by
  induction ha with
  | nil => exact hb
  | @cons o os ext u h1 h2 _ ih =>
    have := Unw.cons h1 h2 ih
    simpa using this

theorem exec_fin (s : Stmt) (h : NoCopy s) (os : List Obj) : Fin (exec s os) := by
  induction s generalizing os with
  | act e =>
    unfold Fin exec
    rw [if_neg (nofun)]
    exact ⟨[], .nil, fun w hw => by rw [List.append_nil]; exact .act e hw⟩
  | seq a b iha ihb =>
    have ha := iha h.1 os
    unfold exec
    dsimp only
    split
    · rename_i e
      have hb := ihb h.2 ((exec a os).objs ++ os)
      generalize exec b ((exec a os).objs ++ os) = rb at hb
      generalize exec a os = ra at ha e
      unfold Fin at ha hb ⊢
      rw [if_neg (by rw [e]; decide)] at ha
      obtain ⟨u, a1, a2⟩ := ha
      dsimp only
      split
      · rename_i eb
        rw [if_pos eb] at hb
        obtain ⟨x, hb⟩ := hb
        exact ⟨x ++ u, by have := a2 _ hb; simpa using this⟩
      · rename_i eb
        rw [if_neg eb] at hb
        obtain ⟨v, b1, b2⟩ := hb
        refine ⟨v ++ u, unw_append b1 a1, fun w hw => ?_⟩
        have := a2 _ (b2 w hw)
        simpa using this
    · exact ha
  | scope s ih => exact (close_fin (ih h [])).fin
  | call s ih => exact (finish_fin (ih h [])).fin
  | loop n s ih => exact (repeated_fin (ih h []) n).fin
  | tryCatch s hd ih1 ih2 =>
    have h1 := close_fin (ih1 h.1 [])
    have h2 := close_fin (ih2 h.2 [])
    unfold exec
    dsimp only
    split
    · rename_i e
      exact (finC_append h1 h2 (by rw [e]; decide)).fin
    · exact h1.fin
  | brk => exact simple_fin (by decide)
  | cont => exact simple_fin (by decide)
  | ret => exact simple_fin (by decide)
  | throw => exact simple_fin (by decide)
  | defer id body ih => exact deferred_fin id (t := []) (fun w hw => hw) (ih h [])
  | hold pre id body ih1 ih2 =>
    have h1 := finish_fin (ih1 h.1 [])
    unfold exec
    dsimp only
    split
    · rename_i e
      have h2 := h1.2
      rw [if_neg (by rw [e]; decide)] at h2
      exact deferred_fin id h2 (ih2 h.2 [])
    · exact h1.fin
  | discard pre id body ih1 ih2 =>
    have h1 := finish_fin (ih1 h.1 [])
    unfold exec
    dsimp only
    split
    · rename_i e
      exact (finC_append h1 (close_fin (deferred_fin id (t := []) (fun w hw => hw) (ih2 h.2 []))) (by rw [e]; decide)).fin
    · exact h1.fin
  | copy => exact absurd h id

/-- **C107 (once, at the end of the scope, in reverse order).** For every function body that makes no copy of a deferred object, however its scopes, loops, calls and exceptions are nested and left:
if the program is not terminated, the trace is proper, i.e. every deferred function is called exactly once, at the end of the scope in which it was deferred and in the reverse order within it; if the program
is terminated by an exception out of a deferred function, the trace up to there is the beginning of a proper one. -/
theorem C107_order_partial (s : Stmt) (h : NoCopy s) :
    ((finish (exec s [])).out ≠ .terminated → Proper (finish (exec s [])).trace) ∧ ∃ ext, Proper ((finish (exec s [])).trace ++ ext) := by
  have hf := (finish_fin (exec_fin s h [])).2
  by_cases e : (finish (exec s [])).out = .terminated
  · rw [if_pos e] at hf
    exact ⟨fun h => absurd e h, hf⟩
  · rw [if_neg e] at hf
    have := hf [] .nil
    exact ⟨fun _ => by rwa [List.append_nil] at this, [], this⟩

/-! ### What being proper says about the counts -/

/-- How often something happens. -/
def times (e : Ev) (t : List Ev) : Nat := t.count e

theorem times_cons (e x : Ev) (t : List Ev) : times e (x :: t) = times e t + if x = e then 1 else 0 := by
  unfold times
  rw [List.count_cons]
  simp only [beq_iff_eq]

theorem times_append (e : Ev) (a b : List Ev) : times e (a ++ b) = times e a + times e b := List.count_append

theorem proper_count {t : List Ev} (h : Proper t) (id : Nat) : times (.run id) t = times (.reg id) t := by
  induction h with
  | nil => rfl
  | act e _ ih => simp [times_cons, ih]
  | scope _ _ ih1 ih2 => simp [times_cons, times_append, ih1, ih2]
  | defer k _ _ ih1 ih2 =>
    simp only [times_cons, times_append, ih1, ih2, Ev.run.injEq, Ev.reg.injEq, reduceCtorEq, if_false]
    omega

/-- At no point of a proper trace has a deferred function been called more often than it was deferred. -/
theorem proper_prefix {t : List Ev} (h : Proper t) (id n : Nat) : times (.run id) (t.take n) ≤ times (.reg id) (t.take n) := by
  induction h generalizing n with
  | nil => simp [times]
  | act e _ ih =>
    cases n with
    | zero => simp [times]
    | succ n => simp only [List.take_succ_cons, times_cons, reduceCtorEq, if_false]; exact ih n
  | @scope v w _ _ ih1 ih2 =>
    cases n with
    | zero => simp [times]
    | succ n =>
      rw [List.take_succ_cons, List.take_append]
      have := ih1 n
      cases n - v.length with
      | zero => simp only [times_cons, times_append, List.take_zero, reduceCtorEq, if_false]; simpa [times] using this
      | succ m =>
        have := ih2 m
        simp only [List.take_succ_cons, times_cons, times_append, reduceCtorEq, if_false]; omega
  | @defer k w v _ _ ih1 ih2 =>
    cases n with
    | zero => simp [times]
    | succ n =>
      rw [List.take_succ_cons, List.take_append]
      have := ih1 n
      cases n - w.length with
      | zero =>
        simp only [times_cons, times_append, List.take_zero, reduceCtorEq, if_false]
        have e : times (.run id) [] = 0 := rfl
        omega
      | succ m =>
        have := ih2 m
        simp only [List.take_succ_cons, times_cons, times_append, reduceCtorEq, if_false, Ev.run.injEq, Ev.reg.injEq]; omega

/-- **C107 (exactly once).** In the same setting, at every point of the execution no deferred function has been called more often than it was deferred, and at the end, if the program is not terminated,
each has been called exactly as often as it was deferred. -/
theorem C107_once_partial (s : Stmt) (h : NoCopy s) (id : Nat) :
    (∀ n, times (.run id) ((finish (exec s [])).trace.take n) ≤ times (.reg id) ((finish (exec s [])).trace.take n)) ∧
    ((finish (exec s [])).out ≠ .terminated → times (.run id) (finish (exec s [])).trace = times (.reg id) (finish (exec s [])).trace) := by
  obtain ⟨h1, ext, h2⟩ := C107_order_partial s h
  refine ⟨fun n => ?_, fun hn => proper_count (h1 hn) id⟩
  by_cases hl : n ≤ (finish (exec s [])).trace.length
  · have := proper_prefix h2 id n
    rwa [List.take_append_of_le_length hl] at this
  · have := proper_prefix h2 id (finish (exec s [])).trace.length
    rw [List.take_left'] at this
    · rw [List.take_of_length_le (by omega)]; exact this
    · rfl

/-- A deferred function neither throws nor ends the program. -/
def Quiet : Stmt → Prop
  | .seq a b => Quiet a ∧ Quiet b
  | .scope s => Quiet s
  | .call s => Quiet s
  | .loop _ s => Quiet s
  | .tryCatch s h => Quiet s ∧ Quiet h
  | .defer _ b => Quiet b ∧ (finish (exec b [])).out = .normal
  | .hold p _ b => Quiet p ∧ Quiet b ∧ (finish (exec b [])).out = .normal
  | .discard p _ b => Quiet p ∧ Quiet b ∧ (finish (exec b [])).out = .normal
  | _ => True

theorem unwind_quiet {os : List Obj} (h : ∀ o ∈ os, o.out = .normal) : (unwind os).2 = false := by
  induction os with
  | nil => rfl
  | cons o os ih =>
    have h1 := h o List.mem_cons_self
    unfold unwind
    rw [if_neg (by rw [h1]; decide)]
    exact ih fun x hx => h x (List.mem_cons_of_mem _ hx)

theorem close_quiet {r : Res} (h : ∀ o ∈ r.objs, o.out = .normal) : (close r).out = r.out := by
  unfold close
  split
  · rename_i e; exact e.symm
  · rw [show unwind r.objs = ((unwind r.objs).1, (unwind r.objs).2) from rfl, unwind_quiet h]
    rfl

theorem exec_quiet (s : Stmt) (hq : Quiet s) (os : List Obj) (ho : ∀ o ∈ os, o.out = .normal) : (exec s os).out ≠ .terminated ∧ ∀ o ∈ (exec s os).objs, o.out = .normal := by
  have fin : ∀ r : Res, (r.out ≠ .terminated ∧ ∀ o ∈ r.objs, o.out = .normal) → (close r).out ≠ .terminated ∧ (close r).objs = [] := by
    intro r hr
    refine ⟨by rw [close_quiet hr.2]; exact hr.1, ?_⟩
    unfold close
    split
    · rfl
    · dsimp only; split <;> rfl
  have fin2 : ∀ r : Res, (r.out ≠ .terminated ∧ ∀ o ∈ r.objs, o.out = .normal) → (finish r).out ≠ .terminated ∧ (finish r).objs = [] := by
    intro r hr
    obtain ⟨h1, h2⟩ := fin r hr
    refine ⟨?_, h2⟩
    unfold finish
    dsimp only
    split
    · exact nofun
    · first
      | exact nofun
      | rw [if_neg h1]; exact nofun
  have nil : ∀ o ∈ ([] : List Obj), o.out = .normal := nofun
  have single : ∀ (id : Nat) (b : Res), (finish b).out = .normal → ∀ o ∈ [mkDeferred id b], o.out = .normal := by
    intro id b hb o hm
    rw [List.mem_singleton.mp hm]
    exact hb
  induction s generalizing os with
  | act e => exact ⟨nofun, nil⟩
  | seq a b iha ihb =>
    have ha := iha hq.1 os ho
    unfold exec
    dsimp only
    split
    · have hb := ihb hq.2 ((exec a os).objs ++ os) fun o hm => (List.mem_append.mp hm).elim (ha.2 o) (ho o)
      exact ⟨hb.1, fun o hm => (List.mem_append.mp hm).elim (hb.2 o) (ha.2 o)⟩
    · exact ha
  | scope s ih =>
    have := fin _ (ih hq [] nil)
    exact ⟨this.1, by show ∀ o ∈ (close _).objs, _; rw [this.2]; exact nil⟩
  | call s ih =>
    have := fin2 _ (ih hq [] nil)
    exact ⟨this.1, by show ∀ o ∈ (finish _).objs, _; rw [this.2]; exact nil⟩
  | loop n s ih =>
    have h1 := fin _ (ih hq [] nil)
    show (repeated (exec s []) n).out ≠ _ ∧ ∀ o ∈ (repeated (exec s []) n).objs, _
    generalize exec s [] = r at h1
    induction n with
    | zero => exact ⟨nofun, nil⟩
    | succ n ihn =>
      unfold repeated
      dsimp only
      split
      · exact ⟨(ihn hq).1, nil⟩
      · split
        · exact ⟨nofun, nil⟩
        · exact ⟨h1.1, nil⟩
  | tryCatch s hd ih1 ih2 =>
    have h1 := fin _ (ih1 hq.1 [] nil)
    have h2 := fin _ (ih2 hq.2 [] nil)
    unfold exec
    dsimp only
    split
    · exact ⟨h2.1, nil⟩
    · exact ⟨h1.1, by rw [h1.2]; exact nil⟩
  | brk => exact ⟨nofun, nil⟩
  | cont => exact ⟨nofun, nil⟩
  | ret => exact ⟨nofun, nil⟩
  | throw => exact ⟨nofun, nil⟩
  | defer id body ih => exact ⟨nofun, single id _ hq.2⟩
  | hold pre id body ih1 ih2 =>
    have h1 := fin2 _ (ih1 hq.1 [] nil)
    unfold exec
    dsimp only
    split
    · exact ⟨nofun, single id _ hq.2.2⟩
    · exact ⟨h1.1, by rw [h1.2]; exact nil⟩
  | discard pre id body ih1 ih2 =>
    have h1 := fin2 _ (ih1 hq.1 [] nil)
    unfold exec
    dsimp only
    split
    · have := fin ⟨[.reg id], .normal, [mkDeferred id (exec body [])]⟩ ⟨nofun, single id _ hq.2.2⟩
      exact ⟨this.1, nil⟩
    · exact ⟨h1.1, by rw [h1.2]; exact nil⟩
  | copy =>
    cases os with
    | nil => exact ⟨nofun, nil⟩
    | cons o os =>
      refine ⟨nofun, fun x hx => ?_⟩
      rw [List.mem_singleton.mp hx]
      exact ho o List.mem_cons_self

/-- **C107 (only a throwing deferred function ends the program).** If no deferred function throws, nothing terminates the program, so that every execution is proper to its end. -/
theorem C107_not_terminated (s : Stmt) (hq : Quiet s) : (finish (exec s [])).out ≠ .terminated := by
  obtain ⟨h1, h2⟩ := exec_quiet s hq [] nofun
  unfold finish
  dsimp only
  split
  · exact nofun
  · rw [close_quiet h2, if_neg h1]; exact nofun

/-! ### Witnesses -/

/-- A loop that defers twice in each round, leaves its second round by an exception that is caught outside, and a deferred function with a scope of its own. -/
def exStmt : Stmt :=
  .seq (.defer 1 (.seq (.act 10) (.defer 5 (.act 11))))
    (.seq (.tryCatch (.loop 3 (.seq (.defer 2 (.act 20)) (.seq (.hold (.act 25) 3 (.act 30)) (.seq (.act 40) (.seq (.discard (.act 50) 4 (.act 51)) (.throw)))))) (.act 60))
      (.seq (.act 70) .ret))

example : NoCopy exStmt ∧ Quiet exStmt := ⟨by simp [exStmt, NoCopy], by simp only [exStmt, Quiet]; decide⟩

example : finish (exec exStmt []) = ⟨[.enter, .reg 1, .enter, .enter, .reg 2, .enter, .act 25, .leave, .reg 3, .act 40, .enter, .act 50, .leave, .enter, .reg 4, .run 4, .enter, .act 51, .leave, .leave,
    .run 3, .enter, .act 30, .leave, .run 2, .enter, .act 20, .leave, .leave, .leave, .enter, .act 60, .leave, .act 70,
    .run 1, .enter, .act 10, .reg 5, .run 5, .enter, .act 11, .leave, .leave, .leave], .normal, []⟩ := by
  rfl

/-! ### Where the code violates the property -/

/-- A deferred object can be copied and moved, and then its function runs once for each of them: twice although it was deferred once. -/
theorem C107_copy_runs_twice : (finish (exec (.seq (.defer 1 (.act 7)) .copy) [])).trace = [.enter, .reg 1, .run 1, .enter, .act 7, .leave, .run 1, .enter, .act 7, .leave, .leave] ∧
    ¬ Proper (finish (exec (.seq (.defer 1 (.act 7)) .copy) [])).trace := by
  refine ⟨rfl, fun h => ?_⟩
  have := proper_count h 1
  revert this
  decide

/-- An exception out of a deferred function is not an exception but the end of the program, even if there is a handler and nothing else was thrown; what else was deferred is not run. -/
theorem C107_throw_terminates : finish (exec (.tryCatch (.seq (.defer 1 (.act 7)) (.defer 2 .throw)) (.act 9)) []) = ⟨[.enter, .enter, .reg 1, .reg 2, .run 2, .enter, .leave], .terminated, []⟩ := rfl

end Verif.Defer
