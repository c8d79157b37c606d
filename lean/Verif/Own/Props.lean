import Verif.Own.Ops
import Mathlib.Data.List.Induction

/-! Property theorems for owning pointers: C55 (`shared_ptr`), C56 (`unique_ptr`, `poly_unique_ptr`, `box`, `unique_function`). -/
namespace Verif.Own

open Spec

theorem sumTo_list (f : Block → Nat) (l : List Block) :
    sumTo l.length (fun a => match l[a]? with | some b => f b | none => 0) = (l.map f).sum := by
  induction l using List.reverseRecOn with
  | nil => rfl
  | append_singleton l b ih =>
    rw [List.length_append, List.map_append, List.sum_append, ← ih]
    change sumTo l.length _ + _ = _
    simp only [List.getElem?_append_right (Nat.le_refl _), Nat.sub_self, List.getElem?_cons_zero, List.map_cons, List.map_nil, List.sum_cons,
      List.sum_nil, Nat.add_zero]
    congr 1
    apply sumTo_congr
    intro a ha
    rw [List.getElem?_append_left ha]

theorem owners_eq {w : World} (c : Clean w) (x : Nat) : owners w x = cnt none w x := by
  unfold owners cnt
  rw [List.count_append]
  simp only [effVars]
  congr 1
  have h1 : sumTo w.heap.length (contrib none w x) = (w.heap.map (fun b => if isLive b then b.fields.count (some x) else 0)).sum := by
    rw [← sumTo_list]
    rfl
  rw [h1]
  have h2 : ∀ b ∈ w.heap, isLive b = !b.freed := by
    intro b hb
    obtain ⟨i, hi⟩ := List.getElem?_of_mem hb
    cases hf : b.freed with
    | true => simp [isLive, hf]
    | false => simp [isLive, hf, c i b hi hf]
  generalize w.heap = l at h2
  clear h1 c
  induction l with
  | nil => rfl
  | cons b l ih =>
    have ih := ih (fun b hb => h2 b (List.mem_cons_of_mem _ hb))
    rw [List.map_cons, List.sum_cons, h2 b (by simp), ← ih]
    cases hf : b.freed with
    | true => simp [hf]
    | false => simp [hf, List.count_append]

theorem St.agrees {u : Bool} {w : World} (h : St u none [] [] w) : Agrees (abs w) w := by
  have hx : ∀ x, eff w x = owners w x := by
    intro x
    rw [owners_eq h.clean]
    have := h.inv x
    simpa using this
  refine ⟨rfl, rfl, fun o b hb => ?_, fun o b hb => ?_, fun o b hb hf => ?_⟩
  · have h1 := hx o
    rw [eff_some hb] at h1
    cases hf : b.freed with
    | true =>
      simp only [effB, hf, if_true] at h1
      constructor
      · intro _; omega
      · intro _; rfl
    | false =>
      have := h.clean o b hb hf
      simp only [effB, hf, Bool.false_eq_true, if_false] at h1
      constructor
      · intro h; cases h
      · intro _; omega
  · have h1 := h.log o
    unfold freedAt at h1
    rw [hb] at h1
    exact h1
  · have h1 := hx o
    rw [eff_some hb] at h1
    simp only [effB, hf, Bool.false_eq_true, if_false] at h1
    exact h1

theorem St.init (u : Bool) (n : Nat) : St u none [] [] (World.init n) := by
  refine ⟨fun x => ?_, fun x b h => ?_, fun x => rfl, fun _ x b h => ?_⟩
  · simp [eff, cnt, World.init, effVars, sumTo, List.count_replicate]
  · simp [World.init] at h
  · simp [World.init] at h

theorem abs_init (n : Nat) : abs (World.init n) = Spec.init n := rfl

theorem sharedStep_ok {w : World} (h : St false none [] [] w) (op : Op) (ho : isShared op) (hs : Safe (abs w) op) :
    match Spec.step (abs w) op with
    | none => sharedStep w op = .error .assert
    | some (s, o) => ∃ w', sharedStep w op = .ok (w', o) ∧ St false none [] [] w' ∧ abs w' = s := by
  cases op with
  | make dst n =>
    obtain ⟨w', e, S, A⟩ := sharedMake_ok n h hs
    refine ⟨w', by simp only [sharedStep, e, R.ok_bind], S, ?_⟩
    rw [A]
    simp [addObj, abs]
  | copy dst src =>
    obtain ⟨w', e, S, A⟩ := sharedCopy_ok h hs.1 hs.2
    exact ⟨w', by simp only [sharedStep, e, R.ok_bind], S, A⟩
  | move dst src =>
    obtain ⟨w', e, S, A⟩ := sharedMove_ok h hs.1 hs.2
    exact ⟨w', by simp only [sharedStep, e, R.ok_bind], S, A⟩
  | reset l =>
    obtain ⟨w', e, S, A⟩ := sharedReset_ok h hs
    exact ⟨w', by simp only [sharedStep, e, R.ok_bind], S, A⟩
  | resetFrom dst src => exact ho.elim
  | deref l =>
    have hd := deref_ok h hs
    simp only [Spec.step, sharedStep]
    cases hp : (abs w).ptr l with
    | none => rw [hp] at hd; simp only [hd, R.error_bind]
    | some o => rw [hp] at hd; exact ⟨w, by simp only [hd, R.ok_bind], h, rfl⟩

theorem uniqueStep_ok {w : World} (h : St true none [] [] w) (op : Op) (ho : isUnique op) (hs : Safe (abs w) op) :
    match Spec.step (abs w) op with
    | none => uniqueStep w op = .error .assert
    | some (s, o) => ∃ w', uniqueStep w op = .ok (w', o) ∧ St true none [] [] w' ∧ abs w' = s := by
  cases op with
  | make dst n =>
    obtain ⟨w', e, S, A⟩ := uniqueMake_ok n h hs
    refine ⟨w', by simp only [uniqueStep, e, R.ok_bind], S, ?_⟩
    rw [A]
    simp [addObj, abs]
  | copy dst src => exact ho.elim
  | move dst src =>
    obtain ⟨w', e, S, A⟩ := uniqueMove_ok h hs.1 hs.2
    exact ⟨w', by simp only [uniqueStep, e, R.ok_bind], S, A⟩
  | reset l =>
    obtain ⟨w', e, S, A⟩ := uniqueReset_ok h hs
    exact ⟨w', by simp only [uniqueStep, e, R.ok_bind], S, A⟩
  | resetFrom dst src =>
    obtain ⟨w', e, S, A⟩ := uniqueResetFrom_ok h hs.1 hs.2
    exact ⟨w', by simp only [uniqueStep, e, R.ok_bind], S, A⟩
  | deref l =>
    have hd := deref_ok h hs
    simp only [Spec.step, uniqueStep]
    cases hp : (abs w).ptr l with
    | none => rw [hp] at hd; simp only [hd, R.error_bind]
    | some o => rw [hp] at hd; exact ⟨w, by simp only [hd, R.ok_bind], h, rfl⟩

theorem run_ok {u : Bool} {stp : World → Op → R (World × Option Nat)} {ok : Op → Prop}
    (hstp : ∀ w op, St u none [] [] w → ok op → Safe (abs w) op →
      match Spec.step (abs w) op with
      | none => stp w op = .error .assert
      | some (s, o) => ∃ w', stp w op = .ok (w', o) ∧ St u none [] [] w' ∧ abs w' = s) :
    ∀ (ops : List Op) (w : World), St u none [] [] w → (∀ op ∈ ops, ok op) → SafeRun (abs w) ops →
      match Spec.run (abs w) ops with
      | none => run stp w ops = .error .assert
      | some (s, os) => ∃ w', run stp w ops = .ok (w', os) ∧ St u none [] [] w' ∧ abs w' = s := by
  intro ops
  induction ops with
  | nil => intro w h _ _; exact ⟨w, rfl, h, rfl⟩
  | cons op ops ih =>
    intro w h ho hs
    have h1 := hstp w op h (ho op (by simp)) hs.1
    simp only [Spec.run, run]
    cases e : Spec.step (abs w) op with
    | none => rw [e] at h1; simp only [h1, R.error_bind]
    | some so =>
      obtain ⟨s, o⟩ := so
      rw [e] at h1
      obtain ⟨w1, e1, S1, A1⟩ := h1
      have hs2 := hs.2 s o e
      rw [← A1] at hs2
      have h2 := ih w1 S1 (fun op hop => ho op (by simp [hop])) hs2
      rw [A1] at h2
      simp only [e1, R.ok_bind]
      cases e3 : Spec.run s ops with
      | none => rw [e3] at h2; simp only [h2, R.error_bind]
      | some so2 =>
        obtain ⟨s2, os⟩ := so2
        rw [e3] at h2
        obtain ⟨w2, e4, S2, A2⟩ := h2
        exact ⟨w2, by simp only [e4, R.ok_bind], S2, A2⟩

/-- **C55** (partial). After any history of creations, copies, moves, resets and dereferences of shared pointers, in variables or in members of
shared objects, in which no call uses a pointer that would disappear with the reference the call drops: the pointers are as specified, an object
has been destroyed if and only if it has no owner, destroyed objects were destroyed once, and the reference count is the number of owners. A null
dereference is caught by an assertion; nothing is used after it was freed. Every beginning of such a history is one too, so the object is
destroyed in the very call that takes its last owner. Not covered (and false): calls like `p = p->next`. -/
theorem C55_shared_ptr_partial (n : Nat) (ops : List Op) (ho : ∀ op ∈ ops, isShared op) (hs : SafeRun (Spec.init n) ops) :
    match Spec.run (Spec.init n) ops with
    | none => run sharedStep (World.init n) ops = .error .assert
    | some (s, os) => ∃ w, run sharedStep (World.init n) ops = .ok (w, os) ∧ Agrees s w := by
  have h := run_ok (fun w op h => sharedStep_ok h op) ops (World.init n) (St.init false n) ho hs
  rw [abs_init] at h
  cases e : Spec.run (Spec.init n) ops with
  | none => rw [e] at h; exact h
  | some so =>
    obtain ⟨s, os⟩ := so
    rw [e] at h
    obtain ⟨w, e1, S1, A1⟩ := h
    exact ⟨w, e1, A1 ▸ S1.agrees⟩

/-- **C55**, consequence. What an owner points to is never a freed object. -/
theorem C55_owned_objects_live {s : State} {w : World} (h : Agrees s w) {o : Nat} {b : Block} (hb : w.heap[o]? = some b)
    (hp : some o ∈ w.vars ∨ ∃ (a : Nat) (c : Block), w.heap[a]? = some c ∧ c.freed = false ∧ some o ∈ c.fields) : b.freed = false := by
  cases hf : b.freed with
  | false => rfl
  | true =>
    have h0 := (h.freed o b hb).1 hf
    unfold owners at h0
    rw [List.count_eq_zero] at h0
    refine (h0 ?_).elim
    rw [List.mem_append]
    rcases hp with hp | ⟨a, c, hc, hcf, hm⟩
    · exact Or.inl hp
    · refine Or.inr (List.mem_flatMap.2 ⟨c, List.mem_filter.2 ⟨List.mem_of_getElem? hc, by simp [hcf]⟩, hm⟩)

/-- A list of two objects, a second owner of the tail, and the destruction of the head: `p` → 0 → 1 ← `q`. -/
def listProgram : List Op :=
  [.make (.var 0) 1, .make (.field 0 0) 1, .copy (.var 1) (.field 0 0), .reset (.var 0), .deref (.var 1)]

example : (∀ op ∈ listProgram, isShared op) ∧ SafeRun (Spec.init 2) listProgram := by
  refine ⟨by simp [listProgram, isShared], ⟨by decide, trivial⟩, ?_⟩
  rintro s o ⟨⟩
  refine ⟨⟨by decide, .var (i := 0) (by decide) (by decide)⟩, ?_⟩
  rintro s o ⟨⟩
  refine ⟨⟨⟨by decide, trivial⟩, ⟨by decide, .var (i := 0) (by decide) (by decide)⟩⟩, ?_⟩
  rintro s o ⟨⟩
  refine ⟨⟨by decide, trivial⟩, ?_⟩
  rintro s o ⟨⟩
  refine ⟨⟨by decide, trivial⟩, ?_⟩
  rintro s o ⟨⟩
  trivial

example : (run sharedStep (World.init 2) listProgram).map (fun r => (r.1.log, r.1.vars, r.2)) =
    .ok ([0], [none, some 1], [none, none, none, none, some 1]) := by decide

/-- **C55** is false of the code. `p = p->next` (by copy or by move) with `p` the only owner: the object that contains `next` is freed before
`next` is read (shared_ptr.hh:96-116). -/
theorem C55_assign_from_own_member :
    run sharedStep (World.init 1) [.make (.var 0) 1, .make (.field 0 0) 0, .copy (.var 0) (.field 0 0)] = .error .ub ∧
    run sharedStep (World.init 1) [.make (.var 0) 1, .make (.field 0 0) 0, .move (.var 0) (.field 0 0)] = .error .ub := by decide

/-- **C55** is false of the code: resetting, from inside, the pointer by which an object owns itself. -/
theorem C55_reset_self_owner :
    run sharedStep (World.init 1) [.make (.var 0) 1, .copy (.field 0 0) (.var 0), .reset (.var 0), .reset (.field 0 0)] = .error .ub := by decide

/-- Such a call is what `Safe` excludes. -/
example : ¬ Safe { vars := [some 0], objs := [[some 1], []] } (.copy (.var 0) (.field 0 0)) := by
  rintro ⟨_, _, h⟩
  have : ∀ x, ¬ Reach [Loc.var 0] { vars := [some 0], objs := [[some 1], []] } x := by
    intro x h
    induction h with
    | @var i o hi hg =>
      cases i with
      | zero => exact hi (by simp)
      | succ i => simp [State.get] at hg
    | field _ _ _ ih => exact ih
  exact this 0 h

/-- The reference cycle that never gets freed keeps an owner: itself. -/
example : (run sharedStep (World.init 1) [.make (.var 0) 1, .copy (.field 0 0) (.var 0), .reset (.var 0)]).map
    (fun r => (r.1.log, owners r.1 0)) = .ok ([], 1) := by decide

/-- **C56** (partial). After any history of creations, moves, resets, `reset(release())` and dereferences of unique pointers, in variables or in
members of owned objects, in which no call uses a pointer that would disappear with the object the call destroys: the pointers are as specified
(in particular self-move leaves the pointer empty), an object has been destroyed exactly once if it has no owner, and not otherwise, and no object
has two owners. A null dereference is caught by an assertion; nothing is used after it was freed. -/
theorem C56_unique_ownership_partial (n : Nat) (ops : List Op) (ho : ∀ op ∈ ops, isUnique op) (hs : SafeRun (Spec.init n) ops) :
    match Spec.run (Spec.init n) ops with
    | none => run uniqueStep (World.init n) ops = .error .assert
    | some (s, os) => ∃ w, run uniqueStep (World.init n) ops = .ok (w, os) ∧ Agrees s w ∧ ∀ o, owners w o ≤ 1 := by
  have h := run_ok (fun w op h => uniqueStep_ok h op) ops (World.init n) (St.init true n) ho hs
  rw [abs_init] at h
  cases e : Spec.run (Spec.init n) ops with
  | none => rw [e] at h; exact h
  | some so =>
    obtain ⟨s, os⟩ := so
    rw [e] at h
    obtain ⟨w, e1, S1, A1⟩ := h
    refine ⟨w, e1, A1 ▸ S1.agrees, fun o => ?_⟩
    rw [owners_eq S1.clean]
    have h1 := S1.inv o
    unfold eff at h1
    simp only [List.count_nil] at h1
    cases hb : w.heap[o]? with
    | none => rw [hb] at h1; simp only at h1; omega
    | some b =>
      rw [hb] at h1
      simp only [effB] at h1
      cases hf : b.freed with
      | true => rw [hf] at h1; simp only [if_true] at h1; omega
      | false =>
        rw [hf] at h1
        have := S1.le1 rfl o b hb hf
        simp only [Bool.false_eq_true, if_false] at h1
        omega

/-- **C56**, self-move: the pointer is empty afterwards and the object destroyed, for every state reached by a safe history. -/
theorem C56_self_move_empties (s : State) (l : Loc) : Spec.step s (.move l l) = some (s.set l none, none) := by
  simp only [Spec.step, set_set]

/-- Pop the head of a list with `p.reset(p->next.release())`, then self-move. -/
def popProgram : List Op :=
  [.make (.var 0) 1, .make (.field 0 0) 1, .resetFrom (.var 0) (.field 0 0), .deref (.var 0), .move (.var 0) (.var 0)]

example : (∀ op ∈ popProgram, isUnique op) ∧ SafeRun (Spec.init 1) popProgram := by
  refine ⟨by simp [popProgram, isUnique], ⟨by decide, trivial⟩, ?_⟩
  rintro s o ⟨⟩
  refine ⟨⟨by decide, .var (i := 0) (by decide) (by decide)⟩, ?_⟩
  rintro s o ⟨⟩
  refine ⟨⟨⟨by decide, .var (i := 0) (by decide) (by decide)⟩, ⟨by decide, trivial⟩⟩, ?_⟩
  rintro s o ⟨⟩
  refine ⟨⟨by decide, trivial⟩, ?_⟩
  rintro s o ⟨⟩
  refine ⟨⟨⟨by decide, trivial⟩, ⟨by decide, trivial⟩⟩, ?_⟩
  rintro s o ⟨⟩
  trivial

example : (run uniqueStep (World.init 1) popProgram).map (fun r => (r.1.log, r.1.vars, r.2)) =
    .ok ([0, 1], [none], [none, none, none, some 1, none]) := by decide

/-- **C56** is false of the code: `p = move(p->next)` frees the object that contains `next` before it reads `next` (unique_ptr.hh:42-51,
poly_unique_ptr.hh:41-65, experimental/box.hh:34-42, unique_function.hh:63-72). -/
theorem C56_assign_from_own_member :
    run uniqueStep (World.init 1) [.make (.var 0) 1, .make (.field 0 0) 0, .move (.var 0) (.field 0 0)] = .error .ub := by decide

end Verif.Own
