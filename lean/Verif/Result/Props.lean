import Verif.Result.Spec

/-! Property theorems for `cc::result`: C73. -/
namespace Verif.Result

open Mem

variable {V E : Type}

/-- The result that holds `x`. -/
def repr : Option V ⊕ Option E → Res V E
  | .inl (some v) => ⟨true, .live (.inl v), true⟩
  | .inl none => ⟨true, .moved, true⟩
  | .inr (some e) => ⟨false, .live (.inr e), false⟩
  | .inr none => ⟨false, .moved, false⟩

/-- All variables hold what the specification says and nothing has leaked. -/
structure Inv (w : World V E) (s : Spec.State V E) : Prop where
  rel : ∀ i, w.vars i = repr (s i)
  leaked : w.leaked = 0

theorem Inv.put {w : World V E} {s : Spec.State V E} (I : Inv w s) {i : Nat} {r : Res V E} {x : Option V ⊕ Option E} (h : r = repr x) :
    Inv (w.put i r) (Spec.upd s i x) := by
  refine ⟨fun j => ?_, I.leaked⟩
  unfold World.put Spec.upd
  by_cases e : j = i
  · simp [e, h]
  · simp [e, I.rel j]

theorem implDtor_repr (x : Option V ⊕ Option E) : implDtor (repr x) = .ok .raw := by
  rcases x with (_ | v) | (_ | e) <;> simp [implDtor, repr, Slot.alive]

theorem dtor_repr (x : Option V ⊕ Option E) : dtor (repr x) = .ok 0 := by
  unfold dtor
  rw [implDtor_repr]
  rfl

theorem copyInto_repr (x : Option V ⊕ Option E) : copyInto .raw (repr x) = (Spec.known x).map repr := by
  rcases x with (_ | v) | (_ | e) <;> simp [copyInto, repr, readValue, readError, newValue, newError, Slot.alive, Spec.known, Except.map]

theorem movedFrom_repr (x : Option V ⊕ Option E) : movedFrom (repr x) = repr (Spec.forget x) := by
  rcases x with (_ | v) | (_ | e) <;> rfl

theorem Inv.replace {w : World V E} {s : Spec.State V E} (I : Inv w s) {i : Nat} {r : Res V E} {x : Option V ⊕ Option E} (h : r = repr x) :
    ∃ w', w.replace i r = .ok (w', .none) ∧ Inv w' (Spec.upd s i x) := by
  unfold World.replace
  rw [I.rel i, dtor_repr]
  exact ⟨_, rfl, (I.put h).rel, by simp [I.leaked]⟩

theorem Inv.assignTemp {w : World V E} {s : Spec.State V E} (I : Inv w s) {i : Nat} {t : Res V E} {x : Option V ⊕ Option E} (h : t = repr x)
    (hx : Spec.known x = .ok x) : ∃ w', w.assignTemp i t = .ok (w', .none) ∧ Inv w' (Spec.upd s i x) := by
  unfold World.assignTemp moveAssign
  rw [I.rel i, implDtor_repr, h]
  simp only [R.ok_bind, copyInto_repr, hx, Except.map, movedFrom_repr, dtor_repr]
  exact ⟨_, rfl, (I.put rfl).rel, by simp [I.leaked]⟩

/-- The outcome of a call agrees with the specification's. -/
def Agree (r : R (World V E × Obs V E)) : R (Spec.State V E × Obs V E) → Prop
  | .error f => r = .error f
  | .ok (s, o) => ∃ w, r = .ok (w, o) ∧ Inv w s

theorem known_ok {x y : Option V ⊕ Option E} (h : Spec.known x = .ok y) : y = x := by
  rcases x with (_ | v) | (_ | e) <;> simp [Spec.known] at h <;> exact h.symm

theorem step_ok [DecidableEq V] [DecidableEq E] (e0 : E) {w : World V E} {s : Spec.State V E} (I : Inv w s) (op : Op V E)
    (hop : Spec.selfMove op = false) : Agree (step e0 w op) (Spec.step e0 s op) := by
  cases op with
  | ctorDefault i => exact I.replace (x := .inr (some e0)) rfl
  | ctorValue i v => exact I.replace (x := .inl (some v)) rfl
  | ctorError i e => exact I.replace (x := .inr (some e)) rfl
  | ctorCopy i j =>
    simp only [step, Spec.step, I.rel j, copyInto_repr]
    cases hk : Spec.known (s j) with
    | error f => rfl
    | ok x => exact I.replace rfl
  | ctorMove i j =>
    simp only [step, Spec.step, I.rel j, copyInto_repr]
    cases hk : Spec.known (s j) with
    | error f => rfl
    | ok x =>
      simp only [Except.map, R.ok_bind, movedFrom_repr]
      exact (I.put (i := j) rfl).replace rfl
  | assignValue i v => exact I.assignTemp (x := .inl (some v)) rfl rfl
  | assignError i e => exact I.assignTemp (x := .inr (some e)) rfl rfl
  | assignCopy i j =>
    simp only [step, Spec.step, World.assignCopy]
    by_cases hij : i = j
    · rw [if_pos hij, if_pos hij]; exact ⟨w, rfl, I⟩
    · rw [if_neg hij, if_neg hij, I.rel i, implDtor_repr, I.rel j]
      simp only [R.ok_bind, copyInto_repr]
      cases hk : Spec.known (s j) with
      | error f => rfl
      | ok x => exact ⟨_, rfl, I.put rfl⟩
  | assignMove i j =>
    have hij : i ≠ j := by simpa [Spec.selfMove] using hop
    simp only [step, Spec.step, World.assignMove, moveAssign, if_neg hij, I.rel i, implDtor_repr, I.rel j, R.ok_bind, copyInto_repr]
    cases hk : Spec.known (s j) with
    | error f => rfl
    | ok x =>
      simp only [Except.map, R.ok_bind, movedFrom_repr]
      exact ⟨_, rfl, (I.put rfl).put rfl⟩
  | isValue i =>
    refine ⟨w, ?_, I⟩
    simp only [step, I.rel i]
    rcases s i with (_ | v) | (_ | e) <;> rfl
  | isError i =>
    refine ⟨w, ?_, I⟩
    simp only [step, I.rel i]
    rcases s i with (_ | v) | (_ | e) <;> rfl
  | isValueEq i v =>
    simp only [step, Spec.step, I.rel i]
    rcases s i with (_ | x) | (_ | e)
    · rfl
    · exact ⟨w, rfl, I⟩
    · exact ⟨w, rfl, I⟩
    · exact ⟨w, rfl, I⟩
  | isErrorEq i e =>
    simp only [step, Spec.step, I.rel i]
    rcases s i with (_ | x) | (_ | x)
    · exact ⟨w, rfl, I⟩
    · exact ⟨w, rfl, I⟩
    · rfl
    · exact ⟨w, rfl, I⟩
  | value i =>
    simp only [step, Spec.step, I.rel i]
    rcases s i with (_ | x) | (_ | e)
    · rfl
    · exact ⟨w, rfl, I⟩
    · rfl
    · rfl
  | error i =>
    simp only [step, Spec.step, I.rel i]
    rcases s i with (_ | x) | (_ | e)
    · rfl
    · rfl
    · rfl
    · exact ⟨w, rfl, I⟩
  | valueOr i v =>
    simp only [step, Spec.step, I.rel i]
    rcases s i with (_ | x) | (_ | e)
    · rfl
    · exact ⟨w, rfl, I⟩
    · exact ⟨w, rfl, I⟩
    · exact ⟨w, rfl, I⟩
  | setValue i v =>
    simp only [step, Spec.step, I.rel i]
    rcases s i with (_ | x) | (_ | e)
    · exact ⟨_, rfl, I.put rfl⟩
    · exact ⟨_, rfl, I.put rfl⟩
    · rfl
    · rfl
  | setError i e =>
    simp only [step, Spec.step, I.rel i]
    rcases s i with (_ | x) | (_ | x)
    · rfl
    · rfl
    · exact ⟨_, rfl, I.put rfl⟩
    · exact ⟨_, rfl, I.put rfl⟩

theorem run_ok [DecidableEq V] [DecidableEq E] (e0 : E) (ops : List (Op V E)) : ∀ {w : World V E} {s : Spec.State V E}, Inv w s →
    (∀ op ∈ ops, Spec.selfMove op = false) →
    match Spec.run e0 s ops with
    | .error f => run e0 w ops = .error f
    | .ok (s', os) => ∃ w', run e0 w ops = .ok (w', os) ∧ Inv w' s' := by
  induction ops with
  | nil => intro w s I _; exact ⟨w, rfl, I⟩
  | cons op ops ih =>
    intro w s I hop
    have h1 := step_ok e0 I op (hop op (by simp))
    simp only [Spec.run, run]
    cases hs : Spec.step e0 s op with
    | error f =>
      rw [hs] at h1
      have : step e0 w op = .error f := h1
      rw [this]; rfl
    | ok p =>
      obtain ⟨s1, o⟩ := p
      rw [hs] at h1
      obtain ⟨w1, e1, I1⟩ := h1
      have h2 := ih I1 (fun op h => hop op (by simp [h]))
      rw [e1]
      simp only [R.ok_bind]
      cases hs2 : Spec.run e0 s1 ops with
      | error f => rw [hs2] at h2; simp only at h2; rw [h2]; rfl
      | ok q =>
        obtain ⟨s2, os⟩ := q
        rw [hs2] at h2
        obtain ⟨w2, e2, I2⟩ := h2
        rw [e2]
        exact ⟨w2, rfl, I2⟩

/-- **C73**, partial. Every history without `r = cc::move(r)` behaves as if each variable held exactly the value or the error last given to
it: all results and contract failures agree, the program is undefined exactly if it reads what it has moved away itself; afterwards each variable
can be destroyed, and no object has been lost without its destructor. Missing: `C73_self_move_reads_dead_object`. -/
theorem C73_result_partial [DecidableEq V] [DecidableEq E] (e0 : E) (ops : List (Op V E)) (hop : ∀ op ∈ ops, Spec.selfMove op = false) :
    match Spec.run e0 (fun _ => .inr (some e0)) ops with
    | .error f => start e0 ops = .error f
    | .ok (s, os) => ∃ w, start e0 ops = .ok (w, os) ∧ w.leaked = 0 ∧
        ∀ i, dtor (w.vars i) = .ok 0 ∧ (w.vars i).isValue = Spec.isValue (s i) ∧
          (∀ v, s i = .inl (some v) → value (w.vars i) = .ok v) ∧ (∀ e, s i = .inr (some e) → error (w.vars i) = .ok e) := by
  have I : Inv ({ vars := fun _ => repr (.inr (some e0)), leaked := 0 } : World V E) (fun _ => .inr (some e0)) := ⟨fun _ => rfl, rfl⟩
  have h := run_ok e0 ops I hop
  have hst : start e0 ops = run e0 ({ vars := fun _ => repr (.inr (some e0)), leaked := 0 } : World V E) ops := rfl
  rw [hst]
  cases hs : Spec.run e0 (fun _ => .inr (some e0)) ops with
  | error f => rw [hs] at h; exact h
  | ok p =>
    obtain ⟨s, os⟩ := p
    rw [hs] at h
    obtain ⟨w, e, I'⟩ := h
    refine ⟨w, e, I'.leaked, fun i => ?_⟩
    rw [I'.rel i]
    refine ⟨dtor_repr _, ?_, ?_, ?_⟩
    · rcases s i with (_ | v) | (_ | e) <;> rfl
    · intro v hv; rw [hv]; rfl
    · intro e he; rw [he]; rfl

/-- Used in the examples. -/
def demoOps : List (Op Nat Nat) :=
  [.ctorValue 0 7, .ctorCopy 1 0, .assignError 0 3, .ctorMove 2 1, .isValue 1, .assignMove 1 0, .error 1, .setValue 2 8, .assignCopy 0 2,
   .assignCopy 0 0, .valueOr 0 1, .valueOr 1 1, .isErrorEq 1 3, .isValueEq 1 3, .value 1]

example : (∀ op ∈ demoOps, Spec.selfMove op = false) ∧
    (Spec.run 0 (fun _ => .inr (some 0)) (demoOps.take 14)).map (fun p => (p.1 0, p.1 1, p.2.drop 6)) =
      .ok (.inl (some 8), .inr (some 3), [.error 3, .none, .none, .none, .value 8, .value 1, .bool true, .bool false]) ∧
    (start 0 demoOps).map (fun p => p.2) = .error .assert := by
  refine ⟨?_, ?_, ?_⟩ <;> decide +kernel

/-- **C73**, negation of the full property, for every value: `r = cc::move(r)` destroys the value and then constructs from the destroyed object. The
comment in the code says that no check is needed because a self-moved result may be moved-from, which is what the specification says too. -/
theorem C73_self_move_reads_dead_object [DecidableEq V] [DecidableEq E] (e0 : E) (v : V) (e : E) :
    (start e0 [.ctorValue 0 v, .assignMove 0 0] : R (World V E × List (Obs V E))) = .error .ub ∧
    (start e0 [.ctorError 0 e, .assignMove 0 0] : R (World V E × List (Obs V E))) = .error .ub ∧
    Spec.run e0 (fun _ => .inr (some e0)) [.ctorValue 0 v, .assignMove 0 0, .assignValue 0 v, .value 0] =
      .ok (Spec.upd (Spec.upd (Spec.upd (fun _ => .inr (some e0)) 0 (.inl (some v))) 0 (.inl none)) 0 (.inl (some v)),
        [.none, .none, .none, .value v]) :=
  ⟨rfl, rfl, rfl⟩

end Verif.Result
