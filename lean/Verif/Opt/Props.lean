import Verif.Opt.Spec

/-! Property theorems for `cc::optional`: C53. -/
namespace Verif.Opt

open Mem

variable {α : Type}

/-- The storage of an optional that holds `v`. -/
def repr : Option α → Opt α
  | none => { slot := Slot.raw, has := false }
  | some a => { slot := Slot.live a, has := true }

/-- All variables hold their values and nothing has leaked. -/
structure Inv (w : World α) (s : Nat → Option α) : Prop where
  rel : ∀ i, w.opts i = repr (s i)
  leaked : w.leaked = 0

theorem Inv.put {w : World α} {s : Nat → Option α} (I : Inv w s) {i : Nat} {o : Opt α} {v : Option α} (h : o = repr v) :
    Inv (w.put i o) (Spec.upd s i v) := by
  refine ⟨fun j => ?_, I.leaked⟩
  unfold World.put Spec.upd
  by_cases e : j = i
  · simp [e, h]
  · simp [e, I.rel j]

theorem dtor_repr (v : Option α) : dtor (repr v) = .ok 0 := by cases v <;> rfl

theorem Inv.replace {w : World α} {s : Nat → Option α} (I : Inv w s) {i : Nat} {o : Opt α} {v : Option α} (h : o = repr v) :
    ∃ w', w.replace i o = .ok (w', .none) ∧ Inv w' (Spec.upd s i v) := by
  unfold World.replace
  rw [I.rel i, dtor_repr]
  exact ⟨_, rfl, (I.put (i := i) h).rel, I.leaked⟩

theorem step_ok [DecidableEq α] {w : World α} {s : Nat → Option α} (I : Inv w s) (op : Op α) (hop : ¬ Spec.Bad op) :
    match Spec.step s op with
    | none => step w op = .error .assert
    | some (s', o) => ∃ w', step w op = .ok (w', o) ∧ Inv w' s' := by
  have eff : ∀ i j, i = j → Spec.upd s i (s j) = s := by
    intro i j h
    subst h
    funext k; unfold Spec.upd
    by_cases e : k = i
    · rw [if_pos e, e]
    · rw [if_neg e]
  cases op with
  | ctorEmpty i => exact I.replace (v := none) rfl
  | ctorVal i a => exact I.replace (v := some a) rfl
  | ctorCopy i j =>
    simp only [Spec.step, step, I.rel j]
    cases s j with
    | none => exact I.replace rfl
    | some a => exact I.replace (v := some a) rfl
  | ctorMove i j =>
    simp only [Spec.step, step, I.rel j]
    cases h : s j with
    | none => exact (I.put (i := j) (v := none) rfl).replace rfl
    | some a => exact (I.put (i := j) (v := none) rfl).replace (v := some a) rfl
  | assignNull i =>
    simp only [Spec.step, step, I.rel i]
    cases s i with
    | none => exact ⟨_, rfl, I.put (v := none) rfl⟩
    | some a => exact ⟨_, rfl, I.put (v := none) rfl⟩
  | assignCopy i j =>
    have hij : i ≠ j := hop
    simp only [Spec.step, step, assignCopy, I.rel i, I.rel j]
    cases s i <;> cases s j <;>
      simp only [reset, repr, destroy, copyInto, construct, read, Slot.alive, R.ok_bind, if_true, if_false, Bool.false_eq_true, hij,
        ne_eq, not_false_eq_true] <;> exact ⟨_, rfl, I.put rfl⟩
  | assignMove i j =>
    by_cases hij : i = j
    · subst hij
      simp only [Spec.step, step, assignMove, I.rel i]
      have : Spec.upd (Spec.upd s i (s i)) i none = Spec.upd s i none := by
        funext k; unfold Spec.upd; split <;> rfl
      rw [this]
      cases s i <;>
        simp only [reset, repr, destroy, Slot.alive, R.ok_bind, if_true, if_false, Bool.false_eq_true, ne_eq, not_true_eq_false] <;>
        exact ⟨_, rfl, I.put (v := none) rfl⟩
    · simp only [Spec.step, step, assignMove, I.rel i, I.rel j]
      cases s i <;> cases s j <;>
        simp only [reset, repr, destroy, moveInto, construct, take, read, Slot.alive, R.ok_bind, if_true, if_false, Bool.false_eq_true, hij,
          ne_eq, not_false_eq_true] <;> refine ⟨_, rfl, Inv.put (v := none) (Inv.put I ?_) ?_⟩ <;> rfl
  | assignVal i arg =>
    simp only [Spec.step, step, assignVal, I.rel i]
    cases arg with
    | val a =>
      simp only [Spec.argVal, Option.map_some]
      cases s i <;> exact ⟨_, rfl, (I.put (i := i) (v := some a) rfl).rel, I.leaked⟩
    | own =>
      simp only [Spec.argVal]
      cases s i with
      | none => rfl
      | some a => exact ⟨_, rfl, (I.put (i := i) (v := some a) rfl).rel, I.leaked⟩
  | emplace i arg =>
    cases arg with
    | own => exact absurd trivial hop
    | val a =>
      simp only [Spec.step, step, I.rel i, Spec.argVal, Option.map_some]
      cases s i <;> exact ⟨_, rfl, I.put (v := some a) rfl⟩
  | mapTo i j f =>
    simp only [Spec.step, step, I.rel j]
    cases s j with
    | none => exact I.replace (v := none) rfl
    | some a => exact I.replace (v := some (f a)) rfl
  | transform i f =>
    simp only [Spec.step, step, I.rel i]
    cases s i with
    | none => exact ⟨_, rfl, I.put (v := none) rfl⟩
    | some a => exact ⟨_, rfl, I.put (v := some (f a)) rfl⟩
  | value i =>
    simp only [Spec.step, step, I.rel i]
    cases s i with
    | none => rfl
    | some a => exact ⟨w, rfl, I⟩
  | valueOr i d =>
    simp only [Spec.step, step, I.rel i]
    cases s i <;> exact ⟨w, rfl, I⟩
  | hasValue i =>
    simp only [Spec.step, step, I.rel i]
    cases s i <;> exact ⟨w, rfl, I⟩
  | eq i j =>
    simp only [Spec.step, step, I.rel i, I.rel j]
    cases s i with
    | none => cases s j <;> exact ⟨w, rfl, I⟩
    | some a =>
      cases s j with
      | none => exact ⟨w, rfl, I⟩
      | some b =>
        refine ⟨w, ?_, I⟩
        simp [eq, repr, value, ccAssert, read]
  | eqVal i a =>
    simp only [Spec.step, step, I.rel i]
    cases s i with
    | none => exact ⟨w, rfl, I⟩
    | some b =>
      refine ⟨w, ?_, I⟩
      simp [eqVal, repr, value, ccAssert, read]

theorem run_ok [DecidableEq α] : ∀ {ops : List (Op α)} {w : World α} {s : Nat → Option α}, Inv w s → (∀ op ∈ ops, ¬ Spec.Bad op) →
    match Spec.run s ops with
    | none => run w ops = .error .assert
    | some (s', os) => ∃ w', run w ops = .ok (w', os) ∧ Inv w' s' := by
  intro ops
  induction ops with
  | nil => intro w s I _; exact ⟨w, rfl, I⟩
  | cons op ops ih =>
    intro w s I h
    have h1 := step_ok I op (h op List.mem_cons_self)
    rw [Spec.run, run]
    cases hs : Spec.step s op with
    | none => rw [hs] at h1; simp only at h1; rw [h1]; simp
    | some so =>
      obtain ⟨s', o⟩ := so
      rw [hs] at h1
      obtain ⟨w', e1, I'⟩ := h1
      have h2 := ih I' (fun x hx => h x (List.mem_cons_of_mem _ hx))
      rw [e1]
      simp only [R.ok_bind]
      cases hr : Spec.run s' ops with
      | none => rw [hr] at h2; simp only at h2; rw [h2]; simp
      | some so =>
        obtain ⟨s'', os⟩ := so
        rw [hr] at h2
        obtain ⟨w'', e2, I''⟩ := h2
        rw [e2]
        exact ⟨w'', rfl, I''⟩

/-- **C53 (partial)**: every history of constructions, copies, moves (also onto itself), assignments, `emplace`, `map`, `transform`, reads
and comparisons on any number of optionals behaves like the option type; no object is destroyed twice, used after its destruction or left
undestroyed. Missing: copying an optional onto itself, where it is false, and `emplace` with the optional's own value. -/
theorem C53_optional_is_option_partial [DecidableEq α] (ops : List (Op α)) (h : ∀ op ∈ ops, ¬ Spec.Bad op) :
    match Spec.run Spec.init ops with
    | none => run World.init ops = .error .assert
    | some (s, os) => ∃ w, run World.init ops = .ok (w, os) ∧ w.leaked = 0 ∧
      ∀ i, (w.opts i).has = (s i).isSome ∧ dtor (w.opts i) = .ok 0 := by
  have := run_ok (w := World.init) (s := (Spec.init : Nat → Option α)) ⟨fun _ => rfl, rfl⟩ h
  revert this
  cases Spec.run Spec.init ops with
  | none => exact id
  | some so =>
    obtain ⟨s, os⟩ := so
    rintro ⟨w, e, I⟩
    refine ⟨w, e, I.leaked, fun i => ?_⟩
    rw [I.rel i]
    exact ⟨by cases s i <;> rfl, dtor_repr _⟩

/-- A history with moves onto itself and assignment of the own value. -/
def sample : List (Op Nat) :=
  [.ctorVal 0 5, .ctorCopy 1 0, .eq 0 1, .emplace 1 (.val 7), .assignVal 1 .own, .value 1, .assignMove 2 1, .hasValue 1, .valueOr 1 9, .mapTo 3 2 (· + 1),
    .value 3, .transform 3 (· * 2), .eqVal 3 16, .assignMove 3 3, .hasValue 3, .ctorMove 4 2, .value 4, .assignCopy 4 0, .value 4, .assignNull 0, .value 0]

example : (∀ op ∈ sample, ¬ Spec.Bad op) ∧ Spec.run Spec.init sample = none ∧ (Spec.run Spec.init sample.dropLast).map (·.2) =
    some [.none, .none, .bool true, .none, .none, .elem 7, .none, .bool false, .elem 9, .none, .elem 8, .none, .bool true, .none, .bool false,
      .none, .elem 7, .none, .elem 5, .none] := by
  refine ⟨by simp [sample, Spec.Bad], by rfl, by rfl⟩

/-- **C53**, defect: `o = o` throws the value away. -/
theorem C53_self_copy_assignment_clears [DecidableEq α] {w : World α} {s : Nat → Option α} (I : Inv w s) (i : Nat) :
    ∃ w', step w (.assignCopy i i) = .ok (w', .none) ∧ Inv w' (Spec.upd s i none) := by
  simp only [step, assignCopy, I.rel i]
  cases s i <;>
    simp only [reset, repr, destroy, Slot.alive, R.ok_bind, if_true, if_false, Bool.false_eq_true, ne_eq, not_true_eq_false] <;>
    exact ⟨_, rfl, I.put (v := none) rfl⟩

/-- The same as a program: after `o = 5; o = o`, `o` is empty. -/
theorem C53_self_copy_assignment_program :
    (run (World.init : World Nat) [.ctorVal 0 5, .assignCopy 0 0, .hasValue 0]).map (·.2) = .ok [.none, .none, .bool false] ∧
    (Spec.run Spec.init [.ctorVal 0 (5 : Nat), .assignCopy 0 0, .hasValue 0]).map (·.2) = some [.none, .none, .bool true] := by
  constructor <;> rfl

/-- Beyond the property: `o.emplace(o.value())` reads the destroyed value. -/
theorem C53_emplace_own_value [DecidableEq α] {w : World α} {s : Nat → Option α} (I : Inv w s) (i : Nat) (a : α) (h : s i = some a) :
    step w (.emplace i .own) = .error .ub := by
  simp only [step, I.rel i, h]
  rfl

/-- **C53**: `less` on optionals is the order with the empty optional below all values, so it is a strict weak order whenever `less<T>` is
(stated here for the three laws). -/
theorem C53_less (lt : α → α → Bool) (a b : Option α) :
    less lt (repr a) (repr b) = .ok (match a, b with
      | none, none => false
      | none, some _ => true
      | some _, none => false
      | some x, some y => lt x y) := by
  cases a <;> cases b <;> rfl

/-- The three laws of a strict weak order carry over. -/
theorem C53_less_strict_weak (lt : α → α → Bool) (irr : ∀ x, lt x x = false) (tr : ∀ x y z, lt x y = true → lt y z = true → lt x z = true)
    (inc : ∀ x y z, lt x y = false → lt y z = false → lt x z = false) :
    (∀ a : Option α, less lt (repr a) (repr a) = .ok false) ∧
    (∀ a b c : Option α, less lt (repr a) (repr b) = .ok true → less lt (repr b) (repr c) = .ok true → less lt (repr a) (repr c) = .ok true) ∧
    (∀ a b c : Option α, less lt (repr a) (repr b) = .ok false → less lt (repr b) (repr c) = .ok false → less lt (repr a) (repr c) = .ok false) := by
  refine ⟨fun a => ?_, fun a b c => ?_, fun a b c => ?_⟩
  · rw [C53_less]; cases a <;> simp [irr]
  · rw [C53_less, C53_less, C53_less]
    cases a <;> cases b <;> cases c <;> simp
    exact tr _ _ _
  · rw [C53_less, C53_less, C53_less]
    cases a <;> cases b <;> cases c <;> simp
    exact inc _ _ _

example : less (fun x y => decide (x < y)) (repr (some 3)) (repr (some 5)) = .ok true ∧
    less (fun x y => decide (x < y)) (repr none) (repr (some 0)) = .ok true := ⟨rfl, rfl⟩

end Verif.Opt
