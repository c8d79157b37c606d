import Verif.CBox.Spec

/-! Property theorems for `cc::capped_box`: C74. -/
namespace Verif.CBox
open Mem

variable {α : Type} {B : Base}

/-- What a box looks like. A box that was the source of a move construction has lost its destructor; this happens only if not `strict`. -/
def Rel (B : Base) (strict : Prop) (b : Box α) : Option (Ty × α) → Prop
  | some (t, a) => b.slot = .live (t, a) ∧ b.ty = t ∧ (B.dtor = true → b.dtor = some t) ∧ (B.move = true → b.move = some t)
  | none => (B.dtor = true → b.slot.alive = true ∧ (b.dtor = some b.ty ∨ (¬ strict ∧ b.dtor = none))) ∧ (B.move = true → b.move = none)

/-- All variables. -/
structure Inv (B : Base) (strict : Prop) (w : World α) (s : Spec.State α) : Prop where
  rel : ∀ i, match s i with
    | none => w.vars i = none
    | some x => ∃ b, w.vars i = some b ∧ Rel B strict b x
  lost : (strict ∨ B.dtor = false) → w.lost = 0

theorem Inv.get_none {strict : Prop} {w : World α} {s : Spec.State α} (I : Inv B strict w s) {i : Nat} (h : s i = none) : w.vars i = none := by
  have := I.rel i; rw [h] at this; exact this

theorem Inv.get_some {strict : Prop} {w : World α} {s : Spec.State α} (I : Inv B strict w s) {i : Nat} {x : Option (Ty × α)}
    (h : s i = some x) : ∃ b, w.get i = .ok b ∧ Rel B strict b x := by
  have := I.rel i; rw [h] at this
  obtain ⟨b, hb, hr⟩ := this
  exact ⟨b, by simp [World.get, hb], hr⟩

theorem Inv.put {strict : Prop} {w : World α} {s : Spec.State α} (I : Inv B strict w s) {i : Nat} {b : Box α} {x : Option (Ty × α)} {l : Nat}
    (h : Rel B strict b x) (hl : (strict ∨ B.dtor = false) → l = 0) : Inv B strict (w.put i (some b) l) (Spec.upd s i (some x)) := by
  refine ⟨fun j => ?_, fun hs => ?_⟩
  · unfold World.put Spec.upd
    by_cases e : j = i
    · simp only [e, if_true]; exact ⟨b, rfl, h⟩
    · simp only [e, if_false]; exact I.rel j
  · simp [World.put, I.lost hs, hl hs]

theorem Inv.del {strict : Prop} {w : World α} {s : Spec.State α} (I : Inv B strict w s) {i : Nat} {l : Nat}
    (hl : (strict ∨ B.dtor = false) → l = 0) : Inv B strict (w.put i none l) (Spec.upd s i none) := by
  refine ⟨fun j => ?_, fun hs => ?_⟩
  · unfold World.put Spec.upd
    by_cases e : j = i
    · simp [e]
    · simp only [e, if_false]; exact I.rel j
  · simp [World.put, I.lost hs, hl hs]

/-- After the destructor: nothing is left to destroy, if nothing was lost before. -/
theorem callDtor_ok {strict : Prop} {b : Box α} {x : Option (Ty × α)} (h : Rel B strict b x) :
    ∃ b', callDtor B b = .ok b' ∧ (B.dtor = true → strict → b'.slot.alive = false) ∧ b'.dtor = b.dtor ∧ b'.move = b.move := by
  unfold callDtor
  cases hd : B.dtor with
  | false => exact ⟨b, rfl, by simp, rfl, rfl⟩
  | true =>
    rw [if_pos rfl]
    cases x with
    | some p =>
      obtain ⟨t, a⟩ := p
      obtain ⟨h1, h2, h3, h4⟩ := h
      rw [h3 hd]
      simp only [h1, h2, Slot.alive, and_self, if_true]
      exact ⟨_, rfl, fun _ _ => rfl, by simp [h3 hd], rfl⟩
    | none =>
      obtain ⟨h1, h2⟩ := h.1 hd
      rcases h2 with h3 | ⟨h3, h4⟩
      · rw [h3]
        simp only [h1, and_self, if_true]
        exact ⟨_, rfl, fun _ _ => rfl, by simp [h3], rfl⟩
      · rw [h4]
        exact ⟨b, rfl, fun _ hs => absurd hs h3, by rw [h4], rfl⟩

theorem construct_lost {strict : Prop} {b : Box α} (h : B.dtor = true → strict → b.slot.alive = false) (t : Ty) (a : α) :
    (strict ∨ B.dtor = false) → (construct B b t a).2 = 0 := by
  intro hs
  unfold construct
  cases hd : B.dtor with
  | false => simp
  | true =>
    rcases hs with hs | hs
    · simp [h hd hs]
    · rw [hd] at hs; cases hs

theorem rel_init (strict : Prop) (b : Box α) (t : Ty) (a : α) : Rel B strict (initType B (construct B b t a).1 t) (some (t, a)) := by
  refine ⟨rfl, rfl, fun hd => ?_, fun hm => ?_⟩
  · simp [initType, hd]
  · simp [initType, hm]

theorem assignFrom_ok {strict : Prop} {b : Box α} {x : Option (Ty × α)} (h : Rel B strict b x) (t : Ty) (a : α) :
    ∃ b' l, assignFrom B b t a = .ok (b', l) ∧ Rel B strict b' (some (t, a)) ∧ ((strict ∨ B.dtor = false) → l = 0) := by
  obtain ⟨b1, e, hl, -, -⟩ := callDtor_ok h
  unfold assignFrom
  rw [e]
  exact ⟨_, _, rfl, rel_init strict b1 t a, construct_lost hl t a⟩

/-- Taking over a box with an object. -/
theorem takeOver_ok {strict : Prop} {b src : Box α} {t : Ty} {a : α} (hb : B.dtor = true → B.move = true) (h : Rel B strict src (some (t, a)))
    (hl : B.dtor = true → strict → b.slot.alive = false) :
    ∃ b' src' l, takeOver B b src = .ok (b', src', l) ∧ b'.slot = .live (t, a) ∧ b'.ty = t ∧ (B.move = true → b'.move = some t) ∧
      b'.dtor = b.dtor ∧ src'.slot.alive = true ∧ src'.ty = t ∧ src'.dtor = src.dtor ∧ ((strict ∨ B.dtor = false) → l = 0) ∧ (B.move = true → src'.move = none) := by
  obtain ⟨h1, h2, h3, h4⟩ := h
  unfold takeOver
  cases hm : B.move with
  | false =>
    rw [if_neg (by simp)]
    have hd : B.dtor = false := by
      cases hd : B.dtor with
      | false => rfl
      | true => have := hb hd; rw [hm] at this; cases this
    refine ⟨_, _, _, rfl, h1, h2, by simp, rfl, by rw [h1]; rfl, h2, rfl, ?_, by simp⟩
    intro _; simp [hd]
  | true =>
    rw [if_pos rfl, h4 hm]
    simp only [h1, if_true]
    exact ⟨_, _, _, rfl, rfl, rfl, fun _ => rfl, rfl, rfl, h2, rfl, construct_lost hl t a, fun _ => rfl⟩

/-- Taking over a moved-from box of a type without destructor. -/
theorem takeOver_moved {strict : Prop} {b src : Box α} (hd : B.dtor = false) (h : Rel B strict src none) :
    ∃ b' src', takeOver B b src = .ok (b', src', 0) ∧ Rel B strict b' none ∧ Rel B strict src' none := by
  unfold takeOver
  cases hm : B.move with
  | false =>
    rw [if_neg (by simp)]
    refine ⟨_, _, by rw [hd]; rfl, ⟨(fun h => by rw [hd] at h; cases h), (fun h => by rw [hm] at h; cases h)⟩, h⟩
  | true =>
    rw [if_pos rfl, h.2 hm]
    exact ⟨_, _, rfl, ⟨(fun h => by rw [hd] at h; cases h), fun _ => rfl⟩, ⟨(fun h => by rw [hd] at h; cases h), fun _ => rfl⟩⟩

theorem step_ok {strict : Prop} (hb : B.dtor = true → B.move = true) {w : World α} {s s' : Spec.State α} {o : Option (Ty × α)} (I : Inv B strict w s)
    {op : Op α} (hc : Spec.Covered B s op) (hs : strict → Spec.isCtorMove op = false) (h : Spec.step s op = some (s', o)) :
    ∃ w', step B w op = .ok (w', o) ∧ Inv B strict w' s' := by
  cases op with
  | ctorFrom i t a =>
    simp only [Spec.step] at h
    by_cases hi : s i = none
    · rw [if_pos hi] at h
      simp only [Option.some.injEq, Prod.mk.injEq] at h
      obtain ⟨rfl, rfl⟩ := h
      refine ⟨_, rfl, I.put (rel_init strict _ t a) ?_⟩
      intro _
      simp [ctorFrom, construct, Box.raw, Slot.alive]
    · rw [if_neg hi] at h; cases h
  | ctorMove i j =>
    simp only [Spec.step] at h
    cases hi : s i with
    | some _ => rw [hi] at h; cases h
    | none =>
      cases hj : s j with
      | none => rw [hi, hj] at h; cases h
      | some x =>
        cases x with
        | none =>
          have hd : B.dtor = false := hc.resolve_right (fun h => h hj)
          rw [hi, hj] at h
          simp only [Option.some.injEq, Prod.mk.injEq] at h
          obtain ⟨rfl, rfl⟩ := h
          obtain ⟨b, eb, hr⟩ := I.get_some hj
          obtain ⟨b', src', et, k1, k2⟩ := takeOver_moved (b := Box.raw) hd hr
          simp only [step, eb, R.ok_bind, ctorMove, et]
          have hd' : ¬ B.dtor = true := by rw [hd]; simp
          simp only [if_neg hd']
          exact ⟨_, rfl, (I.put (i := j) k2 (fun _ => rfl)).put k1 (fun _ => rfl)⟩
        | some p =>
          obtain ⟨t, a⟩ := p
          rw [hi, hj] at h
          simp only [Option.some.injEq, Prod.mk.injEq] at h
          obtain ⟨rfl, rfl⟩ := h
          obtain ⟨b, eb, hr⟩ := I.get_some hj
          obtain ⟨b', src', l, et, k1, k2, k3, k4, k5, k6, k7, k8, k9⟩ :=
            takeOver_ok (b := Box.raw) hb hr (by intro _ _; rfl)
          simp only [step, eb, R.ok_bind, ctorMove, et]
          have hns : ¬ strict := fun hst => by have := hs hst; simp [Spec.isCtorMove] at this
          by_cases hd : B.dtor = true
          · simp only [if_pos hd]
            have hrel : Rel B strict { b' with dtor := src'.dtor } (some (t, a)) :=
              ⟨k1, k2, fun _ => by rw [show src'.dtor = _ from k7]; exact hr.2.2.1 hd, k3⟩
            have hsrc : Rel B strict { src' with dtor := none } none := ⟨fun _ => ⟨k5, Or.inr ⟨hns, rfl⟩⟩, k9⟩
            exact ⟨_, rfl, (I.put (i := j) hsrc (fun _ => rfl)).put hrel k8⟩
          · simp only [if_neg hd]
            have hrel : Rel B strict b' (some (t, a)) := ⟨k1, k2, fun h => absurd h hd, k3⟩
            have hsrc : Rel B strict src' none := ⟨fun h => absurd h hd, k9⟩
            exact ⟨_, rfl, (I.put (i := j) hsrc (fun _ => rfl)).put hrel k8⟩
  | assignFrom i t a =>
    simp only [Spec.step, Option.map_eq_some_iff] at h
    obtain ⟨x, hi, h⟩ := h
    simp only [Prod.mk.injEq] at h
    obtain ⟨rfl, rfl⟩ := h
    obtain ⟨b, eb, hr⟩ := I.get_some hi
    obtain ⟨b', l, e, hr', hl⟩ := assignFrom_ok hr t a
    simp only [step, eb, R.ok_bind, e]
    exact ⟨_, rfl, I.put hr' hl⟩
  | emplace i t a =>
    simp only [Spec.step, Option.map_eq_some_iff] at h
    obtain ⟨x, hi, h⟩ := h
    simp only [Prod.mk.injEq] at h
    obtain ⟨rfl, rfl⟩ := h
    obtain ⟨b, eb, hr⟩ := I.get_some hi
    obtain ⟨b', l, e, hr', hl⟩ := assignFrom_ok hr t a
    simp only [step, eb, R.ok_bind, e]
    exact ⟨_, rfl, I.put hr' hl⟩
  | emplaceOwn i t => exact absurd hc (by simp [Spec.Covered])
  | assignMove i j =>
    obtain ⟨hij, hcj⟩ := hc
    simp only [Spec.step] at h
    cases hi : s i with
    | none => rw [hi] at h; cases h
    | some y =>
      cases hj : s j with
      | none => rw [hi, hj] at h; cases h
      | some x =>
        cases x with
        | none =>
          have hd : B.dtor = false := hcj.resolve_right (fun h => h hj)
          rw [hi, hj] at h
          simp only [if_neg hij, Option.some.injEq, Prod.mk.injEq] at h
          obtain ⟨rfl, rfl⟩ := h
          obtain ⟨b, eb, hr⟩ := I.get_some hi
          obtain ⟨c, ec, hr2⟩ := I.get_some hj
          obtain ⟨b1, e1, -, -, -⟩ := callDtor_ok hr
          obtain ⟨b', src', et, k1, k2⟩ := takeOver_moved (b := if B.dtor then { b1 with dtor := c.dtor } else b1) hd hr2
          simp only [step, eb, R.ok_bind, if_neg hij, ec, assignMove, e1, et]
          exact ⟨_, rfl, (I.put (i := j) k2 (fun _ => rfl)).put k1 (fun _ => rfl)⟩
        | some p =>
          obtain ⟨t, a⟩ := p
          rw [hi, hj] at h
          simp only [if_neg hij, Option.some.injEq, Prod.mk.injEq] at h
          obtain ⟨rfl, rfl⟩ := h
          obtain ⟨b, eb, hr⟩ := I.get_some hi
          obtain ⟨c, ec, hr2⟩ := I.get_some hj
          obtain ⟨b1, e1, hl, -, -⟩ := callDtor_ok hr
          obtain ⟨b', src', l, et, k1, k2, k3, k4, k5, k6, k7, k8, k9⟩ :=
            takeOver_ok (b := if B.dtor then { b1 with dtor := c.dtor } else b1) hb hr2 (by
              intro hd hst
              rw [if_pos hd]; exact hl hd hst)
          simp only [step, eb, R.ok_bind, if_neg hij, ec, assignMove, e1, et]
          refine ⟨_, rfl, (I.put (i := j) (x := none) ⟨fun hd => ⟨k5, Or.inl ?_⟩, k9⟩ (fun _ => rfl)).put ⟨k1, k2, fun hd => ?_, k3⟩ k8⟩
          · rw [k7, k6]; exact hr2.2.2.1 hd
          · rw [k4, if_pos hd]; exact hr2.2.2.1 hd
  | deref i =>
    simp only [Spec.step] at h
    cases hi : s i with
    | none => rw [hi] at h; cases h
    | some x =>
      cases x with
      | none => rw [hi] at h; cases h
      | some p =>
        rw [hi] at h
        simp only [Option.some.injEq, Prod.mk.injEq] at h
        obtain ⟨rfl, rfl⟩ := h
        obtain ⟨b, eb, hr⟩ := I.get_some hi
        simp only [step, eb, R.ok_bind, deref, hr.1]
        exact ⟨w, rfl, I⟩
  | destroy i =>
    simp only [Spec.step, Option.map_eq_some_iff] at h
    obtain ⟨x, hi, h⟩ := h
    simp only [Prod.mk.injEq] at h
    obtain ⟨rfl, rfl⟩ := h
    obtain ⟨b, eb, hr⟩ := I.get_some hi
    obtain ⟨b1, e1, hl, -, -⟩ := callDtor_ok hr
    simp only [step, eb, R.ok_bind, dtor, e1]
    refine ⟨_, rfl, I.del ?_⟩
    intro hst
    cases hd : B.dtor with
    | false => simp
    | true =>
      rcases hst with hst | hst
      · simp [hl hd hst]
      · rw [hd] at hst; cases hst

theorem run_ok {strict : Prop} (hb : B.dtor = true → B.move = true) (ops : List (Op α)) : ∀ {w : World α} {s s' : Spec.State α}
    {os : List (Option (Ty × α))}, Inv B strict w s → Spec.AllCovered B s ops → (strict → ∀ op ∈ ops, Spec.isCtorMove op = false) →
    Spec.run s ops = some (s', os) → ∃ w', run B w ops = .ok (w', os) ∧ Inv B strict w' s' := by
  induction ops with
  | nil =>
    intro w s s' os I _ _ h
    simp only [Spec.run, Option.some.injEq, Prod.mk.injEq] at h
    obtain ⟨rfl, rfl⟩ := h
    exact ⟨w, rfl, I⟩
  | cons op ops ih =>
    intro w s s' os I hc hs h
    simp only [Spec.run, Option.bind_eq_bind, Option.bind_eq_some_iff] at h
    obtain ⟨⟨s1, o⟩, h1, ⟨s2, os2⟩, h2, h3⟩ := h
    simp only [Option.some.injEq, Prod.mk.injEq] at h3
    obtain ⟨rfl, rfl⟩ := h3
    obtain ⟨w1, e1, I1⟩ := step_ok hb I hc.1 (fun hst => hs hst op (by simp)) h1
    obtain ⟨w2, e2, I2⟩ := ih I1 (hc.2 _ _ h1) (fun hst op hop => hs hst op (by simp [hop])) h2
    simp only [run, e1, R.ok_bind, e2]
    exact ⟨w2, rfl, I2⟩

theorem Inv.init (B : Base) (strict : Prop) : Inv B strict (World.init : World α) (fun _ => none) := ⟨fun _ => rfl, fun _ => rfl⟩

/-- **C74**, partial: contents. For every legal history (any number of boxes, any base type) that does not move from a moved-from box (allowed if the base type has no destructor), into the box
itself, or emplace a box's own object: there is no undefined behaviour, every access sees the object last put into the box, and afterwards the boxes
hold the objects the specification says. (A base type with a destructor is not trivially movable in C++.) -/
theorem C74_contents_partial (hb : B.dtor = true → B.move = true) (ops : List (Op α)) (hc : Spec.AllCovered B (fun _ => none) ops)
    {s : Spec.State α} {os : List (Option (Ty × α))} (h : Spec.run (fun _ => none) ops = some (s, os)) :
    ∃ w, run B World.init ops = .ok (w, os) ∧ ∀ i x, s i = some (some x) → ∃ b, w.vars i = some b ∧ deref b = .ok x := by
  obtain ⟨w, e, I⟩ := run_ok (strict := False) hb ops (Inv.init B False) hc (by simp) h
  refine ⟨w, e, fun i x hi => ?_⟩
  have := I.rel i
  rw [hi] at this
  obtain ⟨b, hb1, hr⟩ := this
  exact ⟨b, hb1, by simp [deref, hr.1]⟩

/-- **C74**, partial: lifetimes. If in addition no box is move constructed, or the base type has no destructor, no object is ever lost without its
destructor. Missing: `C74_move_construction_loses`. -/
theorem C74_lifetimes_partial (hb : B.dtor = true → B.move = true) (ops : List (Op α)) (hc : Spec.AllCovered B (fun _ => none) ops)
    (hm : B.dtor = false ∨ ∀ op ∈ ops, Spec.isCtorMove op = false)
    {s : Spec.State α} {os : List (Option (Ty × α))} (h : Spec.run (fun _ => none) ops = some (s, os)) :
    ∃ w, run B World.init ops = .ok (w, os) ∧ w.lost = 0 := by
  rcases hm with hd | hm
  · obtain ⟨w, e, I⟩ := run_ok (strict := False) hb ops (Inv.init B False) hc (by simp) h
    exact ⟨w, e, I.lost (Or.inr hd)⟩
  · obtain ⟨w, e, I⟩ := run_ok (strict := True) hb ops (Inv.init B True) hc (fun _ => hm) h
    exact ⟨w, e, I.lost (Or.inl trivial)⟩

/-- Used in the examples. -/
def demoOps : List (Op Nat) :=
  [.ctorFrom 0 1 10, .ctorFrom 1 2 20, .assignMove 0 1, .deref 0, .assignFrom 1 3 30, .emplace 0 4 40, .assignMove 1 0, .deref 1, .destroy 0, .destroy 1]

example : Spec.AllCovered ⟨true, true⟩ (fun _ => none) demoOps ∧
    (Spec.run (fun _ => none) demoOps).map (fun p => p.2) =
      some [none, none, none, some (2, 20), none, none, none, some (4, 40), none, none] ∧
    (∀ op ∈ demoOps, Spec.isCtorMove op = false) := by
  refine ⟨?_, by decide +kernel, by decide +kernel⟩
  simp only [demoOps, Spec.AllCovered, Spec.Covered, true_and, and_true]
  simp [Spec.step, Spec.upd]

/-- Without a destructor moved-from boxes can be moved again. -/
example : Spec.AllCovered ⟨false, true⟩ (fun _ => none) [.ctorFrom 0 1 10, .ctorMove 1 0, .ctorMove 2 0, .assignMove 1 0, .assignFrom 2 3 (30 : Nat), .deref 2] ∧
    (Spec.run (fun _ => none) [.ctorFrom 0 1 10, .ctorMove 1 0, .ctorMove 2 0, .assignMove 1 0, .assignFrom 2 3 (30 : Nat), .deref 2]).map (fun p => p.2) =
      some [none, none, none, none, none, some (3, 30)] := by
  refine ⟨?_, by decide +kernel⟩
  simp [Spec.AllCovered, Spec.Covered]

/-- **C74**, negation of the full property, for every type and value: move construction takes away the destructor function of the source although the
moved-from object is still in it, so this object is never destroyed. -/
theorem C74_move_construction_loses (t : Ty) (a : α) :
    (run ⟨true, true⟩ World.init [.ctorFrom 0 t a, .ctorMove 1 0, .destroy 0, .destroy 1]).map (fun p => p.1.lost) = .ok 1 ∧
    (Spec.run (fun _ => none) [.ctorFrom 0 t a, .ctorMove 1 0, .destroy 0, .destroy 1]).map (fun p => p.2) =
      some [none, none, none, none] := by
  constructor
  · simp [run, step, World.get, World.put, World.init, ctorFrom, construct, initType, ctorMove, takeOver, dtor, callDtor, Box.raw, Slot.alive, Except.map]
  · simp [Spec.run, Spec.step, Spec.upd]

/-- **C74**, negation of the full property: a box that has been assigned from a box that was assigned away before believes that it holds an object; its
destructor destroys a destroyed object. -/
theorem C74_moved_from_source_destroys_twice (t : Ty) (a : α) :
    (run ⟨true, true⟩ World.init [.ctorFrom 0 t a, .ctorFrom 1 t a, .ctorFrom 2 t a, .assignMove 1 0, .assignMove 2 0, .destroy 2]).map (fun p => p.2) =
      .error .ub ∧
    (run ⟨true, true⟩ World.init [.ctorFrom 0 t a, .ctorFrom 1 t a, .assignMove 1 0, .ctorMove 2 0, .destroy 2]).map (fun p => p.2) =
      .error .ub ∧
    (Spec.run (fun _ => none) [.ctorFrom 0 t a, .ctorFrom 1 t a, .ctorFrom 2 t a, .assignMove 1 0, .assignMove 2 0, .destroy 2]).map (fun p => p.2) =
      some [none, none, none, none, none, none] := by
  refine ⟨?_, ?_, ?_⟩
  · simp [run, step, World.get, World.put, World.init, ctorFrom, construct, initType, assignMove, takeOver, dtor, callDtor, Box.raw, Slot.alive, Except.map]
  · simp [run, step, World.get, World.put, World.init, ctorFrom, construct, initType, assignMove, ctorMove, takeOver, dtor, callDtor, Box.raw, Slot.alive, Except.map]
  · simp [Spec.run, Spec.step, Spec.upd]

/-- **C74**, negation of the full property: moving a box into itself and emplacing a box's own object read a destroyed object. -/
theorem C74_own_object_is_dead (t : Ty) (a : α) :
    (run ⟨true, true⟩ World.init [.ctorFrom 0 t a, .assignMove 0 0]).map (fun p => p.2) = .error .ub ∧
    (run ⟨true, true⟩ World.init [.ctorFrom 0 t a, .emplaceOwn 0 t]).map (fun p => p.2) = .error .ub ∧
    (Spec.run (fun _ => none) [.ctorFrom 0 t a, .emplaceOwn 0 t, .deref 0]).map (fun p => p.2) = some [none, none, some (t, a)] ∧
    (Spec.run (fun _ => none) [.ctorFrom 0 t a, .assignMove 0 0, .assignFrom 0 t a, .deref 0]).map (fun p => p.2) =
      some [none, none, none, some (t, a)] := by
  refine ⟨?_, ?_, ?_, ?_⟩
  · simp [run, step, World.get, World.put, World.init, ctorFrom, construct, initType, selfAssignMove, callDtor, Box.raw, Slot.alive, Except.map]
  · simp [run, step, World.get, World.put, World.init, ctorFrom, construct, initType, emplaceOwn, callDtor, Box.raw, Slot.alive, Except.map]
  · simp [Spec.run, Spec.step, Spec.upd]
  · simp [Spec.run, Spec.step, Spec.upd]

end Verif.CBox
