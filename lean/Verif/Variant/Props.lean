import Verif.Variant.Spec

/-! Property theorems for `cc::variant`: C54. -/
namespace Verif.Variant

open Mem

variable {α : Type} {types : List Ty}

/-! ### the index functions -/

theorem indexLoop_mem (t : Ty) : ∀ (ts : List Ty) (i : Int), t ∈ ts → indexLoop (.plain t) i ts = i + 1 + ts.idxOf t := by
  intro ts
  induction ts with
  | nil => intro i h; cases h
  | cons u ts ih =>
    intro i h
    rw [indexLoop]
    by_cases e : t = u
    · subst e; simp
    · have hm : t ∈ ts := by
        rcases List.mem_cons.1 h with h | h
        · exact absurd h e
        · exact h
      have hb : (u == t) = false := by simpa using fun h => e h.symm
      rw [if_neg (fun h => e (Deduced.plain.inj h)), ih _ hm, List.idxOf_cons, hb]
      simp only [cond_false]
      omega

theorem indexLoop_not_mem (T : Deduced) : ∀ (ts : List Ty) (i : Int), (∀ t ∈ ts, T ≠ .plain t) → indexLoop T i ts = i + ts.length := by
  intro ts
  induction ts with
  | nil => intro i h; simp [indexLoop]
  | cons u ts ih =>
    intro i h
    rw [indexLoop, if_neg (h u List.mem_cons_self), ih _ (fun t ht => h t (List.mem_cons_of_mem _ ht))]
    simp only [List.length_cons]
    omega

theorem indexOfType_mem {t : Ty} (h : t ∈ types) : indexOfType (.plain t) types = types.idxOf t := by
  have h1 := List.idxOf_lt_length_of_mem h
  unfold indexOfType
  rw [indexLoop_mem t types (-1) h]
  simp only
  rw [if_neg (by omega)]
  omega

/-- `index_of_type` never answers "not found": for a type that is not among the alternatives it gives the index of the last one. -/
theorem indexOfType_not_mem {T : Deduced} (h : ∀ t ∈ types, T ≠ .plain t) : indexOfType T types = types.length - 1 := by
  unfold indexOfType
  rw [indexLoop_not_mem T types (-1) h]
  simp only
  rw [if_neg (by omega)]
  omega

theorem destroyAlt_eq : ∀ (ts : List Ty) (i : Nat), destroyAlt ts i = ts[i]?
  | [], i => by simp [destroyAlt]
  | t :: ts, 0 => by simp [destroyAlt]
  | t :: ts, i + 1 => by rw [destroyAlt, destroyAlt_eq ts i]; simp

theorem visitAlt_eq : ∀ (ts : List Ty) (i : Nat), i < ts.length → visitAlt ts i = ts[i]?
  | [], i, h => by simp at h
  | [t], i, h => by have : i = 0 := by simpa using h
                    subst this; rfl
  | t :: u :: ts, 0, _ => rfl
  | t :: u :: ts, i + 1, h => by
    rw [visitAlt, visitAlt_eq (u :: ts) i (by simpa using h)]; simp

theorem getElem_idxOf {t : Ty} (h : t ∈ types) : types[types.idxOf t]? = some t := by
  rw [List.getElem?_eq_getElem (List.idxOf_lt_length_of_mem h), List.getElem_idxOf]

/-! ### the invariant -/

/-- The storage of a variant that holds a value of type `t` (moved-from if the value is `none`). -/
def repr (types : List Ty) (x : Ty × Option α) : Var α :=
  { idx := types.idxOf x.1, slot := (match x.2 with | some a => Slot.live (x.1, a) | none => Slot.moved), ty := x.1 }

/-- All variables hold what the specification says and nothing has leaked. -/
structure Inv (types : List Ty) (w : World α) (s : Spec.State α) : Prop where
  mem : ∀ i, (s i).1 ∈ types
  rel : ∀ i, w.vars i = repr types (s i)
  leaked : w.leaked = 0

theorem Inv.put {w : World α} {s : Spec.State α} (I : Inv types w s) {i : Nat} {v : Var α} {x : Ty × Option α} (hm : x.1 ∈ types)
    (h : v = repr types x) : Inv types (w.put i v) (Spec.upd s i x) := by
  refine ⟨fun j => ?_, fun j => ?_, I.leaked⟩
  · unfold Spec.upd
    split
    · exact hm
    · exact I.mem j
  · unfold World.put Spec.upd
    by_cases e : j = i
    · simp [e, h]
    · simp [e, I.rel j]

theorem destroy_repr {x : Ty × Option α} (h : x.1 ∈ types) : destroy types (repr types x) = .ok Slot.raw := by
  unfold destroy repr
  rw [destroyAlt_eq, getElem_idxOf h]
  obtain ⟨t, a⟩ := x
  cases a <;> simp [Slot.alive]

theorem dtor_repr {x : Ty × Option α} (h : x.1 ∈ types) : dtor types (repr types x) = .ok 0 := by
  unfold dtor
  rw [destroy_repr h]
  rfl

theorem visit_repr {x : Ty × Option α} (h : x.1 ∈ types) : visit types (repr types x) = (Spec.known x.2).map (fun a => (x.1, a)) := by
  unfold visit
  simp only [repr]
  rw [visitAlt_eq _ _ (List.idxOf_lt_length_of_mem h), getElem_idxOf h]
  obtain ⟨t, a⟩ := x
  cases a <;> simp [readAs, Spec.known, Except.map]

theorem is_repr {x : Ty × Option α} (h : x.1 ∈ types) {t : Ty} (ht : t ∈ types) : is types (repr types x) t = (x.1 == t) := by
  unfold is
  rw [indexOfType_mem ht]
  change decide (((types.idxOf x.1 : Nat) : Int) = types.idxOf t) = (x.1 == t)
  by_cases e : x.1 = t
  · simp [e]
  · have : types.idxOf x.1 ≠ types.idxOf t := by
      intro h2
      have h3 := getElem_idxOf h
      rw [h2, getElem_idxOf ht] at h3
      exact e (Option.some.inj h3).symm
    rw [decide_eq_false (by omega)]
    simp [e]

theorem readAs_repr {x : Ty × Option α} : readAs (repr types x) x.1 = Spec.known x.2 := by
  obtain ⟨t, a⟩ := x
  cases a <;> simp [readAs, repr, Spec.known]

theorem idx_mod (hlen : types.length ≤ 256) {t : Ty} (h : t ∈ types) : (indexOfType (.plain t) types).toNat % 256 = types.idxOf t := by
  rw [indexOfType_mem h]
  have := List.idxOf_lt_length_of_mem h
  omega

theorem emplace_repr (hlen : types.length ≤ 256) {x : Ty × Option α} (h : x.1 ∈ types) {t : Ty} (ht : t ∈ types) (a : α) :
    emplace types (repr types x) t a = .ok (repr types (t, some a)) := by
  unfold emplace
  rw [destroy_repr h, R.ok_bind, idx_mod hlen ht]
  rfl

theorem Inv.replace {w : World α} {s : Spec.State α} (I : Inv types w s) {i : Nat} {v : Var α} {x : Ty × Option α} (hm : x.1 ∈ types)
    (h : v = repr types x) : ∃ w', w.replace types i v = .ok (w', .none) ∧ Inv types w' (Spec.upd s i x) := by
  unfold World.replace
  rw [I.rel i, dtor_repr (I.mem i)]
  exact ⟨_, rfl, I.put hm h⟩

/-- The outcome of a call agrees with the specification's. -/
def Agree (types : List Ty) (r : R (World α × Obs α)) : R (Spec.State α × Obs α) → Prop
  | .error f => r = .error f
  | .ok (s, o) => ∃ w, r = .ok (w, o) ∧ Inv types w s

theorem step_ok (hlen : types.length ≤ 256) {first : Ty} {rest : List Ty} (ht : types = first :: rest) (d : α) {w : World α} {s : Spec.State α}
    (I : Inv types w s) (op : Op α) (hty : Spec.Typed types op) (hop : ¬ Spec.Bad op) :
    Agree types (step types d w op) (Spec.step first d s op) := by
  cases op with
  | ctorDefault i =>
    have hf : first ∈ types := by rw [ht]; exact List.mem_cons_self
    have e : ctorDefault types d = .ok (repr types (first, some d)) := by
      rw [ht]; simp [ctorDefault, implEmplace, repr, Slot.alive]
    simp only [step, Spec.step, e, R.ok_bind]
    exact I.replace hf rfl
  | ctorFrom i T a =>
    cases T with
    | lref t => exact absurd trivial hop
    | plain t =>
      have hm : t ∈ types := hty
      have e : ctorFrom types (.plain t) a = .ok (repr types (t, some a)) := by
        unfold ctorFrom
        simp only [idx_mod hlen hm]
        rfl
      simp only [step, Spec.step, e, R.ok_bind]
      exact I.replace hm rfl
  | ctorCopy i j =>
    simp only [step, Spec.step, ctorCopy, I.rel j, visit_repr (I.mem j)]
    cases hx : (s j).2 with
    | none => rfl
    | some a =>
      simp only [Spec.known, Except.map, R.ok_bind, idx_mod hlen (I.mem j)]
      exact I.replace (I.mem j) rfl
  | ctorMove i j =>
    simp only [step, Spec.step, ctorMove, I.rel j, visit_repr (I.mem j)]
    cases hx : (s j).2 with
    | none => rfl
    | some a =>
      simp only [Spec.known, Except.map, R.ok_bind, idx_mod hlen (I.mem j)]
      exact (I.put (i := j) (x := ((s j).1, none)) (I.mem j) rfl).replace (I.mem j) rfl
  | assignFrom i T a =>
    simp only [step, Spec.step, I.rel i, emplace_repr hlen (I.mem i) hty, R.ok_bind]
    exact ⟨_, rfl, I.put hty rfl⟩
  | assignOwn i t => exact absurd trivial hop
  | assignCopy i j =>
    have hij : i ≠ j := hop
    simp only [step, Spec.step, assignCopy, I.rel j, visit_repr (I.mem j)]
    cases hx : (s j).2 with
    | none => rfl
    | some a =>
      simp only [Spec.known, Except.map, R.ok_bind, if_neg hij, I.rel i, emplace_repr hlen (I.mem i) (I.mem j)]
      exact ⟨_, rfl, I.put (I.mem j) rfl⟩
  | assignMove i j =>
    have hij : i ≠ j := hop
    simp only [step, Spec.step, assignMove, I.rel j, visit_repr (I.mem j)]
    cases hx : (s j).2 with
    | none => rfl
    | some a =>
      simp only [Spec.known, Except.map, R.ok_bind, if_neg hij, I.rel i, emplace_repr hlen (I.mem i) (I.mem j)]
      exact ⟨_, rfl, (I.put (x := ((s j).1, some a)) (I.mem j) rfl).put (x := ((s j).1, none)) (I.mem j) rfl⟩
  | is i t =>
    have hm : t ∈ types := hty
    simp only [step, Spec.step, I.rel i, is_repr (I.mem i) hm]
    exact ⟨w, rfl, I⟩
  | get i t =>
    have hm : t ∈ types := hty
    simp only [step, Spec.step, get, I.rel i, is_repr (I.mem i) hm]
    by_cases e : (s i).1 = t
    · subst e
      rw [ccAssert_true (by simp), R.ok_bind, R.ok_bind, readAs_repr]
      cases hx : (s i).2 with
      | none => rfl
      | some a => exact ⟨w, rfl, I⟩
    · rw [ccAssert_false (by simpa using e)]
      rfl
  | getOr i t d' =>
    have hm : t ∈ types := hty
    simp only [step, Spec.step, getOr, get, I.rel i, is_repr (I.mem i) hm]
    by_cases e : (s i).1 = t
    · subst e
      rw [if_pos (by simp), if_pos rfl, ccAssert_true (by simp), R.ok_bind, readAs_repr]
      cases hx : (s i).2 with
      | none => rfl
      | some a => exact ⟨w, rfl, I⟩
    · rw [if_neg (by simpa using e), if_neg e]
      exact ⟨w, rfl, I⟩
  | visit i =>
    simp only [step, Spec.step, I.rel i, visit_repr (I.mem i)]
    cases hx : (s i).2 with
    | none => rfl
    | some a => exact ⟨w, rfl, I⟩

theorem run_ok (hlen : types.length ≤ 256) {first : Ty} {rest : List Ty} (ht : types = first :: rest) (d : α) :
    ∀ {ops : List (Op α)} {w : World α} {s : Spec.State α}, Inv types w s → (∀ op ∈ ops, Spec.Typed types op ∧ ¬ Spec.Bad op) →
    match Spec.run first d s ops with
    | .error f => run types d w ops = .error f
    | .ok (s', os) => ∃ w', run types d w ops = .ok (w', os) ∧ Inv types w' s' := by
  intro ops
  induction ops with
  | nil => intro w s I _; exact ⟨w, rfl, I⟩
  | cons op ops ih =>
    intro w s I h
    have hh := h op List.mem_cons_self
    have h1 := step_ok hlen ht d I op hh.1 hh.2
    rw [Spec.run, run]
    cases hs : Spec.step first d s op with
    | error f =>
      rw [hs] at h1
      have h1 : step types d w op = .error f := h1
      rw [h1]; simp
    | ok so =>
      obtain ⟨s', o⟩ := so
      rw [hs] at h1
      obtain ⟨w', e1, I'⟩ := h1
      have h2 := ih I' (fun x hx => h x (List.mem_cons_of_mem _ hx))
      rw [e1]
      simp only [R.ok_bind]
      cases hr : Spec.run first d s' ops with
      | error f => rw [hr] at h2; simp only at h2; rw [h2]; simp
      | ok so =>
        obtain ⟨s'', os⟩ := so
        rw [hr] at h2
        obtain ⟨w'', e2, I''⟩ := h2
        rw [e2]
        exact ⟨w'', rfl, I''⟩

/-- **C54 (partial)**: for every list of up to 256 alternatives and every history of constructions, copies, moves, assignments and queries
on any number of variants: `is<T>` is true exactly for the type last stored, `get` and `visit` see the value last stored, a wrong `get` trips
the assertion, and each object is destroyed exactly once by the destructor of its own type, at the end too. Missing: construction from an
lvalue, and assigning a variant (or its own value) to itself, where it is false; `is` of a type that is no alternative. -/
theorem C54_variant_partial (first : Ty) (rest : List Ty) (hlen : (first :: rest).length ≤ 256) (d : α) (ops : List (Op α))
    (h : ∀ op ∈ ops, Spec.Typed (first :: rest) op ∧ ¬ Spec.Bad op) :
    match Spec.run first d (fun _ => (first, some d)) ops with
    | .error f => start (first :: rest) d ops = .error f
    | .ok (s, os) => ∃ w, start (first :: rest) d ops = .ok (w, os) ∧ w.leaked = 0 ∧
      ∀ i, dtor (first :: rest) (w.vars i) = .ok 0 ∧ (∀ t ∈ first :: rest, is (first :: rest) (w.vars i) t = ((s i).1 == t)) := by
  have e : World.init (first :: rest) d = .ok { vars := fun _ => repr (first :: rest) (first, some d), leaked := 0 } := by
    simp [World.init, ctorDefault, implEmplace, repr, Slot.alive]
  unfold start
  rw [e, R.ok_bind]
  have := run_ok hlen rfl d (w := { vars := fun _ => repr (first :: rest) (first, some d), leaked := 0 }) (s := fun _ => (first, some d))
    ⟨fun _ => List.mem_cons_self, fun _ => rfl, rfl⟩ h
  revert this
  cases Spec.run first d (fun _ => (first, some d)) ops with
  | error f => exact id
  | ok so =>
    obtain ⟨s, os⟩ := so
    rintro ⟨w, e, I⟩
    refine ⟨w, e, I.leaked, fun i => ?_⟩
    rw [I.rel i]
    exact ⟨dtor_repr (I.mem i), fun t ht => is_repr (I.mem i) ht⟩

/-- A history over `variant<10, 20, 30>`. -/
def sample : List (Op Nat) :=
  [.is 0 10, .ctorFrom 1 (.plain 20) 5, .assignCopy 0 1, .get 0 20, .is 0 30, .assignFrom 0 (.lref 30) 6, .visit 0, .getOr 0 20 9, .assignMove 1 0, .visit 1,
    .assignFrom 0 (.plain 10) 3, .ctorMove 2 1, .get 2 30, .ctorDefault 2, .get 2 10]

example : (∀ op ∈ sample, Spec.Typed [10, 20, 30] op ∧ ¬ Spec.Bad op) ∧
    (Spec.run 10 0 (fun _ => (10, some 0)) sample).map (·.2) =
      .ok [.bool true, .none, .none, .elem 5, .bool false, .none, .alt 30 6, .elem 9, .none, .alt 30 6, .none, .none, .elem 6, .none, .elem 0] := by
  constructor
  · simp [sample, Spec.Typed, Spec.Bad, Deduced.decay]
  · rfl

/-- **C54**, defect: a variant constructed from an lvalue always believes to hold its last alternative. -/
theorem C54_construct_from_lvalue (hne : types ≠ []) (hlen : types.length ≤ 256) (t : Ty) (a : α) :
    ∃ v, ctorFrom types (.lref t) a = .ok v ∧ v.slot = Slot.live (t, a) ∧ v.idx = types.length - 1 ∧
      (types[types.length - 1]? ≠ some t → dtor types v = .error .ub ∧ visit types v = .error .ub) := by
  have hpos : 0 < types.length := List.length_pos_iff.2 hne
  have e : indexOfType (.lref t) types = types.length - 1 := indexOfType_not_mem (by intro u _ h; cases h)
  refine ⟨_, rfl, rfl, ?_, ?_⟩
  · change (indexOfType (.lref t) types).toNat % 256 = _
    rw [e]; omega
  · intro hl
    have e2 : (indexOfType (.lref t) types).toNat % 256 = types.length - 1 := by rw [e]; omega
    have hlt : types.length - 1 < types.length := by omega
    rw [List.getElem?_eq_getElem hlt] at hl
    have hl : ¬ t = types[types.length - 1] := fun h => hl (by rw [h])
    constructor
    · have : destroy types { idx := (indexOfType (.lref t) types).toNat % 256, slot := Slot.live (t, a), ty := t } = .error .ub := by
        unfold destroy
        rw [destroyAlt_eq, e2, List.getElem?_eq_getElem hlt]
        exact if_neg (fun h => hl h.2)
      unfold dtor
      simp only [Deduced.decay, this]
      rfl
    · unfold visit
      simp only [e2, visitAlt_eq _ _ hlt, List.getElem?_eq_getElem hlt]
      have : readAs { idx := types.length - 1, slot := Slot.live (t, a), ty := t } types[types.length - 1] = .error .ub := if_neg hl
      simp only [Deduced.decay, this]
      rfl

/-- The same as a program: `int x = 5; variant<int, string> v(x);` says that it holds a string, and its destruction is undefined. -/
theorem C54_construct_from_lvalue_program :
    (start [10, 20] 0 [.ctorFrom 0 (.lref 10) 5, .is 0 10, .is 0 20]).map (·.2) = .ok [.none, .bool false, .bool true] ∧
    (match start [10, 20] 0 [.ctorFrom 0 (.lref 10) 5, .ctorDefault 0] with | .error .ub => true | _ => false) = true ∧
    (Spec.run 10 0 (fun _ => (10, some 0)) [.ctorFrom 0 (.lref 10) 5, .is 0 10, .is 0 20]).map (·.2) = .ok [.none, .bool true, .bool false] := by
  refine ⟨?_, ?_, ?_⟩ <;> decide +kernel

/-- **C54**, defect: assigning a variant (or its own value) to itself reads the destroyed value. -/
theorem C54_self_assignment (d : α) {w : World α} {s : Spec.State α} (I : Inv types w s) (i : Nat) (a : α) (h : (s i).2 = some a) :
    step types d w (.assignCopy i i) = .error .ub ∧ step types d w (.assignMove i i) = .error .ub ∧
    step types d w (.assignOwn i (s i).1) = .error .ub := by
  have e : emplaceOwn types (repr types (s i)) (s i).1 = .error .ub := by
    unfold emplaceOwn
    rw [destroy_repr (I.mem i)]
    rfl
  refine ⟨?_, ?_, ?_⟩
  · simp only [step, assignCopy, I.rel i, visit_repr (I.mem i), h, Spec.known, Except.map, R.ok_bind, if_true, e, R.error_bind]
  · simp only [step, assignMove, I.rel i, visit_repr (I.mem i), h, Spec.known, Except.map, R.ok_bind, if_true, e, R.error_bind]
  · simp only [step, get, I.rel i, is_repr (I.mem i) (I.mem i)]
    rw [ccAssert_true (by simp), R.ok_bind, readAs_repr, h]
    simp only [Spec.known, R.ok_bind, e, R.error_bind]

/-- The self-assignments as programs. -/
theorem C54_self_assignment_program :
    (match start [10, 20] 0 [.assignCopy 0 0] with | .error .ub => true | _ => false) = true ∧
    (match start [10, 20] 0 [.assignOwn 0 10] with | .error .ub => true | _ => false) = true := by
  constructor <;> decide +kernel

/-- **C54**, defect: for a type that is no alternative, `is<T>` is true exactly when the last alternative is held (if the last type occurs
only once). -/
theorem C54_is_of_foreign_type {x : Ty × Option α} (hx : x.1 ∈ types) (t : Ty) (ht : t ∉ types) :
    is types (repr types x) t = true ↔ types.idxOf x.1 = types.length - 1 := by
  have e : indexOfType (.plain t) types = types.length - 1 :=
    indexOfType_not_mem (by intro u hu h; cases h; exact ht hu)
  have h1 := List.idxOf_lt_length_of_mem hx
  unfold is
  rw [e]
  change decide (((types.idxOf x.1 : Nat) : Int) = types.length - 1) = true ↔ _
  rw [decide_eq_true_eq]
  omega

example : is [10, 20] (repr [10, 20] (20, some 7)) 99 = true := by decide

end Verif.Variant
