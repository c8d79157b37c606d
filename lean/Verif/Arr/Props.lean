import Verif.Arr.Spec
import Verif.Capped.Lemmas

/-! Property theorems for `cc::array`: C60 and C68. -/
namespace Verif.Arr

open Mem
open Capped (RelB)

variable {α : Type} {triv : Bool}

/-! ### C60 -/

/-- **C60**, defect: `array<T, N>::empty` says the opposite of the truth for every `N`. -/
theorem C60_fixed_array_empty_is_inverted (N : Nat) : fixedEmpty N = true ↔ fixedSize N ≠ 0 := by
  unfold fixedEmpty fixedSize; simp; omega

/-- The negation of the property, for an array of three elements. -/
theorem C60_fixed_array_empty_wrong : ¬ (∀ N, fixedEmpty N = true ↔ fixedSize N = 0) := by
  intro h
  have := h 3
  simp [fixedEmpty, fixedSize] at this

/-- **C60 (partial)** for the dynamic array. Missing: `array<T, N>`, where it is false. -/
theorem C60_dynamic_array_empty_partial (v : Arr α) : empty v = true ↔ v.size = 0 := by
  simp [empty]

example : empty (Arr.null : Arr Nat) = true ∧ empty ({ size := 1, buf := [.live 7] } : Arr Nat) = false := by decide

/-- Subscript and comparison of `array<T, N>` work. -/
theorem C60_fixed_array_access [DecidableEq α] (N : Nat) (values : List α) (hv : values.length = N) (rhs : List α) (i : Nat) :
    (fixedGet N values i = match values[i]? with | some a => .ok a | none => .error .assert) ∧
    fixedEq N values rhs = .ok (decide (values = rhs)) := by
  constructor
  · unfold fixedGet
    by_cases h : i < N
    · rw [ccAssert_true (by simpa using h), R.ok_bind, List.getElem?_eq_getElem (by omega)]
    · rw [ccAssert_false (by simpa using h), R.error_bind, List.getElem?_eq_none (by omega)]
  · have loop : ∀ (n i : Nat), i + n = values.length → values.length = rhs.length →
        eqLoop values rhs i n = .ok (decide (values.drop i = rhs.drop i)) := by
      intro n
      induction n with
      | zero => intro i hi hl; rw [List.drop_eq_nil_of_le (by omega), List.drop_eq_nil_of_le (by omega)]; rfl
      | succ n ih =>
        intro i hi hl
        rw [eqLoop, List.getElem?_eq_getElem (by omega), List.getElem?_eq_getElem (by omega)]
        simp only
        rw [List.drop_eq_getElem_cons (show i < values.length by omega), List.drop_eq_getElem_cons (show i < rhs.length by omega),
          ih (i + 1) (by omega) hl]
        by_cases e : values[i] = rhs[i]
        · simp only [e, decide_true, Bool.not_true, Bool.false_eq_true, if_false, List.cons.injEq, true_and]
        · simp only [e, decide_false, Bool.not_false, if_true, List.cons.injEq, false_and]
    unfold fixedEq
    by_cases h : N ≠ rhs.length
    · rw [if_pos h, decide_eq_false (fun e => h (by rw [← hv, e]))]
    · rw [if_neg h, loop N 0 (by omega) (by omega)]
      rfl

/-! ### C68 -/

/-- An array holds `l` and nothing else. -/
structure Rel (triv : Bool) (v : Arr α) (l : List α) : Prop where
  size : v.size = l.length
  buf : RelB triv True l.length v.buf l

theorem Rel.null : Rel triv (Arr.null : Arr α) [] := ⟨rfl, by simpa [Buf.mk, Arr.null] using RelB.nil (α := α) triv True 0⟩

theorem filled_ok (triv : Bool) (n : Nat) (a : α) : ∃ v, filled triv n a = .ok (v, 0) ∧ Rel triv v (List.replicate n a) := by
  obtain ⟨b, k, e, hk, h⟩ := Capped.fillLoop_ok (arg := Capped.Arg.val a) (a := a) n (RelB.nil triv True n) rfl (by simp)
  refine ⟨{ size := n, buf := b }, ?_, ?_⟩
  · unfold filled
    simp only [List.length_nil] at e
    rw [e, hk trivial]; rfl
  · rw [List.nil_append] at h
    exact ⟨by simp, by rw [List.length_replicate]; exact h⟩

theorem fromRange_ok (triv : Bool) (as : List α) : ∃ v, fromRange triv as = .ok (v, 0) ∧ Rel triv v as := by
  obtain ⟨d, k, e, hk, h1⟩ := Capped.copyLoop_ok (triv := triv) (strict := True) (N := as.length) (l := as) (src := as.map .live)
    (by intro j hj; simp [hj]) as.length (i := 0) (dst := Buf.mk as.length) (by simpa using RelB.nil triv True as.length) (by omega)
    (Nat.le_refl _)
  refine ⟨{ size := as.length, buf := d }, ?_, rfl, h1⟩
  unfold fromRange
  rw [e, hk trivial]; rfl

theorem copyCtor_ok {v : Arr α} {l : List α} (h : Rel triv v l) : ∃ v', copyCtor triv v = .ok (v', 0) ∧ Rel triv v' l := by
  obtain ⟨d, k, e, hk, h1⟩ := Capped.copyLoop_ok (triv := triv) (strict := True) (N := l.length) (l := l) (src := v.buf)
    h.buf.live l.length (i := 0) (dst := Buf.mk l.length) (by simpa using RelB.nil triv True l.length) (by omega)
    (Nat.le_refl _)
  refine ⟨{ size := l.length, buf := d }, ?_, rfl, h1⟩
  unfold copyCtor
  rw [h.size, e, hk trivial]; rfl

theorem dtor_ok {v : Arr α} {l : List α} (h : Rel triv v l) : Capped.dtor triv v = .ok 0 := by
  obtain ⟨k, e, hk⟩ := Capped.dtor_ok (triv := triv) (strict := True) (N := l.length) (v := v) (l := l) ⟨h.size, h.buf⟩
  rw [e, hk trivial]

theorem eqDynLoop_ok [DecidableEq α] {v w : Arr α} {l m : List α} (h : Rel triv v l) (h' : Rel triv w m) (hl : l.length = m.length) (n : Nat) :
    ∀ i, i + n = l.length → eqDynLoop v w i n = .ok (decide (l.drop i = m.drop i)) := by
  induction n with
  | zero => intro i hi; rw [List.drop_eq_nil_of_le (by omega), List.drop_eq_nil_of_le (by omega)]; rfl
  | succ n ih =>
    intro i hi
    rw [eqDynLoop, h.buf.read (show i < l.length by omega), h'.buf.read (show i < m.length by omega)]
    simp only [R.ok_bind]
    rw [List.drop_eq_getElem_cons (show i < l.length by omega), List.drop_eq_getElem_cons (show i < m.length by omega),
      ih (i + 1) (by omega)]
    by_cases e : l[i] = m[i]
    · simp only [e, decide_true, Bool.not_true, Bool.false_eq_true, if_false, List.cons.injEq, true_and]
    · simp only [e, decide_false, Bool.not_false, if_true, List.cons.injEq, false_and]

/-- All variables hold their lists and nothing has leaked. -/
structure Inv (triv : Bool) (w : World α) (s : Spec.Lists α) : Prop where
  rel : ∀ i, Rel triv (w.arrs i) (s i)
  leaked : w.leaked = 0

theorem Inv.put {w : World α} {s : Spec.Lists α} (I : Inv triv w s) {i : Nat} {v : Arr α} {l : List α} (h : Rel triv v l) :
    Inv triv (w.put i v) (Spec.upd s i l) := by
  refine ⟨?_, I.leaked⟩
  intro j
  unfold World.put Spec.upd
  by_cases e : j = i
  · simp [e, h]
  · simp [e, I.rel j]

theorem Inv.replace {w : World α} {s : Spec.Lists α} (I : Inv triv w s) {i : Nat} {v : Arr α} {l : List α} (h : Rel triv v l) :
    ∃ w', w.replace triv i v 0 = .ok (w', .none) ∧ Inv triv w' (Spec.upd s i l) := by
  unfold World.replace
  rw [dtor_ok (I.rel i)]
  exact ⟨_, rfl, I.put h⟩

/-- Resizing with an element of the array itself as value. -/
def OwnResize : Op α → Prop
  | .resize _ _ (.elem _) => True
  | _ => False

theorem step_ok [DecidableEq α] {w : World α} {s : Spec.Lists α} (I : Inv triv w s) (op : Op α) (hop : ¬ OwnResize op) :
    match Spec.step s op with
    | none => step triv w op = .error .assert
    | some (s', o) => ∃ w', step triv w op = .ok (w', o) ∧ Inv triv w' s' := by
  cases op with
  | ctorFilled i n a =>
    obtain ⟨v, e, h⟩ := filled_ok triv n a
    simp only [Spec.step, step, e, R.ok_bind]
    exact I.replace h
  | ctorRange i as =>
    obtain ⟨v, e, h⟩ := fromRange_ok triv as
    simp only [Spec.step, step, e, R.ok_bind]
    exact I.replace h
  | ctorCopy i j =>
    obtain ⟨v, e, h⟩ := copyCtor_ok (I.rel j)
    simp only [Spec.step, step, e, R.ok_bind]
    exact I.replace h
  | ctorMove i j =>
    simp only [Spec.step, step]
    exact (I.put (i := j) Rel.null).replace (I.rel j)
  | assignCopy i j =>
    simp only [Spec.step, step, assignCopy]
    by_cases h : j ≠ i
    · obtain ⟨v, e, h2⟩ := copyCtor_ok (I.rel j)
      rw [if_pos h, dtor_ok (I.rel i), R.ok_bind, e]
      exact ⟨_, rfl, I.put h2⟩
    · rw [if_neg h]
      have : Spec.upd s i (s j) = s := by
        funext k; unfold Spec.upd
        by_cases e : k = i
        · rw [if_pos e, e]; have : j = i := Decidable.not_not.1 h; rw [this]
        · rw [if_neg e]
      rw [this]
      exact ⟨w, rfl, I⟩
  | assignMove i j =>
    simp only [Spec.step, step]
    rw [dtor_ok (I.rel i)]
    exact ⟨_, rfl, (I.put (i := i) (I.rel j)).put Rel.null⟩
  | resize i n a =>
    cases a with
    | elem k => exact absurd trivial hop
    | val a =>
      obtain ⟨v, e, h⟩ := filled_ok triv n a
      simp only [Spec.step, step, Spec.argVal, checkArg, R.ok_bind, resize, dtor_ok (I.rel i), resizeFrom, e]
      exact ⟨_, rfl, I.put h⟩
  | set i k a =>
    simp only [Spec.step, step]
    have R' := I.rel i
    by_cases h : k < (s i).length
    · rw [if_pos h]
      obtain ⟨e, h2⟩ := R'.buf.assign h a
      unfold set
      rw [ccAssert_true (c := decide (k < (w.arrs i).size)) (by simp [R'.size, h]), R.ok_bind, e]
      exact ⟨_, rfl, I.put ⟨by simp [R'.size], by rw [List.length_set]; exact h2⟩⟩
    · rw [if_neg h]
      unfold set
      rw [ccAssert_false (c := decide (k < (w.arrs i).size)) (by simp [R'.size]; omega)]
      rfl
  | get i k =>
    simp only [Spec.step, step]
    have R' := I.rel i
    unfold get
    by_cases h : k < (s i).length
    · rw [List.getElem?_eq_getElem h, ccAssert_true (c := decide (k < (w.arrs i).size)) (by simp [R'.size, h]), R.ok_bind, R'.buf.read h]
      exact ⟨w, rfl, I⟩
    · rw [List.getElem?_eq_none (by omega), ccAssert_false (c := decide (k < (w.arrs i).size)) (by simp [R'.size]; omega)]
      rfl
  | eq i j =>
    simp only [Spec.step, step]
    have hi := I.rel i
    have hj := I.rel j
    unfold eq
    by_cases h : (w.arrs i).size ≠ (w.arrs j).size
    · rw [if_pos h]
      have : s i ≠ s j := fun e => h (by rw [hi.size, hj.size, e])
      rw [decide_eq_false this]
      exact ⟨w, rfl, I⟩
    · rw [if_neg h, eqDynLoop_ok hi hj (by rw [← hi.size, ← hj.size]; exact Decidable.not_not.1 h) _ 0 (by rw [hi.size]; omega)]
      exact ⟨w, rfl, I⟩
  | size i =>
    simp only [Spec.step, step, (I.rel i).size]
    exact ⟨w, rfl, I⟩
  | empty i =>
    simp only [Spec.step, step, empty, (I.rel i).size]
    refine ⟨w, ?_, I⟩
    cases s i <;> rfl

theorem run_ok [DecidableEq α] : ∀ {ops : List (Op α)} {w : World α} {s : Spec.Lists α}, Inv triv w s → (∀ op ∈ ops, ¬ OwnResize op) →
    match Spec.run s ops with
    | none => run triv w ops = .error .assert
    | some (s', os) => ∃ w', run triv w ops = .ok (w', os) ∧ Inv triv w' s' := by
  intro ops
  induction ops with
  | nil => intro w s I _; exact ⟨w, rfl, I⟩
  | cons op ops ih =>
    intro w s I h
    have h1 := step_ok I op (h op List.mem_cons_self)
    rw [Spec.run, run]
    cases hs : Spec.step s op with
    | none => rw [hs] at h1; simp only at h1; rw [h1]; simp
    | some so =>
      obtain ⟨s', o⟩ := so
      rw [hs] at h1
      obtain ⟨w', e1, I'⟩ := h1
      have h2 := ih I' (fun x hx => h x (List.mem_cons_of_mem _ hx))
      rw [e1]
      simp only [R.ok_bind]
      cases hr : Spec.run s' ops with
      | none => rw [hr] at h2; simp only at h2; rw [h2]; simp
      | some so =>
        obtain ⟨s'', os⟩ := so
        rw [hr] at h2
        obtain ⟨w'', e2, I''⟩ := h2
        rw [e2]
        exact ⟨w'', rfl, I''⟩

theorem inv_init : Inv triv (World.init : World α) Spec.init := ⟨fun _ => Rel.null, rfl⟩

/-- **C68 (partial)**: every history of constructions, copies, moves, assignments (also of an array to itself), resizes, reads, writes
and comparisons of any number of arrays behaves like lists; every element object is constructed once and destroyed once: none is left
undestroyed when its block is freed, and destroying the arrays at the end leaves none. Missing: `resize` with an element of the array
itself as value, where it is false. -/
theorem C68_array_is_list_partial [DecidableEq α] (triv : Bool) (ops : List (Op α)) (h : ∀ op ∈ ops, ¬ OwnResize op) :
    match Spec.run Spec.init ops with
    | none => run triv World.init ops = .error .assert
    | some (s, os) => ∃ w, run triv World.init ops = .ok (w, os) ∧ w.leaked = 0 ∧
      ∀ i, (w.arrs i).size = (s i).length ∧ Capped.dtor triv (w.arrs i) = .ok 0 := by
  have := run_ok (triv := triv) (inv_init (α := α)) h
  revert this
  cases Spec.run Spec.init ops with
  | none => exact id
  | some so =>
    obtain ⟨s, os⟩ := so
    rintro ⟨w, e, I⟩
    exact ⟨w, e, I.leaked, fun i => ⟨(I.rel i).size, dtor_ok (I.rel i)⟩⟩

/-- A history with copies, moves and self-assignments. -/
def sample : List (Op Nat) :=
  [.ctorRange 0 [1, 2, 3], .ctorCopy 1 0, .set 0 1 9, .get 1 1, .eq 0 1, .assignCopy 0 0, .get 0 1, .assignMove 2 0, .size 0, .get 2 1,
    .resize 2 4 (.val 5), .get 2 3, .assignMove 2 2, .empty 2, .ctorMove 3 1, .get 3 2, .ctorFilled 3 2 8, .size 3]

example : (∀ op ∈ sample, ¬ OwnResize op) ∧ (Spec.run Spec.init sample).map (·.2) =
    some [.none, .none, .none, .elem 2, .bool false, .none, .elem 9, .none, .nat 0, .elem 9, .none, .elem 5, .none, .bool true, .none,
      .elem 3, .none, .nat 2] := by
  constructor
  · simp [sample, OwnResize]
  · decide +kernel

/-- **C68**, defect: `a.resize(n, a[k])` reads the freed block, for every non-empty array, every `k` in range and every `n > 0`. -/
theorem C68_resize_with_own_element [DecidableEq α] {w : World α} {s : Spec.Lists α} (I : Inv triv w s) (i n k : Nat) (hk : k < (s i).length)
    (hn : 0 < n) : step triv w (.resize i n (.elem k)) = .error .ub := by
  simp only [step, checkArg]
  rw [ccAssert_true (c := decide (k < (w.arrs i).size)) (by simp [(I.rel i).size, hk]), R.ok_bind]
  unfold resize resizeFrom
  rw [dtor_ok (I.rel i), R.ok_bind, if_neg (by omega)]
  rfl

/-- The same as a program, where the specification has a result. -/
theorem C68_resize_with_own_element_program :
    (match run false (World.init : World Nat) [.ctorRange 0 [1, 2], .resize 0 3 (.elem 1)] with
      | .error .ub => true | _ => false) = true ∧
    (Spec.run Spec.init [.ctorRange 0 [1, 2], .resize 0 3 (.elem 1), .get 0 2] : Option (Spec.Lists Nat × List (Obs Nat))).map (·.2) =
      some [.none, .none, .elem 2] := by
  constructor <;> decide +kernel

end Verif.Arr
