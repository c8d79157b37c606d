import Verif.Vector.World

/-!
Property theorems for `cc::vector`: C18, C19, C20, C66.

`run T World.init ops` is a program that makes the calls `ops` on its vector variables (Model.lean);
`Spec.run T.dflt T.eqv (fun _ => []) ops` is the same program on mathematical lists (Spec.lean).
-/
namespace Verif.Vector
open Verif.Mem

variable {α : Type}

/-- An element type with a destructor, used in the examples. -/
def strTy : Ty Nat := { triv := false, big := false, dflt := 0, eqv := fun a b => a == b }

/-- A trivially copyable element type, used in the examples. -/
def intTy : Ty Nat := { triv := true, big := false, dflt := 0, eqv := fun a b => a == b }

/-- A history with growth, aliasing, removal, assignment and a read, used in the examples. -/
def demoOps : List (Op Nat) :=
  [.pushBack 0 (.val 1), .pushBack 0 (.elem 0 0), .pushBack 0 (.val 3), .insertRange 0 1 [7, 8, 9],
   .removeAt 0 2, .removeRange 0 0 2, .resize 0 6, .copyAssign 1 0, .removeFirst 0 (fun x => x == 3),
   .removeAtUnordered 0 0, .assignNew 2 (.copyOf 1), .moveAssign 0 2, .removeAll 1 (fun x => x == 0),
   .getAndPopBack 1, .eq 0 1, .get 0 1, .size 0]

/-- Decision procedure for `Spec.InRange`, only used to check examples. -/
def inRangeB (dflt : α) (eqv : α → α → Bool) (s : Spec.Lists α) : List (Op α) → Bool
  | [] => true
  | op :: ops =>
    decide (Spec.demand s op ≤ 2 ^ 48) &&
    (match op with
      | .removeRange i idx cnt => decide (idx + cnt < 2 ^ 64) && decide ((s i).length < 2 ^ 64)
      | _ => true) &&
    (match Spec.step dflt eqv s op with
      | none => true
      | some (s', _) => inRangeB dflt eqv s' ops)

theorem inRangeB_sound {dflt : α} {eqv : α → α → Bool} (ops : List (Op α)) : ∀ {s : Spec.Lists α},
    inRangeB dflt eqv s ops = true → Spec.InRange dflt eqv s ops := by
  induction ops with
  | nil => intro s _; trivial
  | cons op ops ih =>
    intro s h
    simp only [inRangeB, Bool.and_eq_true, decide_eq_true_eq] at h
    refine ⟨h.1.1, ?_, ?_⟩
    · intro i idx cnt he
      subst he
      simpa using h.1.2
    · intro s' o hs
      have h2 := h.2
      rw [hs] at h2
      exact ih h2

/-- **C18**, partial. For every history inside the limits `InRange`, the vectors behave as lists: a call out of contract
ends in a contract failure; otherwise all results are those of the lists, at the end every vector has the length and the
elements of its list, and its size does not exceed its capacity. Missing from the full property: `remove_range` calls
whose index plus count exceed 2^64 (false, see `C18_remove_range_wraps`). -/
theorem C18_vector_is_list_partial (T : Ty α) (ops : List (Op α))
    (hr : Spec.InRange T.dflt T.eqv (fun _ => []) ops) :
    match Spec.run T.dflt T.eqv (fun _ => []) ops with
    | none => run T World.init ops = .error .assert
    | some (s, os) => ∃ w, run T World.init ops = .ok (w, os) ∧
        ∀ i, (w.vecs i).size = (s i).length ∧ (w.vecs i).size ≤ (w.vecs i).cap ∧
          ∀ k (hk : k < (s i).length), at_ w.heap (w.vecs i) k = .ok (s i)[k] := by
  have h := run_ok ops (Inv.init T) hr
  cases hs : Spec.run T.dflt T.eqv (fun _ => []) ops with
  | none => rw [hs] at h; exact h
  | some p =>
    rw [hs] at h
    obtain ⟨w, e, I, -⟩ := h
    refine ⟨w, e, fun i => ⟨(I.owns i).1, (I.owns i).size_le, fun k hk => at_ok (I.owns i) hk⟩⟩

theorem demo_inRange : Spec.InRange strTy.dflt strTy.eqv (fun _ => []) demoOps :=
  inRangeB_sound _ (by decide +kernel)

example : ((Spec.run strTy.dflt strTy.eqv (fun _ => []) demoOps).map fun p => (p.1 0, p.1 1, p.2.drop 12)) =
    some ([9, 1, 3, 0, 0, 0], [9, 1], [.nat 3, .elem 3, .bool false, .elem 1, .nat 6]) := by decide +kernel

/-- **C18**, negation of the full property: `remove_range(1, SIZE_MAX)` on a vector of two elements is out of contract,
but the check `start_index + count <= size` wraps around; the call goes on and writes outside the elements. -/
theorem C18_remove_range_wraps :
    let ops : List (Op Nat) := [.pushRange 0 true true [5, 6], .removeRange 0 1 (2 ^ 64 - 1)]
    Spec.run strTy.dflt strTy.eqv (fun _ => []) ops = none ∧ run strTy World.init ops = .error .ub := by
  intro ops
  have h : (match run strTy World.init ops with | .error .ub => true | _ => false) = true := by decide +kernel
  refine ⟨rfl, ?_⟩
  split at h
  · assumption
  · simp at h

/-- **C18**, capacity requests above the documented limit of 2^48 elements end in a contract failure. -/
theorem C18_reserve_limit (T : Ty α) (h : Heap α) (v : Vec) (n : Nat) (hn : ¬ n ≤ 2 ^ 48) :
    reserve T h v n = .error .assert := by
  unfold reserve
  rw [ccAssert_false (by simpa using hn)]
  rfl

/-! ### lifetimes -/

/-- The variables a call can change. -/
def Op.targets : Op α → List Nat
  | .pushBack i _ | .pushRange i _ _ _ | .insertRange i _ _ | .popBack i | .getAndPopBack i | .reserve i _ | .resize i _
  | .resizeWith i _ _ | .clear i | .shrinkToFit i | .removeAll i _ | .removeFirst i _ | .removeFirstUnordered i _
  | .removeValue i _ | .removeRange i _ _ | .removeAt i _ | .removeAtUnordered i _ | .set i _ _ | .copyAssign i _
  | .assignNew i _ => [i]
  | .moveAssign i j => [i, j]
  | .get _ _ | .front _ | .back _ | .size _ | .contains _ _ | .eq _ _ => []

theorem call_vecs {w w' : World α} {i k : Nat} {f} {o : Obs α} (h : w.call i f = .ok (w', o)) (hk : k ≠ i) :
    w'.vecs k = w.vecs k := by
  unfold World.call at h
  rw [R.bind_eq_ok] at h
  obtain ⟨⟨h1, v1⟩, -, h⟩ := h
  simp only [Except.ok.injEq, Prod.mk.injEq] at h
  rw [← h.1, put_vecs_ne _ _ _ hk]

theorem callObs_vecs {w w' : World α} {i k : Nat} {β : Type} {f} {g : β → Obs α} {o : Obs α}
    (h : w.callObs i f g = .ok (w', o)) (hk : k ≠ i) : w'.vecs k = w.vecs k := by
  unfold World.callObs at h
  rw [R.bind_eq_ok] at h
  obtain ⟨⟨b, h1, v1⟩, -, h⟩ := h
  simp only [Except.ok.injEq, Prod.mk.injEq] at h
  rw [← h.1, put_vecs_ne _ _ _ hk]

theorem read_vecs {β : Type} {w w' : World α} {x : R β} {g : β → Obs α} {o : Obs α}
    (h : (do let a ← x; .ok (w, g a) : R (World α × Obs α)) = .ok (w', o)) : w' = w := by
  rw [R.bind_eq_ok] at h
  obtain ⟨a, -, h⟩ := h
  simp only [Except.ok.injEq, Prod.mk.injEq] at h
  exact h.1.symm

theorem step_vecs {T : Ty α} {w w' : World α} {op : Op α} {o : Obs α} (h : step T w op = .ok (w', o)) {k : Nat}
    (hk : k ∉ op.targets) : w'.vecs k = w.vecs k := by
  cases op <;> simp only [Op.targets, List.mem_cons, List.not_mem_nil, or_false, not_or] at hk <;>
    simp only [step] at h
  case pushBack i a =>
    rw [R.bind_eq_ok] at h
    obtain ⟨x, -, h⟩ := h
    exact call_vecs h hk
  case get => rw [read_vecs (g := .elem) h]
  case front => rw [read_vecs (g := .elem) h]
  case back => rw [read_vecs (g := .elem) h]
  case contains => rw [read_vecs (g := .bool) h]
  case eq => rw [read_vecs (g := .bool) h]
  case size =>
    simp only [Except.ok.injEq, Prod.mk.injEq] at h
    rw [h.1]
  case copyAssign i j =>
    split at h
    · simp only [Except.ok.injEq, Prod.mk.injEq] at h
      rw [h.1]
    · exact call_vecs h hk
  case moveAssign i j =>
    rw [R.bind_eq_ok] at h
    obtain ⟨w1, h1, h⟩ := h
    simp only [Except.ok.injEq, Prod.mk.injEq] at h
    unfold Vector.moveAssign at h1
    rw [R.bind_eq_ok] at h1
    obtain ⟨x, -, h1⟩ := h1
    simp only [Except.ok.injEq] at h1
    rw [← h.1, ← h1, put_vecs_ne _ _ _ hk.2, put_vecs_ne _ _ _ hk.1]
  case assignNew i c =>
    rw [R.bind_eq_ok] at h
    obtain ⟨w1, h1, h⟩ := h
    simp only [Except.ok.injEq, Prod.mk.injEq] at h
    unfold assignNew at h1
    rw [R.bind_eq_ok] at h1
    obtain ⟨⟨x, y⟩, -, h1⟩ := h1
    simp only at h1
    rw [R.bind_eq_ok] at h1
    obtain ⟨x2, -, h1⟩ := h1
    rw [R.bind_eq_ok] at h1
    obtain ⟨x3, -, h1⟩ := h1
    simp only [Except.ok.injEq] at h1
    rw [← h.1, ← h1, put_vecs_ne _ _ _ hk]
  all_goals first | exact call_vecs h hk | exact callObs_vecs h hk

theorem run_vecs {T : Ty α} (ops : List (Op α)) : ∀ {w w' : World α} {os : List (Obs α)},
    run T w ops = .ok (w', os) → ∀ {k : Nat}, (∀ op ∈ ops, k ∉ op.targets) → w'.vecs k = w.vecs k := by
  induction ops with
  | nil =>
    intro w w' os h k _
    simp only [run, Except.ok.injEq, Prod.mk.injEq] at h
    rw [h.1]
  | cons op ops ih =>
    intro w w' os h k hk
    simp only [run] at h
    rw [R.bind_eq_ok] at h
    obtain ⟨⟨w1, o1⟩, h1, h⟩ := h
    simp only at h
    rw [R.bind_eq_ok] at h
    obtain ⟨⟨w2, o2⟩, h2, h⟩ := h
    simp only [Except.ok.injEq, Prod.mk.injEq] at h
    rw [← h.1, ih h2 (fun op hop => hk op (by simp [hop])), step_vecs h1 (hk op (by simp))]

/-- **C19**, no invalid access: a history inside the limits never reads a raw or moved-from slot, never constructs over
a living object, never destroys a dead one, never leaves a block and never uses or frees a freed block (all of these are
the outcome `ub` in the model). -/
theorem C19_vector_no_undefined_behaviour (T : Ty α) (ops : List (Op α))
    (hr : Spec.InRange T.dflt T.eqv (fun _ => []) ops) : run T World.init ops ≠ .error .ub := by
  have h := run_ok ops (Inv.init T) hr
  cases hs : Spec.run T.dflt T.eqv (fun _ => []) ops with
  | none => rw [hs] at h; simp only at h; rw [h]; simp
  | some p =>
    rw [hs] at h
    obtain ⟨w, e, -⟩ := h
    rw [e]; simp

/-- **C19**, partial. A program that uses vector variables below `n`, stays inside the limits and in contract, and does
not call `shrink_to_fit` on a vector whose element type has a destructor, has destroyed every element and freed every
allocation after its vectors are destroyed. Missing: `shrink_to_fit` (false, see `C19_shrink_to_fit_leaks`). -/
theorem C19_vector_lifetimes_partial (T : Ty α) (ops : List (Op α)) (n : Nat)
    (hn : ∀ op ∈ ops, ∀ i ∈ op.targets, i < n)
    (hr : Spec.InRange T.dflt T.eqv (fun _ => []) ops)
    (hc : (Spec.run T.dflt T.eqv (fun _ => []) ops).isSome)
    (hs : T.triv = true ∨ ∀ i, .shrinkToFit i ∉ ops) :
    ∃ w os w', run T World.init ops = .ok (w, os) ∧ destroyUpto T w n = .ok w' ∧ w'.heap.leaked = 0 ∧
      ∀ b, w'.heap.blocks b = none := by
  have h := run_ok ops (Inv.init T) hr
  cases hsp : Spec.run T.dflt T.eqv (fun _ => []) ops with
  | none => rw [hsp] at hc; simp at hc
  | some p =>
    rw [hsp] at h
    obtain ⟨w, e, I, -, lk⟩ := h
    obtain ⟨w', e', I', lk', hv, hv'⟩ := destroyUpto_ok n I
    refine ⟨w, p.2, w', e, e', ?_, ?_⟩
    · rw [lk', lk]
      · rfl
      · intro op hop
        rcases hs with hs | hs
        · exact Or.inl hs
        · exact Or.inr (fun i hi => hs i (hi ▸ hop))
    · intro b
      by_cases hb : w'.heap.blocks b = none
      · exact hb
      · obtain ⟨i, hi⟩ := I'.all b hb
        rcases Nat.lt_or_ge i n with h1 | h1
        · rw [hv i h1] at hi; simp [Vec.empty] at hi
        · rw [hv' i h1, run_vecs ops e] at hi
          · simp [World.init, Vec.empty] at hi
          · intro op hop hmem
            have := hn op hop i hmem
            omega

example : (∀ op ∈ demoOps, ∀ i ∈ op.targets, i < 3) ∧
    (Spec.run strTy.dflt strTy.eqv (fun _ => []) demoOps).isSome = true ∧ ∀ i, Op.shrinkToFit i ∉ demoOps := by
  refine ⟨by decide, by decide +kernel, ?_⟩
  intro i h
  simp [demoOps] at h

/-- **C19**, negation of the full property: `shrink_to_fit` moves the elements to a new block and frees the old one
without destroying the moved-from elements. Pushing three elements and shrinking leaves three objects undestroyed. -/
theorem C19_shrink_to_fit_leaks :
    let ops : List (Op Nat) := [.pushBack 0 (.val 1), .pushBack 0 (.val 2), .pushBack 0 (.val 3), .shrinkToFit 0]
    ∃ w os w', run strTy World.init ops = .ok (w, os) ∧ destroyUpto strTy w 1 = .ok w' ∧ w'.heap.leaked = 3 := by
  intro ops
  have hr : Spec.InRange strTy.dflt strTy.eqv (fun _ => []) ops := inRangeB_sound _ (by decide +kernel)
  have h := run_ok ops (Inv.init strTy) hr
  obtain ⟨w, e, I, -⟩ := h
  obtain ⟨w', e', -, lk, -⟩ := destroyUpto_ok 1 I
  refine ⟨w, _, w', e, e', ?_⟩
  have : (match run strTy World.init ops with | .ok (w, _) => w.heap.leaked | _ => 0) = 3 := by decide +kernel
  rw [e] at this
  rw [lk]; exact this

/-- **C19**, exact size of the leak: on any vector object that holds the list `l`, `shrink_to_fit` leaves as many
objects undestroyed as the vector has elements, unless the type is trivially copyable or the vector is already tight. -/
theorem C19_shrink_to_fit_leak_size (T : Ty α) {h : Heap α} (hw : WF h) {v : Vec} {l : List α} (o : Owns T h v l) :
    ∃ h' v', shrinkToFit T h v = .ok (h', v') ∧ Owns T h' v' l ∧
      h'.leaked = h.leaked + (if T.triv = true ∨ v.size = v.cap then 0 else l.length) := by
  obtain ⟨h', v', e, o', -, -, lk⟩ := shrinkToFit_ok hw o
  exact ⟨h', v', e, o', lk⟩

/-! ### aliasing -/

/-- **C20.** After any history, `v.push_back(v[k])` appends a copy of element `k` (with and without reallocation), and
leaves the other vectors alone. -/
theorem C20_push_back_own_element (T : Ty α) (ops : List (Op α)) (hr : Spec.InRange T.dflt T.eqv (fun _ => []) ops)
    {w : World α} {os : List (Obs α)} (h : run T World.init ops = .ok (w, os)) (i k : Nat) (hk : k < (w.vecs i).size) :
    ∃ s os', Spec.run T.dflt T.eqv (fun _ => []) ops = some (s, os') ∧
    ∃ a w', (s i)[k]? = some a ∧ step T w (.pushBack i (.elem i k)) = .ok (w', .none) ∧
      (w'.vecs i).size = (s i).length + 1 ∧ at_ w'.heap (w'.vecs i) (s i).length = .ok a ∧
      (∀ j (hj : j < (s i).length), at_ w'.heap (w'.vecs i) j = .ok (s i)[j]) ∧
      ∀ m, m ≠ i → w'.vecs m = w.vecs m := by
  have hrun := run_ok ops (Inv.init T) hr
  cases hsp : Spec.run T.dflt T.eqv (fun _ => []) ops with
  | none => rw [hsp] at hrun; simp only at hrun; rw [hrun] at h; simp at h
  | some p =>
    obtain ⟨s, os'⟩ := p
    rw [hsp] at hrun
    obtain ⟨w1, e1, I, -⟩ := hrun
    rw [e1] at h
    simp only [Except.ok.injEq, Prod.mk.injEq] at h
    obtain ⟨rfl, rfl⟩ := h
    refine ⟨s, _, rfl, ?_⟩
    have hk' : k < (s i).length := by rw [← (I.owns i).1]; exact hk
    have hst := step_ok I (op := .pushBack i (.elem i k)) (by simp [Spec.demand]) (by simp)
    simp only [Spec.step, List.getElem?_eq_getElem hk', Option.map_some] at hst
    obtain ⟨w', e', I', -⟩ := hst
    have oi := I'.owns i
    simp only [Spec.upd, if_true] at oi
    refine ⟨_, w', List.getElem?_eq_getElem hk', e', by simpa using oi.1, ?_, ?_, ?_⟩
    · rw [at_ok oi (by simp)]; simp
    · intro j hj
      rw [at_ok oi (by simp; omega)]
      rw [List.getElem_append_left hj]
    · intro m hm
      exact step_vecs e' (by simpa [Op.targets] using hm)

example : ∃ w os, run strTy World.init [.pushBack 0 (.val 4)] = .ok (w, os) ∧ 0 < (w.vecs 0).size ∧
    (w.vecs 0).size = (w.vecs 0).cap := by
  refine ⟨_, _, rfl, ?_, ?_⟩ <;> decide

/-- **C20**, what does not hold: appending a subrange of the vector itself with `push_back_range` (or the equivalent
`push_back_range_n`) reads the freed old block whenever the call reallocates. -/
theorem C20_push_back_range_own_elements_fails (T : Ty α) {h : Heap α} (hw : WF h) {v : Vec} {l : List α}
    (o : Owns T h v l) (off n : Nat) (hl : l ≠ []) (hn : 0 < n) (hgrow : v.cap < l.length + n)
    (hlim : l.length + n ≤ 2 ^ 48) :
    pushBackRangeN T h v (.mem v.data off) n = .error .ub := by
  obtain ⟨⟨h1, v1, e, o1, f1, -⟩, hcap⟩ := reserve_ok hw o hlim
  obtain ⟨-, -, hnew, -⟩ := hcap h1 v1 e
  have hv1 := hnew hgrow
  unfold pushBackRangeN
  rw [if_neg (by omega), o.1, e]
  simp only [R.ok_bind]
  obtain ⟨hsz, ⟨hd, hc0, hl0⟩ | ⟨b, tail, hd, hb, hblk, hf, hcp⟩⟩ := o
  · exact absurd hl0 hl
  · -- the old block is gone
    have hgone : h1.blocks b = none := by
      by_cases h0 : h1.blocks b = none
      · exact h0
      · rcases f1.gone b h0 with h2 | ⟨h2, -⟩
        · rw [hv1] at h2; simp at h2; omega
        · exact absurd hd h2
    obtain ⟨m, rfl⟩ : ∃ m, n = m + 1 := ⟨n - 1, by omega⟩
    have hread : copyConstructRange T.triv h1 (.mem v.data off) (m + 1) v1.data v1.size = .error .ub := by
      unfold copyConstructRange
      rw [hd, hv1]
      split
      · simp only [Nat.zero_lt_succ, if_true, gt_iff_lt]
        unfold memcpy memmove
        split
        · rfl
        · simp [slots, hgone]
      · simp [copyConstructLoop, readSrc, Mem.read, Mem.get, slots, hgone]
    rw [hread]; rfl

example : ∃ (h : Heap Nat) (v : Vec), WF h ∧ Owns strTy h v [1, 2] ∧ v.cap < 2 + 1 := by
  have hr : Spec.InRange strTy.dflt strTy.eqv (fun _ => []) [.pushRange 0 true true [1, 2]] :=
    inRangeB_sound _ (by decide +kernel)
  obtain ⟨w, e, I, -⟩ := run_ok _ (Inv.init strTy) hr
  refine ⟨w.heap, w.vecs 0, I.wf, I.owns 0, ?_⟩
  have : (match run strTy World.init [.pushRange 0 true true [1, 2]] with | .ok (w, _) => (w.vecs 0).cap | _ => 0) = 2 := by
    decide +kernel
  rw [e] at this
  simp only at this
  omega

/-! ### reserve -/

theorem pushEach_stable {T : Ty α} (xs : List α) : ∀ {h : Heap α} (_ : WF h) {v : Vec} {l : List α} (_ : Owns T h v l)
    (_ : l.length + xs.length ≤ v.cap),
    ∃ h' v', pushEach T h v xs = .ok (h', v') ∧ v'.data = v.data ∧ v'.cap = v.cap ∧ Owns T h' v' (l ++ xs) := by
  induction xs with
  | nil => intro h hw v l o hc; exact ⟨h, v, rfl, rfl, rfl, by simpa using o⟩
  | cons a xs ih =>
    intro h hw v l o hc
    simp only [List.length_cons] at hc
    obtain ⟨h1, v1, e, o1, f1, -⟩ := emplaceBack_ok hw o (a := a) (arg := .val a) rfl
    have hd : v1.data = v.data ∧ v1.cap = v.cap := by
      unfold emplaceBack at e
      rw [if_neg (by rw [o.1]; omega)] at e
      simp only [evalArg, R.ok_bind] at e
      rw [R.bind_eq_ok] at e
      obtain ⟨x, -, e⟩ := e
      simp only [Except.ok.injEq, Prod.mk.injEq] at e
      rw [← e.2]
      exact ⟨rfl, rfl⟩
    obtain ⟨h2, v2, e2, d2, c2, o2⟩ := ih f1.wf o1 (by simp; omega)
    refine ⟨h2, v2, ?_, by rw [d2, hd.1], by rw [c2, hd.2], by simpa using o2⟩
    unfold pushEach
    rw [e]
    exact e2

/-- **C66.** After any history and `v.reserve(n)`, appending elements up to a total of `n` keeps the buffer where it is
(so references and iterators stay valid), and the elements are appended in order. -/
theorem C66_reserve_then_push_keeps_buffer (T : Ty α) (ops : List (Op α))
    (hr : Spec.InRange T.dflt T.eqv (fun _ => []) ops) {w : World α} {os : List (Obs α)}
    (h : run T World.init ops = .ok (w, os)) (i n : Nat) (hn : n ≤ 2 ^ 48) (xs : List α)
    (hx : (w.vecs i).size + xs.length ≤ n) :
    ∃ h1 v1 h2 v2, reserve T w.heap (w.vecs i) n = .ok (h1, v1) ∧ n ≤ v1.cap ∧
      pushEach T h1 v1 xs = .ok (h2, v2) ∧ v2.data = v1.data ∧ v2.size = (w.vecs i).size + xs.length ∧
      (∀ k, k < (w.vecs i).size → at_ h2 v2 k = at_ w.heap (w.vecs i) k) ∧
      ∀ k (hk : k < xs.length), at_ h2 v2 ((w.vecs i).size + k) = .ok xs[k] := by
  have hrun := run_ok ops (Inv.init T) hr
  cases hsp : Spec.run T.dflt T.eqv (fun _ => []) ops with
  | none => rw [hsp] at hrun; simp only at hrun; rw [hrun] at h; simp at h
  | some p =>
    obtain ⟨s, os'⟩ := p
    rw [hsp] at hrun
    obtain ⟨w1, e1, I, -⟩ := hrun
    rw [e1] at h
    simp only [Except.ok.injEq, Prod.mk.injEq] at h
    obtain ⟨rfl, rfl⟩ := h
    obtain ⟨⟨h1, v1, e, o1, f1, -⟩, hcap⟩ := reserve_ok I.wf (I.owns i) hn
    obtain ⟨hc, -⟩ := hcap h1 v1 e
    have hsz := (I.owns i).1
    obtain ⟨h2, v2, e2, d2, -, o2⟩ := pushEach_stable xs f1.wf o1 (by omega)
    refine ⟨h1, v1, h2, v2, e, hc, e2, d2, by rw [o2.1, hsz]; simp, ?_, ?_⟩
    · intro k hk
      rw [at_ok o2 (by simp; omega), at_ok (I.owns i) (by omega)]
      rw [List.getElem_append_left (by omega)]
    · intro k hk
      rw [at_ok o2 (by simp; omega)]
      simp [hsz]

example : ∃ w os, run strTy World.init [.pushBack 0 (.val 4), .pushBack 0 (.val 5)] = .ok (w, os) ∧
    (w.vecs 0).size + [6, 7, 8].length ≤ 5 := by
  refine ⟨_, _, rfl, ?_⟩
  decide

end Verif.Vector
