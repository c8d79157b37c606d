import Verif.AVec.World

/-!
Property theorems for `cc::alloc_vector`: C71.

`run T World.init ops` is a program that makes the calls `ops` on vector variables with any allocators (Model.lean);
`Spec.run T.dflt T.eqv (fun _ => Spec.V.empty) ops` is the same program on lists that remember their allocator (Spec.lean).
-/
namespace Verif.AVec
open Verif.Mem Verif.Vector

variable {α : Type}

/-- Decision procedure for `Spec.InRange`, only used to check examples. -/
def inRangeB (dflt : α) (eqv : α → α → Bool) (s : Spec.State α) : List (Op α) → Bool
  | [] => true
  | op :: ops =>
    decide (Spec.demand s op ≤ 2 ^ 48) &&
    (match op with
      | .call i (.removeRange idx cnt) => decide (idx + cnt < 2 ^ 64) && decide ((s i).l.length < 2 ^ 64)
      | _ => true) &&
    (match Spec.step dflt eqv s op with
      | none => true
      | some (s', _) => inRangeB dflt eqv s' ops)

theorem inRangeB_sound {dflt : α} {eqv : α → α → Bool} (ops : List (Op α)) : ∀ {s : Spec.State α},
    inRangeB dflt eqv s ops = true → Spec.InRange dflt eqv s ops := by
  induction ops with
  | nil => intro s _; trivial
  | cons op ops ih =>
    intro s h
    simp only [inRangeB, Bool.and_eq_true, decide_eq_true_eq] at h
    refine ⟨h.1.1, ?_, ?_⟩
    · intro i idx cnt he
      subst he
      simpa using h.1.2
    · intro s' o hs
      have h2 := h.2
      rw [hs] at h2
      exact ih h2

/-- Three allocators, moves between vectors with different allocators, copies across allocators; used in the examples. -/
def demoOps : List (Op Nat) :=
  [.assignNew 0 (some 1) (.range [1, 2, 3]), .assignNew 1 (some 2) (.filled 2 7), .pushElem 0 1 0, .call 0 (.pushBack 5),
   .pushElem 0 0 1, .assignNew 2 (some 2) (.copyOf 0), .eq 0 2, .moveAssign 1 0, .allocator 1, .allocator 0, .call 0 (.pushBack 9),
   .resetReserve 2 (some 1) 10, .call 2 (.pushRange true true [4, 4]), .moveCtor 0 2, .moveAssign 1 1, .allocator 1,
   .call 0 .getAndPopBack]

/-- **C71**, contents. For every history inside the limits `InRange`, on any number of vectors with any allocators: a call out of
contract ends in a contract failure; otherwise all results (also those of `allocator()`) are those of the lists, and at the end every
vector has its allocator, and has the length and the elements of its list in memory of that allocator. -/
theorem C71_contents (T : Ty α) (ops : List (Op α)) (hr : Spec.InRange T.dflt T.eqv (fun _ => Spec.V.empty) ops) :
    match Spec.run T.dflt T.eqv (fun _ => Spec.V.empty) ops with
    | none => run T World.init ops = .error .assert
    | some (s, os) => ∃ w, run T World.init ops = .ok (w, os) ∧
        ∀ i, (w.vecs i).al = (s i).al ∧ (w.vecs i).v.size = (s i).l.length ∧ (w.vecs i).v.size ≤ (w.vecs i).v.cap ∧
          ∀ k (hk : k < (s i).l.length), at_ (w.heaps (s i).al) (w.vecs i).v k = .ok (s i).l[k] := by
  have h := run_ok ops (Inv.init T) hr
  cases hs : Spec.run T.dflt T.eqv (fun _ => Spec.V.empty) ops with
  | none => rw [hs] at h; exact h
  | some p =>
    rw [hs] at h
    obtain ⟨w, e, I, -⟩ := h
    refine ⟨w, e, fun i => ⟨I.al i, (I.owns i).1, (I.owns i).size_le, fun k hk => ?_⟩⟩
    rw [← I.al i]
    exact at_ok (I.owns i) hk

theorem demo_inRange : Spec.InRange strTy.dflt strTy.eqv (fun _ => Spec.V.empty) demoOps := inRangeB_sound _ (by decide +kernel)

example : ((Spec.run strTy.dflt strTy.eqv (fun _ => Spec.V.empty) demoOps).map fun p => ((p.1 0).al, (p.1 0).l, (p.1 1).al, (p.1 1).l)) =
      some (1, [4], 0, []) ∧
    ((Spec.run strTy.dflt strTy.eqv (fun _ => Spec.V.empty) demoOps).map fun p => p.2.drop 6) =
      some [.bool true, .none, .nat 1, .nat 0, .none, .none, .none, .none, .none, .nat 0, .elem 4] := by
  constructor <;> decide +kernel

/-- **C71**, ownership. After every such history, each block that an allocator has handed out and not got back is the memory of exactly one
vector, and that vector reports this allocator. -/
theorem C71_blocks_have_one_owner (T : Ty α) (ops : List (Op α)) (hr : Spec.InRange T.dflt T.eqv (fun _ => Spec.V.empty) ops)
    {w : World α} {os : List (Obs α)} (h : run T World.init ops = .ok (w, os)) (a b : Nat) (hb : (w.heaps a).blocks b ≠ none) :
    ∃ i, ((w.vecs i).al = a ∧ (w.vecs i).v.data = some b) ∧
      ∀ j, (w.vecs j).al = a → (w.vecs j).v.data = some b → j = i := by
  have hrun := run_ok ops (Inv.init T) hr
  cases hsp : Spec.run T.dflt T.eqv (fun _ => Spec.V.empty) ops with
  | none => rw [hsp] at hrun; simp only at hrun; rw [hrun] at h; simp at h
  | some p =>
    obtain ⟨s, os'⟩ := p
    rw [hsp] at hrun
    obtain ⟨w1, e1, I, -⟩ := hrun
    rw [e1] at h
    simp only [Except.ok.injEq, Prod.mk.injEq] at h
    obtain ⟨rfl, rfl⟩ := h
    obtain ⟨i, hi⟩ := (I.sub a).all b hb
    have hal : (w1.vecs i).al = a := by
      by_cases ha : (w1.vecs i).al = a
      · exact ha
      · rw [sub_vecs_ne w1 ha] at hi; simp [Vec.empty] at hi
    refine ⟨i, ⟨hal, by rw [sub_vecs_eq w1 hal] at hi; exact hi⟩, ?_⟩
    intro j hj hd
    by_cases hij : j = i
    · exact hij
    · exact absurd hi ((I.sub a).dist j i b hij (by rw [sub_vecs_eq w1 hj]; exact hd))

example : ∃ w os, run strTy World.init demoOps = .ok (w, os) ∧ (w.heaps 1).blocks 2 ≠ none := by
  have h := run_ok demoOps (Inv.init strTy) demo_inRange
  obtain ⟨w, e, -⟩ := h
  have : (match run strTy World.init demoOps with | .ok (w, _) => (w.heaps 1).blocks 2 != none | _ => false) = true := by decide +kernel
  rw [e] at this
  exact ⟨w, _, e, by simpa using this⟩

/-- **C71**, no undefined behaviour: nothing is freed twice or to an allocator it did not come from, no dead memory is used. -/
theorem C71_no_undefined_behaviour (T : Ty α) (ops : List (Op α)) (hr : Spec.InRange T.dflt T.eqv (fun _ => Spec.V.empty) ops) :
    run T World.init ops ≠ .error .ub := by
  have h := run_ok ops (Inv.init T) hr
  cases hs : Spec.run T.dflt T.eqv (fun _ => Spec.V.empty) ops with
  | none => rw [hs] at h; simp only at h; rw [h]; simp
  | some p =>
    rw [hs] at h
    obtain ⟨w, e, -⟩ := h
    rw [e]; simp

/-- The variables a call can change. -/
def Op.targets : Op α → List Nat
  | .call i _ | .pushElem i _ _ | .assignNew i _ _ | .resetReserve i _ _ => [i]
  | .moveAssign i j | .moveCtor i j => [i, j]
  | .eq _ _ | .allocator _ => []

theorem dtor_vecs {T : Ty α} {w w' : World α} {x : AV} (h : dtor T w x = .ok w') : w'.vecs = w.vecs := by
  unfold dtor at h
  rw [R.bind_eq_ok] at h
  obtain ⟨h1, -, h⟩ := h
  cases h
  rfl

theorem onHeap_vecs {T : Ty α} {w w' : World α} {i k : Nat} {op : Vector.Op α} {o : Obs α} (h : onHeap T w i op = .ok (w', o))
    (hk : k ≠ i) : w'.vecs k = w.vecs k := by
  unfold onHeap at h
  dsimp only at h
  rw [R.bind_eq_ok] at h
  obtain ⟨⟨s, o'⟩, -, h⟩ := h
  cases h
  rw [setVec_ne _ _ hk]
  rfl

theorem step_vecs {T : Ty α} {w w' : World α} {op : Op α} {o : Obs α} (h : step T w op = .ok (w', o)) {k : Nat}
    (hk : k ∉ op.targets) : w'.vecs k = w.vecs k := by
  cases op <;> simp only [Op.targets, List.mem_cons, List.not_mem_nil, or_false, not_or] at hk <;>
    simp only [step] at h
  case call i c => exact onHeap_vecs h hk
  case pushElem i j m =>
    unfold pushElem at h
    split at h
    · exact onHeap_vecs h hk
    · rw [R.bind_eq_ok] at h
      obtain ⟨a, -, h⟩ := h
      exact onHeap_vecs h hk
  case eq i j =>
    rw [R.bind_eq_ok] at h
    obtain ⟨a, -, h⟩ := h
    cases h; rfl
  case allocator i => cases h; rfl
  case moveAssign i j =>
    rw [R.bind_eq_ok] at h
    obtain ⟨w1, h1, h⟩ := h
    cases h
    unfold moveAssign at h1
    rw [R.bind_eq_ok] at h1
    obtain ⟨w2, h2, h1⟩ := h1
    cases h1
    rw [setVec_ne _ _ hk.2, setVec_ne _ _ hk.1, dtor_vecs h2]
  case moveCtor i j =>
    rw [R.bind_eq_ok] at h
    obtain ⟨w1, h1, h⟩ := h
    cases h
    unfold moveCtor at h1
    dsimp only at h1
    rw [R.bind_eq_ok] at h1
    obtain ⟨w2, h2, h1⟩ := h1
    rw [dtor_vecs h1, setVec_ne _ _ hk.1, dtor_vecs h2, setVec_ne _ _ hk.2]
  case assignNew i a c =>
    rw [R.bind_eq_ok] at h
    obtain ⟨w1, h1, h⟩ := h
    cases h
    unfold assignNew at h1
    cases a with
    | none => cases h1
    | some a =>
      dsimp only at h1
      rw [R.bind_eq_ok] at h1
      obtain ⟨⟨hh, t⟩, -, h1⟩ := h1
      dsimp only at h1
      rw [R.bind_eq_ok] at h1
      obtain ⟨w2, h2, h1⟩ := h1
      rw [dtor_vecs h1, setVec_ne _ _ hk, dtor_vecs h2]
      rfl
  case resetReserve i a n =>
    rw [R.bind_eq_ok] at h
    obtain ⟨w1, h1, h⟩ := h
    cases h
    unfold resetReserve at h1
    rw [R.bind_eq_ok] at h1
    obtain ⟨w2, h2, h1⟩ := h1
    have hw2 : w2.vecs k = w.vecs k := by
      unfold destroyContents at h2
      dsimp only at h2
      split at h2
      · rw [R.bind_eq_ok] at h2
        obtain ⟨w3, h3, h2⟩ := h2
        cases h2
        rw [setVec_ne _ _ hk, dtor_vecs h3]
      · cases h2; rfl
    cases a with
    | none => cases h1
    | some a =>
      dsimp only at h1
      rw [R.bind_eq_ok] at h1
      obtain ⟨⟨hh, t⟩, -, h1⟩ := h1
      cases h1
      rw [setVec_ne _ _ hk]
      exact hw2

theorem run_vecs {T : Ty α} (ops : List (Op α)) : ∀ {w w' : World α} {os : List (Obs α)}, run T w ops = .ok (w', os) → ∀ {k : Nat},
    (∀ op ∈ ops, k ∉ op.targets) → w'.vecs k = w.vecs k := by
  induction ops with
  | nil => intro w w' os h k _; cases h; rfl
  | cons op ops ih =>
    intro w w' os h k hk
    simp only [run] at h
    rw [R.bind_eq_ok] at h
    obtain ⟨⟨w1, o⟩, h1, h⟩ := h
    rw [R.bind_eq_ok] at h
    obtain ⟨⟨w2, os2⟩, h2, h⟩ := h
    simp only [Except.ok.injEq, Prod.mk.injEq] at h
    obtain ⟨rfl, rfl⟩ := h
    rw [ih h2 (fun op hop => hk op (by simp [hop])), step_vecs h1 (hk op (by simp))]

/-- **C71**, everything goes back. A program that uses vector variables below `n`, stays inside the limits and in contract: after its
vectors are destroyed every allocator has got back every block it handed out; and if the program does not call `shrink_to_fit` on
vectors of a type with a destructor (see `C19_shrink_to_fit_leaks`), every element has been destroyed. -/
theorem C71_all_memory_returned (T : Ty α) (ops : List (Op α)) (n : Nat) (hn : ∀ op ∈ ops, ∀ i ∈ op.targets, i < n)
    (hr : Spec.InRange T.dflt T.eqv (fun _ => Spec.V.empty) ops)
    (hc : (Spec.run T.dflt T.eqv (fun _ => Spec.V.empty) ops).isSome) :
    ∃ w os w', run T World.init ops = .ok (w, os) ∧ destroyUpto T w n = .ok w' ∧
      (∀ a b, (w'.heaps a).blocks b = none) ∧
      ((T.triv = true ∨ ∀ i, .call i .shrinkToFit ∉ ops) → ∀ a, (w'.heaps a).leaked = 0) := by
  have h := run_ok ops (Inv.init T) hr
  cases hsp : Spec.run T.dflt T.eqv (fun _ => Spec.V.empty) ops with
  | none => rw [hsp] at hc; simp at hc
  | some p =>
    rw [hsp] at h
    obtain ⟨w, e, I, lk⟩ := h
    obtain ⟨w', s', e', I', lk', hv, hv'⟩ := destroyUpto_ok n I
    refine ⟨w, p.2, w', e, e', ?_, ?_⟩
    · intro a b
      by_cases hb : (w'.heaps a).blocks b = none
      · exact hb
      · obtain ⟨i, hi⟩ := (I'.sub a).all b hb
        have hx : w'.vecs i = AV.empty := by
          rcases Nat.lt_or_ge i n with h1 | h1
          · exact hv i h1
          · rw [hv' i h1, run_vecs ops e]
            · rfl
            · intro op hop hmem
              have := hn op hop i hmem
              omega
        unfold World.sub at hi
        dsimp only at hi
        rw [hx] at hi
        by_cases h0 : AV.empty.al = a
        · rw [if_pos h0] at hi; simp [AV.empty, Vec.empty] at hi
        · rw [if_neg h0] at hi; simp [Vec.empty] at hi
    · intro hs a
      rw [lk', (lk a).2]
      · rfl
      · intro op hop
        rcases hs with hs | hs
        · exact Or.inl hs
        · exact Or.inr (fun i hi => hs i (hi ▸ hop))

example : (∀ op ∈ demoOps, ∀ i ∈ op.targets, i < 3) ∧
    (Spec.run strTy.dflt strTy.eqv (fun _ => Spec.V.empty) demoOps).isSome = true ∧ ∀ i, Op.call i .shrinkToFit ∉ demoOps := by
  refine ⟨by decide, by decide +kernel, ?_⟩
  intro i h
  simp [demoOps] at h

/-- **C71**, moves. After any history, move construction and move assignment between different vectors hand over elements, memory and
allocator without touching any element; the source is empty and uses the system allocator. Move assignment of a vector to itself
destroys its elements. -/
theorem C71_moves (T : Ty α) (ops : List (Op α)) (hr : Spec.InRange T.dflt T.eqv (fun _ => Spec.V.empty) ops)
    {w : World α} {os : List (Obs α)} (h : run T World.init ops = .ok (w, os)) (i j : Nat) :
    (∃ w1, step T w (.moveCtor i j) = .ok (w1, .none) ∧ w1.vecs i = w.vecs j ∧ (i ≠ j → w1.vecs j = ⟨system, Vec.empty⟩)) ∧
    (∃ w2, step T w (.moveAssign i j) = .ok (w2, .none) ∧ (i ≠ j → w2.vecs i = w.vecs j) ∧ w2.vecs j = ⟨system, Vec.empty⟩) := by
  have hrun := run_ok ops (Inv.init T) hr
  cases hsp : Spec.run T.dflt T.eqv (fun _ => Spec.V.empty) ops with
  | none => rw [hsp] at hrun; simp only at hrun; rw [hrun] at h; simp at h
  | some p =>
    obtain ⟨s, os'⟩ := p
    rw [hsp] at hrun
    obtain ⟨w0, e0, I, -⟩ := hrun
    rw [e0] at h
    simp only [Except.ok.injEq, Prod.mk.injEq] at h
    obtain ⟨rfl, rfl⟩ := h
    constructor
    · obtain ⟨w1, e1, -⟩ := moveCtor_ok I (i := i) (j := j) (clean := True)
      refine ⟨w1, e1, ?_, ?_⟩
      all_goals
        simp only [step] at e1
        rw [R.bind_eq_ok] at e1
        obtain ⟨w2, h2, e1⟩ := e1
        cases e1
        unfold moveCtor at h2
        dsimp only at h2
        rw [R.bind_eq_ok] at h2
        obtain ⟨w3, h3, h2⟩ := h2
        rw [dtor_vecs h2]
      · rw [setVec_at]
      · intro hij
        rw [setVec_ne _ _ (Ne.symm hij), dtor_vecs h3, setVec_at]; rfl
    · obtain ⟨w1, e1, -⟩ := moveAssign_ok I (i := i) (j := j) (clean := True)
      refine ⟨w1, e1, ?_, ?_⟩
      all_goals
        simp only [step] at e1
        rw [R.bind_eq_ok] at e1
        obtain ⟨w2, h2, e1⟩ := e1
        cases e1
        unfold moveAssign at h2
        rw [R.bind_eq_ok] at h2
        obtain ⟨w3, h3, h2⟩ := h2
        cases h2
      · intro hij
        rw [setVec_ne _ _ hij, setVec_at, dtor_vecs h3]
      · rw [setVec_at]; rfl

example : ∃ w os, run strTy World.init (demoOps.take 6) = .ok (w, os) ∧ (w.vecs 0).al = 1 ∧ (w.vecs 1).al = 2 ∧ (w.vecs 0).v.size = 6 := by
  refine ⟨_, _, rfl, ?_, ?_, ?_⟩ <;> decide +kernel

end Verif.AVec
