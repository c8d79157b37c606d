import Verif.Vector.RefLemmas

/-!
Property C133: references, pointers and iterators to the elements of a vector (and of an `alloc_vector`, which runs the same
code). A reference is the memory it was taken from and the index of the element. Which vector has that memory after a
history, and what `capacity()` is, is said in `RefSpec.lean`.
-/
namespace Verif.Vector
open Verif.Mem

variable {α : Type}

/-- **C133.** `capacity()` after every history is what `Spec.capStep` says call by call. -/
theorem C133_capacity (T : Ty α) (ops : List (Op α)) (hr : Spec.InRange T.dflt T.eqv (fun _ => []) ops) {w : World α}
    {os : List (Obs α)} (h : run T World.init ops = .ok (w, os)) (j : Nat) :
    (w.vecs j).cap = Spec.capRun T.dflt T.eqv (fun _ => []) (fun _ => 0) ops j := by
  obtain ⟨s2, -, -, hc, -⟩ := track_run ops (p := none) (t := none) (Inv.init T) hr h (by intro b hb; cases hb)
  exact hc j

theorem inRange_append {dflt : α} {eqv : α → α → Bool} (ops1 : List (Op α)) : ∀ {s s1 : Spec.Lists α} {ops2 : List (Op α)}
    {os : List (Obs α)}, Spec.InRange dflt eqv s (ops1 ++ ops2) → Spec.run dflt eqv s ops1 = some (s1, os) →
    Spec.InRange dflt eqv s1 ops2 := by
  induction ops1 with
  | nil =>
    intro s s1 ops2 os h e
    simp only [Spec.run, Option.some.injEq, Prod.mk.injEq] at e
    rw [← e.1]; exact h
  | cons op ops ih =>
    intro s s1 ops2 os h e
    cases hs : Spec.step dflt eqv s op with
    | none => simp only [Spec.run, hs, Option.bind_eq_bind, Option.bind_none] at e; cases e
    | some q =>
      obtain ⟨s', o⟩ := q
      simp only [Spec.run, hs, Option.bind_eq_bind, Option.bind_some] at e
      cases hs2 : Spec.run dflt eqv s' ops with
      | none => rw [hs2] at e; cases e
      | some q2 =>
        obtain ⟨s2, o2⟩ := q2
        rw [hs2] at e
        simp only [Option.bind_some, Option.some.injEq, Prod.mk.injEq] at e
        rw [← e.1]
        exact ih (h.2.2 s' o hs) hs2

theorem inRange_left {dflt : α} {eqv : α → α → Bool} (ops1 : List (Op α)) : ∀ {s : Spec.Lists α} {ops2 : List (Op α)},
    Spec.InRange dflt eqv s (ops1 ++ ops2) → Spec.InRange dflt eqv s ops1 := by
  induction ops1 with
  | nil => intro s ops2 _; trivial
  | cons op ops ih =>
    intro s ops2 h
    exact ⟨h.1, h.2.1, fun s' o hs => ih (h.2.2 s' o hs)⟩

/-- **C133.** After any history `ops1` a program takes references to elements of vector `i`, and makes any calls `ops2` on any
vectors. If the specification says that vector `j` then has the memory, the reference taken to index `k` is one to the
current element `k` of vector `j`, for reading as well as for writing, and using it behind the last element is undefined
behaviour. If it says that the memory was given back, every use is undefined behaviour. -/
theorem C133_references (T : Ty α) (ops1 ops2 : List (Op α)) (hr : Spec.InRange T.dflt T.eqv (fun _ => []) (ops1 ++ ops2))
    {w1 w2 : World α} {os1 os2 : List (Obs α)} (h1 : run T World.init ops1 = .ok (w1, os1))
    (h2 : run T w1 ops2 = .ok (w2, os2)) (i : Nat) :
    ∃ s1 s2, Spec.run T.dflt T.eqv (fun _ => []) ops1 = some (s1, os1) ∧ Spec.run T.dflt T.eqv s1 ops2 = some (s2, os2) ∧
      match Spec.trackRun T.dflt T.eqv s1 (Spec.capRun T.dflt T.eqv (fun _ => []) (fun _ => 0) ops1) (some i) ops2 with
      | some j =>
        (∀ k a, (s2 j)[k]? = some a → read w2.heap (w1.vecs i).data k = .ok a) ∧
        (∀ k a, k < (s2 j).length → assign w2.heap (w1.vecs i).data k a = setAt w2.heap (w2.vecs j) k a) ∧
        (T.triv = false → ∀ k, (s2 j).length ≤ k → read w2.heap (w1.vecs i).data k = .error .ub)
      | none => ∀ k, read w2.heap (w1.vecs i).data k = .error .ub := by
  obtain ⟨s1, g1, I1, hc1, -⟩ := track_run ops1 (p := none) (t := none) (Inv.init T) (inRange_left ops1 hr) h1
    (by intro b hb; cases hb)
  obtain ⟨s2, g2, I2, -, ha⟩ := track_run ops2 (p := (w1.vecs i).data) (t := some i) I1 (inRange_append ops1 hr g1) h2 rfl
  refine ⟨s1, s2, g1, g2, ?_⟩
  have hcaps : (fun i => (w1.vecs i).cap) = Spec.capRun T.dflt T.eqv (fun _ => []) (fun _ => 0) ops1 := funext hc1
  rw [hcaps] at ha
  cases ht : Spec.trackRun T.dflt T.eqv s1 (Spec.capRun T.dflt T.eqv (fun _ => []) (fun _ => 0) ops1) (some i) ops2 with
  | none =>
    rw [ht] at ha
    exact fun k => read_gone ha k
  | some j =>
    rw [ht] at ha
    have hd : (w2.vecs j).data = (w1.vecs i).data := ha
    refine ⟨?_, ?_, ?_⟩
    · intro k a hk
      rw [← hd]; exact (I2.owns j).read_ok hk
    · intro k a hk
      unfold setAt
      rw [ccAssert_true (by simpa [(I2.owns j).1] using hk), ← hd]
      rfl
    · intro ht k hk
      rw [← hd]; exact (I2.owns j).read_bad ht hk

/-- Six elements in memory for eight; the reference taken to one of them follows the elements of the vector through removal,
insertion within the capacity and a move to another vector ... -/
example : Spec.trackRun (α := Nat) 0 (· == ·) (fun i => if i = 0 then [1, 2, 3, 4, 5, 6] else []) (fun i => if i = 0 then 8 else 0)
    (some 0) [.removeAt 0 2, .insertRange 0 1 [8, 9, 7], .copyAssign 0 0, .shrinkToFit 0, .moveAssign 3 0, .popBack 3] =
    some 3 := by decide +kernel

/-- ... and is lost when the capacity changes. -/
example : Spec.trackRun (α := Nat) 0 (· == ·) (fun i => if i = 0 then [1, 2, 3, 4, 5, 6] else []) (fun i => if i = 0 then 8 else 0)
    (some 0) [.pushBack 0 (.val 7), .pushBack 0 (.elem 0 0), .pushBack 0 (.val 9), .popBack 0] = none := by decide +kernel

/-- The same in the model: a history, references to elements 0 and 2, and what they read later. -/
def refDemo (ops1 ops2 : List (Op Nat)) (k : Nat) : R Nat := do
  let (w1, _) ← run strTy World.init ops1
  let (w2, _) ← run strTy w1 ops2
  read w2.heap (w1.vecs 0).data k

example : refDemo [.reserve 0 4, .pushRange 0 true false [1, 2, 3]] [.pushBack 0 (.elem 0 0), .removeAt 0 0, .moveAssign 3 0] 2 = .ok 1 ∧
    refDemo [.reserve 0 4, .pushRange 0 true false [1, 2, 3]] [.pushBack 0 (.elem 0 0), .removeAt 0 0, .moveAssign 3 0] 3 =
      .error .ub ∧
    refDemo [.reserve 0 4, .pushRange 0 true false [1, 2, 3]] [.pushRange 0 false false [8, 9]] 2 = .error .ub := by
  decide +kernel

/-- **C133.** In particular: whatever is done, as long as no call changes the `capacity()` of a vector and it is not
assigned to or from as a whole, references to its elements stay references to the elements at their index. -/
theorem C133_same_capacity (T : Ty α) (ops1 : List (Op α)) (op : Op α)
    (hr : Spec.InRange T.dflt T.eqv (fun _ => []) (ops1 ++ [op])) {w1 w2 : World α} {os1 : List (Obs α)} {o : Obs α}
    (h1 : run T World.init ops1 = .ok (w1, os1)) (h2 : step T w1 op = .ok (w2, o)) (i : Nat)
    (hm : ∀ j, op ≠ .moveAssign i j ∧ op ≠ .moveAssign j i) (hn : ∀ c, op ≠ .assignNew i c) :
    ((w2.vecs i).cap = (w1.vecs i).cap →
      ∀ k, k < (w2.vecs i).size → read w2.heap (w1.vecs i).data k = at_ w2.heap (w2.vecs i) k) ∧
    ((w2.vecs i).cap ≠ (w1.vecs i).cap → ∀ k, read w2.heap (w1.vecs i).data k = .error .ub) := by
  obtain ⟨s1, g1, I1, hc1, -⟩ := track_run ops1 (p := none) (t := none) (Inv.init T) (inRange_left ops1 hr) h1
    (by intro b hb; cases hb)
  have hr2 := inRange_append ops1 hr g1
  have hf := step_fx I1 hr2.1 hr2.2.1 h2
  have hrun : run T w1 [op] = .ok (w2, [o]) := by
    simp only [run, h2, R.ok_bind]
  obtain ⟨s2, g2, I2, -, ha⟩ := track_run [op] (p := (w1.vecs i).data) (t := some i) I1 hr2 hrun rfl
  have ht : Spec.track s1 (fun i => (w1.vecs i).cap) op (some i) =
      if (w2.vecs i).cap = (w1.vecs i).cap then some i else none := by
    rw [hf.caps i]
    cases op with
    | moveAssign a b =>
      have ha' : ¬ a = i := by intro h; subst h; exact (hm b).1 rfl
      have hb' : ¬ b = i := by intro h; subst h; exact (hm a).2 rfl
      simp only [Spec.track, Spec.capStep, Spec.updc]
      have ha2 : ¬ i = a := fun h => ha' h.symm
      have hb2 : ¬ i = b := fun h => hb' h.symm
      simp only [ha', hb', ha2, hb2, if_false, if_true]
    | assignNew a c =>
      have ha' : ¬ a = i := by intro h; subst h; exact hn c rfl
      simp only [Spec.track, Spec.capStep, Spec.updc]
      have ha2 : ¬ i = a := fun h => ha' h.symm
      simp only [ha', ha2, if_false, if_true]
    | _ => rfl
  cases hs : Spec.step T.dflt T.eqv s1 op with
  | none => simp only [Spec.run, hs, Option.bind_eq_bind, Option.bind_none] at g2; cases g2
  | some q =>
    simp only [Spec.trackRun, hs] at ha
    rw [ht] at ha
    constructor
    · intro hcap k hk
      rw [if_pos hcap] at ha
      have hd : (w2.vecs i).data = (w1.vecs i).data := ha
      unfold at_
      rw [ccAssert_true (by simpa using hk), hd]
      rfl
    · intro hcap k
      rw [if_neg hcap] at ha
      exact read_gone ha k

/-- A vector with room for two more elements: two `push_back` keep the references, the third does not. -/
example : ∃ w1 w2 os1 o, run strTy World.init [.reserve 0 4, .pushBack 0 (.val 1), .pushBack 0 (.val 2)] = .ok (w1, os1) ∧
    step strTy w1 (.pushBack 0 (.elem 0 1)) = .ok (w2, o) ∧ (w2.vecs 0).cap = (w1.vecs 0).cap ∧ (w2.vecs 0).size = 3 := by
  refine ⟨_, _, _, _, rfl, rfl, rfl, rfl⟩

end Verif.Vector
