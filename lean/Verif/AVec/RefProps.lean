import Verif.AVec.RefLemmas

/-!
Property C142: references, pointers and iterators to the elements of an `alloc_vector`. A reference is the memory it was taken
from, in the heap of one allocator, and the index of the element. `RefSpec.lean` says which vector has that memory after a
history, and what `capacity()` is.
-/
namespace Verif.AVec
open Verif.Mem Verif.Vector

variable {α : Type}

/-- **C142.** `capacity()` after every history is what `Spec.capStep` says call by call; it does not depend on the allocators. -/
theorem C142_capacity (T : Ty α) (ops : List (Op α)) (hr : Spec.InRange T.dflt T.eqv (fun _ => Spec.V.empty) ops) {w : World α}
    {os : List (Obs α)} (h : run T World.init ops = .ok (w, os)) (j : Nat) :
    (w.vecs j).v.cap = Spec.capRun T.dflt T.eqv (fun _ => Spec.V.empty) (fun _ => 0) ops j := by
  obtain ⟨s2, -, -, hc, -⟩ := track_run ops (a := 0) (p := none) (t := none) (Inv.init T) hr h (by intro b hb; cases hb)
  exact hc j

theorem inRange_append {dflt : α} {eqv : α → α → Bool} (ops1 : List (Op α)) : ∀ {s s1 : Spec.State α} {ops2 : List (Op α)}
    {os : List (Obs α)}, Spec.InRange dflt eqv s (ops1 ++ ops2) → Spec.run dflt eqv s ops1 = some (s1, os) →
    Spec.InRange dflt eqv s1 ops2 := by
  induction ops1 with
  | nil =>
    intro s s1 ops2 os h e
    simp only [Spec.run, Option.some.injEq, Prod.mk.injEq] at e
    rw [← e.1]; exact h
  | cons op ops ih =>
    intro s s1 ops2 os h e
    cases hs : Spec.step dflt eqv s op with
    | none => simp only [Spec.run, hs, Option.bind_eq_bind, Option.bind_none] at e; cases e
    | some q =>
      obtain ⟨s', o⟩ := q
      simp only [Spec.run, hs, Option.bind_eq_bind, Option.bind_some] at e
      cases hs2 : Spec.run dflt eqv s' ops with
      | none => rw [hs2] at e; cases e
      | some q2 =>
        obtain ⟨s2, o2⟩ := q2
        rw [hs2] at e
        simp only [Option.bind_some, Option.some.injEq, Prod.mk.injEq] at e
        rw [← e.1]
        exact ih (h.2.2 s' o hs) hs2

theorem inRange_left {dflt : α} {eqv : α → α → Bool} (ops1 : List (Op α)) : ∀ {s : Spec.State α} {ops2 : List (Op α)},
    Spec.InRange dflt eqv s (ops1 ++ ops2) → Spec.InRange dflt eqv s ops1 := by
  induction ops1 with
  | nil => intro s ops2 _; trivial
  | cons op ops ih =>
    intro s ops2 h
    exact ⟨h.1, h.2.1, fun s' o hs => ih (h.2.2 s' o hs)⟩

/-- **C142.** After any history `ops1` a program takes references to elements of vector `i`, whose allocator is `a`, and makes any
calls `ops2` on any vectors with any allocators. If the specification says that vector `j` then has the memory, that vector uses
allocator `a`, the reference taken to index `k` is one to the current element `k` of vector `j`, for reading as well as for
writing, and using it behind the last element is undefined behaviour. If it says that the memory was given back, every
use is undefined behaviour. -/
theorem C142_references (T : Ty α) (ops1 ops2 : List (Op α))
    (hr : Spec.InRange T.dflt T.eqv (fun _ => Spec.V.empty) (ops1 ++ ops2))
    {w1 w2 : World α} {os1 os2 : List (Obs α)} (h1 : run T World.init ops1 = .ok (w1, os1))
    (h2 : run T w1 ops2 = .ok (w2, os2)) (i : Nat) :
    ∃ s1 s2, Spec.run T.dflt T.eqv (fun _ => Spec.V.empty) ops1 = some (s1, os1) ∧
      Spec.run T.dflt T.eqv s1 ops2 = some (s2, os2) ∧
      match Spec.trackRun T.dflt T.eqv s1 (Spec.capRun T.dflt T.eqv (fun _ => Spec.V.empty) (fun _ => 0) ops1) (some i) ops2 with
      | some j =>
        (s2 j).al = (s1 i).al ∧
        (∀ k a, (s2 j).l[k]? = some a → read (w2.heaps (s1 i).al) (w1.vecs i).v.data k = .ok a) ∧
        (∀ k a, k < (s2 j).l.length →
          assign (w2.heaps (s1 i).al) (w1.vecs i).v.data k a = setAt (w2.heaps (s2 j).al) (w2.vecs j).v k a) ∧
        (T.triv = false → ∀ k, (s2 j).l.length ≤ k → read (w2.heaps (s1 i).al) (w1.vecs i).v.data k = .error .ub)
      | none => ∀ k, read (w2.heaps (s1 i).al) (w1.vecs i).v.data k = .error .ub := by
  obtain ⟨s1, g1, I1, hc1, -⟩ := track_run ops1 (a := 0) (p := none) (t := none) (Inv.init T) (inRange_left ops1 hr) h1
    (by intro b hb; cases hb)
  obtain ⟨s2, g2, I2, -, ha⟩ := track_run ops2 (a := (s1 i).al) (p := (w1.vecs i).v.data) (t := some i) I1
    (inRange_append ops1 hr g1) h2 ⟨I1.al i, rfl⟩
  refine ⟨s1, s2, g1, g2, ?_⟩
  have hcaps : w1.caps = Spec.capRun T.dflt T.eqv (fun _ => Spec.V.empty) (fun _ => 0) ops1 := funext hc1
  rw [hcaps] at ha
  cases ht : Spec.trackRun T.dflt T.eqv s1 (Spec.capRun T.dflt T.eqv (fun _ => Spec.V.empty) (fun _ => 0) ops1) (some i) ops2 with
  | none =>
    rw [ht] at ha
    exact fun k => read_gone ha k
  | some j =>
    rw [ht] at ha
    obtain ⟨hal, hd⟩ := ha
    have ho := I2.owns j
    rw [hal] at ho
    have hal2 : (s2 j).al = (s1 i).al := by rw [← I2.al j]; exact hal
    refine ⟨hal2, ?_, ?_, ?_⟩
    · intro k a hk
      rw [← hd]; exact ho.read_ok hk
    · intro k a hk
      unfold setAt
      rw [ccAssert_true (by simpa [ho.1] using hk), ← hd, hal2]
      rfl
    · intro ht k hk
      rw [← hd]; exact ho.read_bad ht hk

/-- **C142.** In particular: a call of a member function of vector `i` (other than assignment and `reset_reserve`) leaves all
references to its elements valid if it leaves `capacity()` as it is, and none if it does not. References to elements of other
vectors read what they read before, whatever their allocators. -/
theorem C142_same_capacity (T : Ty α) (ops1 : List (Op α)) (i : Nat) (c : Call α)
    (hr : Spec.InRange T.dflt T.eqv (fun _ => Spec.V.empty) (ops1 ++ [.call i c])) {w1 w2 : World α} {os1 : List (Obs α)}
    {o : Obs α} (h1 : run T World.init ops1 = .ok (w1, os1)) (h2 : step T w1 (.call i c) = .ok (w2, o)) :
    ((w2.vecs i).v.cap = (w1.vecs i).v.cap → ∀ k, k < (w2.vecs i).v.size →
      read (w2.heaps (w1.vecs i).al) (w1.vecs i).v.data k = at_ (w2.heaps (w2.vecs i).al) (w2.vecs i).v k) ∧
    ((w2.vecs i).v.cap ≠ (w1.vecs i).v.cap → ∀ k, read (w2.heaps (w1.vecs i).al) (w1.vecs i).v.data k = .error .ub) ∧
    (∀ j, j ≠ i → ∀ k, k < (w1.vecs j).v.size →
      read (w2.heaps (w1.vecs j).al) (w1.vecs j).v.data k = at_ (w1.heaps (w1.vecs j).al) (w1.vecs j).v k) := by
  obtain ⟨s1, g1, I1, -, -⟩ := track_run ops1 (a := 0) (p := none) (t := none) (Inv.init T) (inRange_left ops1 hr) h1
    (by intro b hb; cases hb)
  have hr2 := inRange_append ops1 hr g1
  have hf := step_fx I1 hr2.1 hr2.2.1 h2
  have hst := step_ok I1 hr2.1 hr2.2.1
  obtain ⟨s2, hs, I2⟩ : ∃ s2, Spec.step T.dflt T.eqv s1 (.call i c) = some (s2, o) ∧ Inv T w2 s2 := by
    cases hs : Spec.step T.dflt T.eqv s1 (.call i c) with
    | none => rw [hs] at hst; simp only [StepOK] at hst; rw [hst] at h2; cases h2
    | some q =>
      rw [hs] at hst
      obtain ⟨w', e, I', -⟩ := hst
      rw [e] at h2
      simp only [Except.ok.injEq, Prod.mk.injEq] at h2
      obtain ⟨rfl, rfl⟩ := h2
      exact ⟨q.1, rfl, I'⟩
  have ht : ∀ j, Spec.track s1 w1.caps (.call i c) (some j) =
      if (w2.vecs j).v.cap = (w1.vecs j).v.cap then some j else none := by
    intro j; rw [hf.caps j]; rfl
  refine ⟨?_, ?_, ?_⟩
  · intro hcap k hk
    obtain ⟨k1, k2⟩ := hf.keep i i (by rw [ht, if_pos hcap])
    unfold at_
    rw [ccAssert_true (by simpa using hk), k1, k2]
    rfl
  · intro hcap k
    have ha := at_step I1 I2 hf (a := (w1.vecs i).al) (p := (w1.vecs i).v.data) (t := some i) ⟨rfl, rfl⟩
    rw [ht, if_neg hcap] at ha
    exact read_gone ha k
  · intro j hj k hk
    have hv : w2.vecs j = w1.vecs j := step_vecs h2 (by simp [Op.targets, hj])
    have hsj : (s2 j) = (s1 j) := by
      simp only [Spec.step] at hs
      cases hcc : Spec.call T.dflt T.eqv (s1 i).l c with
      | none => rw [hcc] at hs; cases hs
      | some r =>
        rw [hcc] at hs
        simp only [Option.map_some, Option.some.injEq, Prod.mk.injEq] at hs
        rw [← hs.1]; simp [Spec.upd, hj]
    have o1 := I1.owns j
    have o2 := I2.owns j
    rw [hv, hsj] at o2
    have hk' : k < (s1 j).l.length := by rw [← o1.1]; exact hk
    have he : (s1 j).l[k]? = some (s1 j).l[k] := List.getElem?_eq_getElem hk'
    rw [o2.read_ok he, Vector.at_ok o1 hk']

/-- A history, a reference to element `k` of vector 0 with allocator `a`, a second history, and what the reference reads then. -/
def refDemo (ops1 ops2 : List (Op Nat)) (a k : Nat) : R Nat := do
  let (w1, _) ← run strTy World.init ops1
  let (w2, _) ← run strTy w1 ops2
  read (w2.heaps a) (w1.vecs 0).v.data k

/-- The first part of the histories below. -/
def refDemoOps : List (Op Nat) := [.resetReserve 0 (some 1) 4, .call 0 (.pushRange true false [1, 2, 3])]

/-- Three elements with allocator 1 in memory for four: a reference to element 2 follows the elements through `push_back` within
the capacity, removal and a move to vector 3, which gets allocator 1 ... -/
example : refDemo refDemoOps [.pushElem 0 0 0, .call 0 (.removeAt 0), .moveAssign 3 0] 1 2 = .ok 1 ∧
    (Spec.run strTy.dflt strTy.eqv (fun _ => Spec.V.empty) refDemoOps).bind (fun p =>
      Spec.trackRun strTy.dflt strTy.eqv p.1 (fun i => if i = 0 then 4 else 0) (some 0)
        [.pushElem 0 0 0, .call 0 (.removeAt 0), .moveAssign 3 0]) = some 3 := by decide +kernel

/-- ... and is lost when the capacity changes or the vector is reset, even with the same allocator and capacity. -/
example : refDemo refDemoOps [.call 0 (.pushRange false false [8, 9])] 1 2 = .error .ub ∧
    refDemo refDemoOps [.resetReserve 0 (some 1) 4, .call 0 (.pushRange true false [1, 2, 3])] 1 2 = .error .ub ∧
    refDemo refDemoOps [.moveCtor 0 0, .call 0 .popBack] 1 1 = .ok 2 := by decide +kernel

/-- The histories above are within the limits. -/
example : Spec.InRange strTy.dflt strTy.eqv (fun _ => Spec.V.empty)
    (refDemoOps ++ [.pushElem 0 0 0, .call 0 (.removeAt 0), .moveAssign 3 0]) := inRangeB_sound _ (by decide +kernel)

/-- A call that keeps the capacity, one that does not. -/
example : ∃ w1 w2 os1 o, run strTy World.init refDemoOps = .ok (w1, os1) ∧
    step strTy w1 (.call 0 (.pushBack 7)) = .ok (w2, o) ∧ (w2.vecs 0).v.cap = (w1.vecs 0).v.cap ∧ (w2.vecs 0).v.size = 4 :=
  ⟨_, _, _, _, rfl, rfl, rfl, rfl⟩

end Verif.AVec
