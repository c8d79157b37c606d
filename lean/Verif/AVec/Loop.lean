import Verif.AVec.RefProps

/-!
Model of a range-based `for` loop over an `alloc_vector` whose body calls whatever it likes: `begin()` and `end()`
(/repo/src/clean-core/detail/vector_base.hh:76-79, inherited by alloc_vector.hh:12) are plain pointers, taken once before the loop
starts. They point into the memory of the allocator the vector had at that time.
-/
namespace Verif.AVec
open Verif.Mem Verif.Vector

variable {α : Type}

/-- What the body does: calls on any vectors with any allocators, which may depend on the elements it has been given so far (the
last one is the current one). -/
abbrev Body (α : Type) := List α → List (Op α)

/-- `for (; it != end; ++it) body(*it)` with `it = p + k` in the memory of allocator `h` and `n` rounds to go (vector_base.hh:76-79).
The comparison is that of the pointers taken before the loop, so the number of rounds is fixed; reading through them is what
can go wrong. -/
def loopFrom (T : Ty α) (body : Body α) (h : Nat) (p : Ptr) (w : World α) (k : Nat) (shown : List α) : Nat → R (World α × List α)
  | 0 => .ok (w, shown)
  | n + 1 => do
    let a ← read (w.heaps h) p k
    let (w, _) ← run T w (body (shown ++ [a]))
    loopFrom T body h p w (k + 1) (shown ++ [a]) n

/-- `for (auto& x : vecs[i]) body(x)` (vector_base.hh:76-79). -/
def loop (T : Ty α) (w : World α) (i : Nat) (body : Body α) : R (World α × List α) :=
  loopFrom T body (w.vecs i).al (w.vecs i).v.data w 0 [] (w.vecs i).v.size

namespace Spec
open Verif.Vector.Spec (Caps)

/-- What the loop has to do, on lists: there are as many rounds as there were elements at the beginning; round `k` shows what is at
position `k` of the vector at that time. `t` is the vector that has the memory the loop goes over. -/
def loopFrom (dflt : α) (eqv : α → α → Bool) (body : Body α) (s : State α) (c : Caps) (t : Option Nat) (k : Nat) (shown : List α) :
    Nat → R (State α × List α)
  | 0 => .ok (s, shown)
  | n + 1 =>
    match t with
    | none => .error .ub
    | some j =>
      match (s j).l[k]? with
      | none => .error .ub
      | some a =>
        match run dflt eqv s (body (shown ++ [a])) with
        | none => .error .assert
        | some (s', _) =>
          loopFrom dflt eqv body s' (capRun dflt eqv s c (body (shown ++ [a])))
            (trackRun dflt eqv s c t (body (shown ++ [a]))) (k + 1) (shown ++ [a]) n

/-- The calls of the body stay below the limits of `InRange`. -/
def LoopInRange (dflt : α) (eqv : α → α → Bool) (body : Body α) (s : State α) (t : Option Nat) (c : Caps) (k : Nat) (shown : List α) :
    Nat → Prop
  | 0 => True
  | n + 1 =>
    ∀ j a, t = some j → (s j).l[k]? = some a →
      InRange dflt eqv s (body (shown ++ [a])) ∧
      ∀ s' os, run dflt eqv s (body (shown ++ [a])) = some (s', os) →
        LoopInRange dflt eqv body s' (trackRun dflt eqv s c t (body (shown ++ [a])))
          (capRun dflt eqv s c (body (shown ++ [a]))) (k + 1) (shown ++ [a]) n

end Spec

/-- The vectors of `w` have the allocators and elements of `s`. -/
def Holds (w : World α) (s : Spec.State α) : Prop :=
  ∀ j, (w.vecs j).al = (s j).al ∧ (w.vecs j).v.size = (s j).l.length ∧
    ∀ k a, (s j).l[k]? = some a → at_ (w.heaps (w.vecs j).al) (w.vecs j).v k = .ok a

theorem Inv.holds {T : Ty α} {w : World α} {s : Spec.State α} (I : Inv T w s) : Holds w s := by
  intro j
  refine ⟨I.al j, (I.owns j).1, ?_⟩
  intro k a hk
  obtain ⟨hlt, rfl⟩ := List.getElem?_eq_some_iff.1 hk
  exact at_ok (I.owns j) hlt

/-- What the loop does, compared to what it has to do. -/
def Match (r : R (World α × List α)) : R (Spec.State α × List α) → Prop
  | .error f => r = .error f
  | .ok (s, shown) => ∃ w, r = .ok (w, shown) ∧ Holds w s

theorem run_sound {T : Ty α} {ops : List (Op α)} {w : World α} {s : Spec.State α} {h : Nat} {p : Ptr} {t : Option Nat} (I : Inv T w s)
    (hr : Spec.InRange T.dflt T.eqv s ops) (ha : At w h p t) :
    match Spec.run T.dflt T.eqv s ops with
    | none => run T w ops = .error .assert
    | some (s', os) => ∃ w', run T w ops = .ok (w', os) ∧ Inv T w' s' ∧
        w'.caps = Spec.capRun T.dflt T.eqv s w.caps ops ∧
        At w' h p (Spec.trackRun T.dflt T.eqv s w.caps t ops) := by
  have hrun := run_ok ops I hr
  cases hs : Spec.run T.dflt T.eqv s ops with
  | none => rw [hs] at hrun; exact hrun
  | some q =>
    obtain ⟨s', os⟩ := q
    rw [hs] at hrun
    obtain ⟨w', e, -, -⟩ := hrun
    obtain ⟨s2, g1, g2, g3, g4⟩ := track_run ops I hr e ha
    rw [hs] at g1
    cases g1
    exact ⟨w', e, g2, funext g3, g4⟩

theorem loopFrom_ok {T : Ty α} {body : Body α} {h : Nat} {p : Ptr} (n : Nat) : ∀ {w : World α} {s : Spec.State α} {t : Option Nat}
    {k : Nat} {shown : List α}, Inv T w s → At w h p t →
    Spec.LoopInRange T.dflt T.eqv body s t w.caps k shown n →
    (T.triv = false ∨ ∃ r, Spec.loopFrom T.dflt T.eqv body s w.caps t k shown n = .ok r) →
    Match (loopFrom T body h p w k shown n) (Spec.loopFrom T.dflt T.eqv body s w.caps t k shown n) := by
  induction n with
  | zero => intro w s t k shown I _ _ _; exact ⟨w, rfl, I.holds⟩
  | succ n ih =>
    intro w s t k shown I ha hr hx
    unfold loopFrom Spec.loopFrom
    unfold Spec.loopFrom at hx
    cases t with
    | none =>
      simp only [Match]
      rw [read_gone ha k]
      rfl
    | some j =>
      obtain ⟨hal, hd⟩ := ha
      have ho := I.owns j
      rw [hal] at ho
      simp only at hx ⊢
      cases hk : (s j).l[k]? with
      | none =>
        simp only [hk, Match] at hx ⊢
        rcases hx with hx | ⟨r, hx⟩
        · rw [← hd, ho.read_bad hx (List.getElem?_eq_none_iff.1 hk)]
          rfl
        · cases hx
      | some a =>
        simp only [hk] at hx ⊢
        rw [← hd, ho.read_ok hk, R.ok_bind]
        obtain ⟨hr1, hr2⟩ := hr j a rfl hk
        have hrun := run_sound (t := some j) I hr1 ⟨hal, hd⟩
        cases hs : Spec.run T.dflt T.eqv s (body (shown ++ [a])) with
        | none =>
          rw [hs] at hrun
          simp only [Match] at hrun ⊢
          rw [hrun]
          rfl
        | some q =>
          obtain ⟨s', os⟩ := q
          rw [hs] at hrun
          obtain ⟨w', e, I', hc, ha'⟩ := hrun
          simp only [hs] at hx ⊢
          rw [e, R.ok_bind]
          have hr3 := hr2 s' os hs
          rw [← hc] at hr3 hx ⊢
          rw [hd]
          exact ih I' ha' hr3 hx

end Verif.AVec
