import Verif.Capped.Props

/-!
Model of a range-based `for` loop over a `capped_vector` whose body calls whatever it likes: `begin()` and `end()`
(/repo/src/clean-core/capped_vector.hh:24-27) are plain pointers into the storage inside the vector, taken once before the loop
starts.
-/
namespace Verif.Capped
open Verif.Mem

variable {α : Type}

/-- What the body does: calls on any vectors, which may depend on the elements it has been given so far (the last one is the
current one). -/
abbrev Body (α : Type) := List α → List (Op α)

/-- The call destroys the vector of variable `i` and puts a new one in its place (see `Op` in the model). -/
def Op.replaces (i : Nat) : Op α → Bool
  | .ctorRange j _ => j == i
  | .ctorFilled j _ _ => j == i
  | .ctorCopy j _ => j == i
  | .ctorMove j _ => j == i
  | _ => false

/-- `for (; it != end; ++it) body(*it)` with `it` at slot `k` of the storage of vector `i` and `n` rounds to go
(capped_vector.hh:24-27); `there` is false if that vector has been destroyed. The comparison is that of the pointers taken before the
loop, so the number of rounds is fixed. -/
def loopFrom [DecidableEq α] (triv : Bool) (N : Nat) (body : Body α) (i : Nat) (there : Bool) (w : World α) (k : Nat)
    (shown : List α) : Nat → R (World α × List α)
  | 0 => .ok (w, shown)
  | n + 1 =>
    if there then do
      let a ← (w.vecs i).buf.read k
      let (w, _) ← run triv N w (body (shown ++ [a]))
      loopFrom triv N body i (!(body (shown ++ [a])).any (Op.replaces i)) w (k + 1) (shown ++ [a]) n
    else .error .ub

/-- `for (auto& x : vecs[i]) body(x)` (capped_vector.hh:24-27). -/
def loop [DecidableEq α] (triv : Bool) (N : Nat) (w : World α) (i : Nat) (body : Body α) : R (World α × List α) :=
  loopFrom triv N body i true w 0 [] (w.vecs i).size

namespace Spec

/-- The variable that holds a new vector object after the call: calls of constructors make one, no others. -/
def made : Op α → Option Nat
  | .ctorRange j _ | .ctorFilled j _ _ | .ctorCopy j _ | .ctorMove j _ => some j
  | _ => none

/-- What the loop has to do, on lists: there are as many rounds as there were elements at the beginning; round `k` shows what is at
position `k` of the vector at that time, if that is still the same vector. -/
def loopFrom [DecidableEq α] (N : Nat) (body : Body α) (i : Nat) (there : Bool) (s : Lists α) (k : Nat) (shown : List α) :
    Nat → R (Lists α × List α)
  | 0 => .ok (s, shown)
  | n + 1 =>
    match there, (s i)[k]? with
    | true, some a =>
      match run N s (body (shown ++ [a])) with
      | none => .error .assert
      | some (s', _) => loopFrom N body i ((body (shown ++ [a])).all (fun op => made op != some i)) s' (k + 1) (shown ++ [a]) n
    | _, _ => .error .ub

end Spec

/-- The vectors of `w` have the elements of `s`. -/
def Holds (w : World α) (s : Spec.Lists α) : Prop :=
  ∀ j, (w.vecs j).size = (s j).length ∧ ∀ k a, (s j)[k]? = some a → get (w.vecs j) k = .ok a

theorem Inv.holds {triv : Bool} {strict : Prop} {N : Nat} {w : World α} {s : Spec.Lists α} (I : Inv triv strict N w s) :
    Holds w s := by
  intro j
  refine ⟨(I.rel j).size, fun k a hk => ?_⟩
  rw [get_ok (I.rel j), hk]

/-- What the loop does, compared to what it has to do; `exact` says whether it has to fail where it need not work. -/
def Match (exact : Prop) (r : R (World α × List α)) : R (Spec.Lists α × List α) → Prop
  | .error .ub => exact → r = .error .ub
  | .error .assert => r = .error .assert
  | .ok (s, shown) => ∃ w, r = .ok (w, shown) ∧ Holds w s

theorem replaces_made (i : Nat) (ops : List (Op α)) : (!ops.any (Op.replaces i)) = ops.all (fun op => Spec.made op != some i) := by
  induction ops with
  | nil => rfl
  | cons op ops ih =>
    have : (Op.replaces i op) = (Spec.made op == some i) := by cases op <;> simp [Op.replaces, Spec.made]
    rw [List.any_cons, List.all_cons, ← ih, this, Bool.not_or]
    rfl

theorem loopFrom_ok [DecidableEq α] {triv : Bool} {strict : Prop} {N : Nat} {body : Body α} {i : Nat}
    (hm : strict → triv = false ∧ ∀ shown, ∀ op ∈ body shown, Spec.isMove op = false) (n : Nat) :
    ∀ {there : Bool} {w : World α} {s : Spec.Lists α} {k : Nat} {shown : List α}, Inv triv strict N w s →
    Match strict (loopFrom triv N body i there w k shown n) (Spec.loopFrom N body i there s k shown n) := by
  induction n with
  | zero => intro there w s k shown I; exact ⟨w, rfl, I.holds⟩
  | succ n ih =>
    intro there w s k shown I
    unfold loopFrom Spec.loopFrom
    cases there with
    | false => exact fun _ => rfl
    | true =>
      simp only [if_true]
      cases hk : (s i)[k]? with
      | none =>
        intro hs
        have hle := List.getElem?_eq_none_iff.1 hk
        have : (w.vecs i).buf.read k = .error .ub := by
          unfold Buf.read Buf.slot
          cases hb : (w.vecs i).buf[k]? with
          | none => rfl
          | some x =>
            rcases (I.rel i).buf.rest hs k x hle hb with h | h
            · rw [h]; rfl
            · rw [(hm hs).1] at h; cases h
        rw [this]; rfl
      | some a =>
        obtain ⟨hlt, ha⟩ := List.getElem?_eq_some_iff.1 hk
        have hrd : (w.vecs i).buf.read k = .ok a := by
          rw [← ha]; exact Buf.read_ok ((I.rel i).buf.live k hlt)
        rw [hrd, R.ok_bind]
        have hrun := run_ok (triv := triv) (strict := strict) (N := N) (body (shown ++ [a])) (fun hs => .inr ((hm hs).2 _)) I
        cases hs : Spec.run N s (body (shown ++ [a])) with
        | none =>
          rw [hs] at hrun
          simp only [hs] at hrun ⊢
          rw [hrun]; rfl
        | some q =>
          obtain ⟨s', os⟩ := q
          rw [hs] at hrun
          obtain ⟨w', e, I'⟩ := hrun
          rw [e, R.ok_bind]
          simp only [hs, replaces_made]
          exact ih I'

end Verif.Capped
