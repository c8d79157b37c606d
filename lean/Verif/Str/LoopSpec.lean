import Verif.Str.ViewSpec
/-!
# Loops over a string whose body changes strings (C145)

`for (auto c : s)`: `begin()` and `end()` (sbo_string.hh 32-35) are evaluated once, before the first iteration.
-/
namespace Verif.Str
open Verif.StrView (Chr View)

/-- The iterations that are left: the iterator is at position `i` of the memory `p`, and there are `k` positions before the end. The body is
any history of calls that depends on the position and the character. Returns the characters that were visited. -/
def Sys.loop (C : Nat) (junk : Nat → Chr) (d : Nat) (body : Nat → Chr → List Op) (p : Place) : Nat → Nat → Sys → R (Sys × List Chr)
  | 0, _, st => pure (st, [])
  | k + 1, i, st => do
    let s ← st.get d
    let b ← s.through p i 1
    match b with
    | [c] => do
      let st ← Sys.run C junk st (body i c)
      let (st, cs) ← Sys.loop C junk d body p k (i + 1) st
      pure (st, c :: cs)
    | _ => .error .ub

/-- The loop over variable `d`. -/
def Sys.forEach (C : Nat) (junk : Nat → Chr) (d : Nat) (body : Nat → Chr → List Op) (st : Sys) : R (Sys × List Chr) := do
  let s ← st.get d
  Sys.loop C junk d body s.place s.size 0 st

namespace Spec

/-- What a loop should do: visit `k` positions from `i` on, each time the character that the text has there at that time, and run the
body. `none` if the text has become too short, or the body breaks the rules. -/
def loop (d : Nat) (body : Nat → Chr → List Op) : Nat → Nat → List Cell → Option (List Cell × List Chr)
  | 0, _, σ => some (σ, [])
  | k + 1, i, σ =>
    match σ[d]? with
    | some (.val l _) =>
      match l[i]? with
      | some c =>
        match run σ (body i c) with
        | some σ' => (loop d body k (i + 1) σ').map fun r => (r.1, c :: r.2)
        | none => none
      | none => none
    | _ => none

/-- Every body stays within the capacity `cap` of the string that is looped over. -/
def LoopWithin (cap d : Nat) (body : Nat → Chr → List Op) : Nat → Nat → List Cell → Prop
  | 0, _, _ => True
  | k + 1, i, σ => ∀ l t c, σ[d]? = some (.val l t) → l[i]? = some c →
      Within cap d σ (body i c) ∧ ∀ σ', run σ (body i c) = some σ' → LoopWithin cap d body k (i + 1) σ'

end Spec
end Verif.Str
