import Verif.Flat.Model

/-! Specification: a list of lists. -/
namespace Verif.Flat.Spec
open Verif.Flat

variable {α : Type}

/-- Append `as` to the last inner list, `none` if there is none. -/
def appendLast : List (List α) → List α → Option (List (List α))
  | [], _ => none
  | [l], as => some [l ++ as]
  | l :: ls, as => (appendLast ls as).map (l :: ·)

/-- The effect of a call, `none` if it is out of contract. -/
def step (s : List (List α)) : Op α → Option (List (List α) × Obs α)
  | .startNewRange => some (s ++ [[]], .none)
  | .pushElement a => (appendLast s [a]).map (·, .none)
  | .pushElements as => (appendLast s as).map (·, .none)
  | .clear => some ([], .none)
  | .get i => s[i]?.map (s, .list ·)
  | .iterate => some (s, .lists s)
  | .elements => some (s, .list s.flatten)
  | .size => some (s, .nat s.length)
  | .empty => some (s, .bool s.isEmpty)

/-- The effect of a history. -/
def run (s : List (List α)) : List (Op α) → Option (List (List α) × List (Obs α))
  | [] => some (s, [])
  | op :: ops => do
    let (s, o) ← step s op
    let (s, os) ← run s ops
    some (s, o :: os)

/-- The number of elements a history adds. -/
def added : List (Op α) → Nat
  | [] => 0
  | .pushElement _ :: ops => 1 + added ops
  | .pushElements as :: ops => as.length + added ops
  | _ :: ops => added ops

end Verif.Flat.Spec
