import Verif.FList.Model

/-! Specification of `forward_list`: every list object is a sequence of values; objects are independent. -/
namespace Verif.FList.Spec

variable {α : Type}

/-- The sequence held by each existing list. -/
abbrev State (α : Type) := Nat → Option (List α)

/-- What a call should do. `.error .ub` only for `erase_after` with an invalid iterator, which is the caller's mistake. -/
def step (s : State α) : Op α → R (State α × Out α)
  | .create i => match s i with | none => .ok (upd s i (some []), .unit) | some _ => .ok (s, .notACall)
  | .copyCtor i j => match s i, s j with | none, some l => .ok (upd s i (some l), .unit) | _, _ => .ok (s, .notACall)
  | .moveCtor i j =>
    match s i, s j with | none, some l => .ok (upd (upd s i (some l)) j (some []), .unit) | _, _ => .ok (s, .notACall)
  | .copyAssign i j => match s i, s j with | some _, some l => .ok (upd s i (some l), .unit) | _, _ => .ok (s, .notACall)
  | .moveAssign i j =>
    match s i, s j with
    | some _, some l => .ok (if i = j then s else upd (upd s i (some l)) j (some []), .unit)
    | _, _ => .ok (s, .notACall)
  | .destroy i => match s i with | some _ => .ok (upd s i none, .unit) | none => .ok (s, .notACall)
  | .pushFront i v => match s i with | some l => .ok (upd s i (some (v :: l)), .unit) | none => .ok (s, .notACall)
  | .popFront i =>
    match s i with
    | some (v :: l) => .ok (upd s i (some l), .value v)
    | some [] => .error .assert
    | none => .ok (s, .notACall)
  | .eraseAfter i k =>
    match s i with
    | some l => if k + 1 < l.length then .ok (upd s i (some (l.eraseIdx (k + 1))), .unit)
      else if k < l.length then .error .assert else .error .ub
    | none => .ok (s, .notACall)
  | .clear i => match s i with | some _ => .ok (upd s i (some []), .unit) | none => .ok (s, .notACall)
  | .front i =>
    match s i with
    | some (v :: _) => .ok (s, .value v)
    | some [] => .error .assert
    | none => .ok (s, .notACall)
  | .size i => match s i with | some l => .ok (s, .nat l.length) | none => .ok (s, .notACall)
  | .empty i => match s i with | some l => .ok (s, .bool l.isEmpty) | none => .ok (s, .notACall)
  | .iterate i => match s i with | some l => .ok (s, .list l) | none => .ok (s, .notACall)

/-- A sequence of calls. -/
def run (s : State α) : List (Op α) → R (State α × List (Out α))
  | [] => .ok (s, [])
  | op :: ops => do
    let (s, o) ← step s op
    let (s, os) ← run s ops
    .ok (s, o :: os)

/-- No lists. -/
def init : State α := fun _ => none

end Verif.FList.Spec
