import Verif.Walk.Model
import Verif.Set.RefSpec

/-! Loops over `cc::set` (/repo/src/clean-core/set.hh) whose body changes the set. -/
namespace Verif.Walk

open Verif.Map (HashEq)
open Verif.Set (SetSt)

variable {T : Type _}

/-- A set, and which array its chains are in. -/
structure SetW (T : Type _) where
  m : SetSt T
  arr : Nat

/-- Is `_entries` replaced while these elements are added one after the other (set.hh:132-138)? `add` does it before it looks for the value
(set.hh:69-70). -/
def addsReplace (H : HashEq T) : SetSt T → List T → Bool
  | _, [] => false
  | m, v :: vs => decide (m.size ≥ m.entries.length) ||
    match Set.add H m v with
    | .ok (m', _) => addsReplace H m' vs
    | .error _ => false

/-- Does the call replace `_entries`? `add` and `|=` do if the set is full, `reserve` always (set.hh:156, 241-251), copying too (set.hh:43).
`clear` keeps the array (set.hh:177-182). -/
def replacesSet (H : HashEq T) (m : SetSt T) : Set.Op T → Bool
  | .add v => addsReplace H m [v]
  | .addAll vs => addsReplace H m vs
  | .reserve _ => true
  | .copySelf => true
  | _ => false

/-- One call on the set. -/
def stepSet (H : HashEq T) (w : SetW T) (op : Set.Op T) : R (SetW T) := do
  let (m', _) ← Set.implStep H w.m op
  .ok { m := m', arr := if replacesSet H w.m op then w.arr + 1 else w.arr }

/-- Several calls. -/
def runSet (H : HashEq T) : SetW T → List (Set.Op T) → R (SetW T)
  | w, [] => .ok w
  | w, op :: ops => do
    let w ← stepSet H w op
    runSet H w ops

/-- Where the table is. -/
def setTable : Table (SetW T) (Set.Node T) := { entries := fun w => w.m.entries, arr := SetW.arr, addr := Set.Node.addr }

/-- The body of a loop: which calls it makes, given the elements it has been shown (the last is the current one). -/
def setBody (H : HashEq T) (prog : List T → List (Set.Op T)) (vis : List (Set.Node T)) (w : SetW T) : R (SetW T) :=
  runSet H w (prog (vis.map Set.Node.val))

/-- The body of the loop in `s |= s` (set.hh:132-138 with `range` the set itself): `add` with a reference to the current element. -/
def selfBody (H : HashEq T) (vis : List (Set.Node T)) (w : SetW T) : R (SetW T) :=
  match vis.getLast? with
  | none => .ok w
  | some n => do
    let (m', _) ← Set.addRef H w.m n.addr
    .ok { m := m', arr := if w.m.size ≥ w.m.entries.length then w.arr + 1 else w.arr }

end Verif.Walk
