import Verif.Set.Model

/-
Abstract specification of a finite set of elements modulo an equality test: a list without two
equal elements. Nothing here mentions buckets, capacities or addresses.
-/
namespace Verif.Set

open Verif.Map (HashEq)

variable {T : Type _}

/-- Membership. -/
def mem (H : HashEq T) (v : T) (s : List T) : Bool := s.any (fun x => H.eq x v)

/-- Insertion. -/
def insert (H : HashEq T) (v : T) (s : List T) : List T := if mem H v s then s else v :: s

/-- Removal. -/
def erase (H : HashEq T) (v : T) (s : List T) : List T := s.filter (fun x => !H.eq x v)

/-- User operations on one set. -/
inductive Op (T : Type _) where
  | add (v : T)
  | remove (v : T)
  /-- `s |= range`, the constructors from ranges -/
  | addAll (vs : List T)
  | reserve (n : Nat)
  | clear
  | copySelf
  | contains (v : T)
  | size

/-- Observations. -/
inductive Out where
  | unit
  | bool (b : Bool)
  | nat (n : Nat)
deriving DecidableEq

/-- Abstract behaviour. Every operation is defined in every state. -/
def specStep (H : HashEq T) (s : List T) : Op T → List T × Out
  | .add v => (insert H v s, .bool (!mem H v s))
  | .remove v => (erase H v s, .bool (mem H v s))
  | .addAll vs => (vs.foldl (fun s v => insert H v s) s, .unit)
  | .reserve _ => (s, .unit)
  | .clear => ([], .unit)
  | .copySelf => (s, .unit)
  | .contains v => (s, .bool (mem H v s))
  | .size => (s, .nat s.length)

/-- A whole history on the abstract set. -/
def specRun (H : HashEq T) : List T → List (Op T) → List T × List Out
  | s, [] => (s, [])
  | s, op :: ops =>
    let (s', o) := specStep H s op
    let (s'', os) := specRun H s' ops
    (s'', o :: os)

/-- One operation on the modelled `cc::set`. -/
def implStep (H : HashEq T) (m : SetSt T) : Op T → R (SetSt T × Out)
  | .add v => do
    let (m', b) ← add H m v
    pure (m', .bool b)
  | .remove v => do
    let (m', b) ← remove H m v
    pure (m', .bool b)
  | .addAll vs => do
    let m' ← addAll H m vs
    pure (m', .unit)
  | .reserve n => do
    let m' ← reserve H m n
    pure (m', .unit)
  | .clear => .ok (clear m, .unit)
  | .copySelf => .ok (copy m m.next, .unit)
  | .contains v => do
    let b ← contains H m v
    pure (m, .bool b)
  | .size => .ok (m, .nat m.size)

/-- A whole history on the modelled `cc::set`. -/
def implRun (H : HashEq T) : SetSt T → List (Op T) → R (SetSt T × List Out)
  | m, [] => .ok (m, [])
  | m, op :: ops => do
    let (m', o) ← implStep H m op
    let (m'', os) ← implRun H m' ops
    pure (m'', o :: os)

end Verif.Set
