import Verif.DSet.Model

/-!
Specification: a partition of `0 .. n-1` with a chosen representative for each element. `Conn` is connectivity by merged pairs,
defined without any algorithm.
-/
namespace Verif.DSet.Spec
open Verif.DSet

/-- `a` and `b` are connected by the pairs `P`: the least equivalence relation on all numbers that contains `P`. -/
inductive Conn (P : List (Nat × Nat)) : Nat → Nat → Prop where
  | pair {a b : Nat} : (a, b) ∈ P → Conn P a b
  | refl (a : Nat) : Conn P a a
  | symm {a b : Nat} : Conn P a b → Conn P b a
  | trans {a b c : Nat} : Conn P a b → Conn P b c → Conn P a c

/-- Abstract state: the representative of each element. -/
structure S where
  n : Nat
  rep : Nat → Nat

/-- All singletons. -/
def init (n : Nat) : S := { n := n, rep := fun x => x }

/-- Number of elements with representative `r`. -/
def S.setSize (s : S) (r : Nat) : Nat := (List.range s.n).countP fun x => s.rep x == r

/-- Number of sets. -/
def S.sets (s : S) : Nat := (List.range s.n).countP fun x => s.rep x == x

/-- Merge the sets represented by `a` and `b`; the representative of the larger one stays, on ties that of the first. -/
def S.merge (s : S) (a b : Nat) : S :=
  if s.setSize a < s.setSize b then { s with rep := fun x => if s.rep x = a then b else s.rep x }
  else { s with rep := fun x => if s.rep x = b then a else s.rep x }

/-- The effect of a call, `none` if it is out of contract. -/
def step (s : S) : Op → Option (S × Obs)
  | .representative e => if e < s.n then some (s, .nat (s.rep e)) else none
  | .isRepresentative e => if e < s.n then some (s, .bool (s.rep e == e)) else none
  | .sameSet a b => if a < s.n ∧ b < s.n then some (s, .bool (s.rep a == s.rep b)) else none
  | .sizeByElement e => if e < s.n then some (s, .nat (s.setSize (s.rep e))) else none
  | .sizeByRepresentative e => if e < s.n ∧ s.rep e = e then some (s, .nat (s.setSize e)) else none
  | .mergeByElement a b =>
    if a < s.n ∧ b < s.n then
      if s.rep a = s.rep b then some (s, .bool false) else some (s.merge (s.rep a) (s.rep b), .bool true)
    else none
  | .mergeByRepresentative a b =>
    if a < s.n ∧ b < s.n ∧ s.rep a = a ∧ s.rep b = b then
      if a = b then some (s, .bool false) else some (s.merge a b, .bool true)
    else none
  | .numberOfElements => some (s, .nat s.n)
  | .numberOfPartitions => some (s, .nat s.sets)

/-- The effect of a history. -/
def run (s : S) : List Op → Option (S × List Obs)
  | [] => some (s, [])
  | op :: ops => do
    let (s, o) ← step s op
    let (s, os) ← run s ops
    some (s, o :: os)

/-- The pairs a history merges. -/
def pairs : List Op → List (Nat × Nat)
  | [] => []
  | .mergeByElement a b :: ops => (a, b) :: pairs ops
  | .mergeByRepresentative a b :: ops => (a, b) :: pairs ops
  | _ :: ops => pairs ops

end Verif.DSet.Spec
