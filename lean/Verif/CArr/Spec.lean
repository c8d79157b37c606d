import Verif.CArr.Model

/-! Specification: a capped_array is a list of at most `N` elements. Only the call and observation types are shared. -/
namespace Verif.CArr.Spec
open Verif.CArr

variable {α : Type}

/-- The arrays as lists. -/
abbrev Lists (α : Type) := Nat → List α

/-- All arrays are empty. -/
def init : Lists α := fun _ => []

/-- Replace list `i`. -/
def upd (s : Lists α) (i : Nat) (l : List α) : Lists α := fun j => if j = i then l else s j

/-- What a call does to the lists and returns; `none` is out of contract. A moved-from array is empty. -/
def step (N : Nat) (d : α) (s : Lists α) : Op α → Option (Lists α × Obs α)
  | .new i => some (upd s i [], .none)
  | .sized i n => if n ≤ N then some (upd s i (List.replicate n d), .none) else none
  | .ofList i as => if as.length ≤ N then some (upd s i as, .none) else none
  | .filled i n a => if n ≤ N then some (upd s i (List.replicate n a), .none) else none
  | .copy i j => some (upd s i (s j), .none)
  | .move i j => some (upd (upd s j []) i (s j), .none)
  | .assign i j => some (upd s i (s j), .none)
  | .moveAssign i j => some (upd (upd s i (s j)) j [], .none)
  | .emplace i n (.val a) => if n ≤ N then some (upd s i (List.replicate n a), .none) else none
  | .emplace i n (.elem k) =>
    match (s i)[k]? with
    | some a => if n ≤ N then some (upd s i (List.replicate n a), .none) else none
    | none => none
  | .set i k a => if k < (s i).length then some (upd s i ((s i).set k a), .none) else none
  | .get i k => (s i)[k]?.map fun a => (s, .elem a)
  | .each i => some (s, .list (s i))
  | .size i => some (s, .nat (s i).length)
  | .empty i => some (s, .bool (decide (s i = [])))
  | .maxSize _ => some (s, .nat N)

/-- What a history does. -/
def run (N : Nat) (d : α) (s : Lists α) : List (Op α) → Option (Lists α × List (Obs α))
  | [] => some (s, [])
  | op :: ops => do
    let (s, o) ← step N d s op
    let (s, os) ← run N d s ops
    some (s, o :: os)

/-- The call moves a whole array. -/
def isMove : Op α → Bool
  | .move _ _ => true
  | .moveAssign _ _ => true
  | _ => false

/-- The call re-creates the elements of an array from one of its own elements. -/
def ownArg : Op α → Bool
  | .emplace _ _ (.elem _) => true
  | _ => false

end Verif.CArr.Spec
