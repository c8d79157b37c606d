import Verif.AVec.Model
import Verif.Vector.Spec

/-
Specification: a vector is a mathematical list together with the allocator it uses. Only the call and observation types are shared
with the model.
-/
namespace Verif.AVec.Spec
open Verif.AVec Verif.Vector

variable {α : Type}

/-- A vector variable. -/
structure V (α : Type) where
  al : Nat
  l : List α

/-- Empty, using the system allocator. -/
def V.empty : V α := { al := 0, l := [] }

/-- All vector variables. -/
abbrev State (α : Type) := Nat → V α

/-- Replace variable `i`. -/
def upd (s : State α) (i : Nat) (x : V α) : State α := fun j => if j = i then x else s j

/-- What a call does to the list; `none` if it is out of contract. -/
def call (dflt : α) (eqv : α → α → Bool) (l : List α) : Call α → Option (List α × Obs α)
  | .pushBack a => some (l ++ [a], .none)
  | .pushRange _ _ m => some (l ++ m, .none)
  | .insertRange idx m => if idx ≤ l.length then some (l.take idx ++ m ++ l.drop idx, .none) else none
  | .popBack => if l.length > 0 then some (l.dropLast, .none) else none
  | .getAndPopBack => l.getLast?.map fun a => (l.dropLast, .elem a)
  | .reserve _ => some (l, .none)
  | .resize n => some (Vector.Spec.resized l n dflt, .none)
  | .resizeWith n a => some (Vector.Spec.resized l n a, .none)
  | .clear => some ([], .none)
  | .shrinkToFit => some (l, .none)
  | .removeAll p => some (l.filter (fun a => !p a), .nat (l.countP p))
  | .removeFirst p => some (l.eraseP p, .bool (l.any p))
  | .removeFirstUnordered p =>
    match l.findIdx? p with
    | some k => some (Vector.Spec.swapRemove l k, .bool true)
    | none => some (l, .bool false)
  | .removeValue a => some (l.filter (fun x => !eqv x a), .nat (l.countP (fun x => eqv x a)))
  | .removeRange idx cnt =>
    if cnt = 0 then some (l, .none)
    else if idx + cnt ≤ l.length then some (l.take idx ++ l.drop (idx + cnt), .none) else none
  | .removeAt idx => if idx < l.length then some (l.eraseIdx idx, .none) else none
  | .removeAtUnordered idx => if idx < l.length then some (Vector.Spec.swapRemove l idx, .none) else none
  | .get k => l[k]?.map fun a => (l, .elem a)
  | .set k a => if k < l.length then some (l.set k a, .none) else none
  | .front => l.head?.map fun a => (l, .elem a)
  | .back => l.getLast?.map fun a => (l, .elem a)
  | .size => some (l, .nat l.length)
  | .contains a => some (l, .bool (l.any (fun x => eqv x a)))

/-- The elements of a newly constructed vector. -/
def ctorList (dflt : α) (s : State α) : Ctor α → List α
  | .dflt => []
  | .sized n => List.replicate n dflt
  | .filled n a => List.replicate n a
  | .range l => l
  | .each l => l
  | .copyOf j => (s j).l

/-- The effect of a call, `none` if it is out of contract. Calls keep the allocator; moving takes the allocator along and leaves an empty
vector with the system allocator; a null allocator is out of contract. -/
def step (dflt : α) (eqv : α → α → Bool) (s : State α) : Op α → Option (State α × Obs α)
  | .call i c => (call dflt eqv (s i).l c).map fun r => (upd s i ⟨(s i).al, r.1⟩, r.2)
  | .pushElem i j k => (s j).l[k]?.map fun a => (upd s i ⟨(s i).al, (s i).l ++ [a]⟩, .none)
  | .eq i j =>
    some (s, .bool ((s i).l.length == (s j).l.length && ((s i).l.zip (s j).l).all (fun p => eqv p.1 p.2)))
  | .allocator i => some (s, .nat (s i).al)
  | .moveAssign i j => some (upd (upd s i (s j)) j V.empty, .none)
  | .moveCtor i j => some (upd (upd s j V.empty) i (s j), .none)
  | .assignNew i a c => a.map fun a => (upd s i ⟨a, ctorList dflt s c⟩, .none)
  | .resetReserve i a _ => a.map fun a => (upd s i ⟨a, []⟩, .none)

/-- The effect of a history. -/
def run (dflt : α) (eqv : α → α → Bool) (s : State α) : List (Op α) → Option (State α × List (Obs α))
  | [] => some (s, [])
  | op :: ops => do
    let (s, o) ← step dflt eqv s op
    let (s, os) ← run dflt eqv s ops
    some (s, o :: os)

/-- The number of elements a call asks memory for; the documented limit of `reserve` is 2^48. -/
def demand (s : State α) : Op α → Nat
  | .call i (.pushRange _ _ l) => (s i).l.length + l.length
  | .call i (.insertRange _ l) => (s i).l.length + l.length
  | .call _ (.reserve n) => n
  | .call _ (.resize n) => n
  | .call _ (.resizeWith n _) => n
  | .assignNew _ _ (.filled n _) => n
  | .assignNew _ _ (.range l) => l.length
  | .assignNew _ _ (.copyOf j) => (s j).l.length
  | .resetReserve _ _ n => n
  | _ => 0

/-- Every call of the history stays below the limit, and the sum of index and count given to `remove_range` is below 2^64
(as is the length of every list that fits in memory). -/
def InRange (dflt : α) (eqv : α → α → Bool) (s : State α) : List (Op α) → Prop
  | [] => True
  | op :: ops =>
    demand s op ≤ 2 ^ 48 ∧
    (∀ i idx cnt, op = .call i (.removeRange idx cnt) → idx + cnt < 2 ^ 64 ∧ (s i).l.length < 2 ^ 64) ∧
    (∀ s' o, step dflt eqv s op = some (s', o) → InRange dflt eqv s' ops)

end Verif.AVec.Spec
