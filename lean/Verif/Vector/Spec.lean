import Verif.Vector.Model

/-
Specification: what the calls do to mathematical lists. Only the call and observation types are shared with the
model.
-/
namespace Verif.Vector.Spec
open Verif.Vector

variable {α : Type}

/-- One list per vector variable. -/
abbrev Lists (α : Type) := Nat → List α

/-- Replace list `i`. -/
def upd (s : Lists α) (i : Nat) (l : List α) : Lists α := fun j => if j = i then l else s j

/-- Cut or fill up a list to length `n`. -/
def resized (l : List α) (n : Nat) (a : α) : List α := l.take n ++ List.replicate (n - l.length) a

/-- Replace element `k` by the last one and drop the last one. -/
def swapRemove (l : List α) (k : Nat) : List α :=
  match l.getLast? with
  | some z => (l.set k z).dropLast
  | none => []

/-- The effect of a call, `none` if it is out of contract. -/
def step (dflt : α) (eqv : α → α → Bool) (s : Lists α) : Op α → Option (Lists α × Obs α)
  | .pushBack i (.val a) => some (upd s i (s i ++ [a]), .none)
  | .pushBack i (.elem j k) => (s j)[k]?.map fun a => (upd s i (s i ++ [a]), .none)
  | .pushRange i _ _ l => some (upd s i (s i ++ l), .none)
  | .insertRange i idx l =>
    if idx ≤ (s i).length then some (upd s i ((s i).take idx ++ l ++ (s i).drop idx), .none) else none
  | .popBack i => if (s i).length > 0 then some (upd s i (s i).dropLast, .none) else none
  | .getAndPopBack i => (s i).getLast?.map fun a => (upd s i (s i).dropLast, .elem a)
  | .reserve _ _ => some (s, .none)
  | .resize i n => some (upd s i (resized (s i) n dflt), .none)
  | .resizeWith i n a => some (upd s i (resized (s i) n a), .none)
  | .clear i => some (upd s i [], .none)
  | .shrinkToFit _ => some (s, .none)
  | .removeAll i p => some (upd s i ((s i).filter (fun a => !p a)), .nat ((s i).countP p))
  | .removeFirst i p => some (upd s i ((s i).eraseP p), .bool ((s i).any p))
  | .removeFirstUnordered i p =>
    match (s i).findIdx? p with
    | some k => some (upd s i (swapRemove (s i) k), .bool true)
    | none => some (s, .bool false)
  | .removeValue i a =>
    some (upd s i ((s i).filter (fun x => !eqv x a)), .nat ((s i).countP (fun x => eqv x a)))
  | .removeRange i idx cnt =>
    if cnt = 0 then some (s, .none)
    else if idx + cnt ≤ (s i).length then some (upd s i ((s i).take idx ++ (s i).drop (idx + cnt)), .none)
    else none
  | .removeAt i idx => if idx < (s i).length then some (upd s i ((s i).eraseIdx idx), .none) else none
  | .removeAtUnordered i idx => if idx < (s i).length then some (upd s i (swapRemove (s i) idx), .none) else none
  | .get i k => (s i)[k]?.map fun a => (s, .elem a)
  | .set i k a => if k < (s i).length then some (upd s i ((s i).set k a), .none) else none
  | .front i => (s i).head?.map fun a => (s, .elem a)
  | .back i => (s i).getLast?.map fun a => (s, .elem a)
  | .size i => some (s, .nat (s i).length)
  | .contains i a => some (s, .bool ((s i).any (fun x => eqv x a)))
  | .eq i j =>
    some (s, .bool ((s i).length == (s j).length && ((s i).zip (s j)).all (fun p => eqv p.1 p.2)))
  | .copyAssign i j => some (upd s i (s j), .none)
  | .moveAssign i j => some (upd (upd s i (s j)) j [], .none)
  | .assignNew i (.sized n) => some (upd s i (List.replicate n dflt), .none)
  | .assignNew i (.filled n a) => some (upd s i (List.replicate n a), .none)
  | .assignNew i (.reserved _) => some (upd s i [], .none)
  | .assignNew i (.range l) => some (upd s i l, .none)
  | .assignNew i (.copyOf j) => some (upd s i (s j), .none)

/-- The effect of a history. -/
def run (dflt : α) (eqv : α → α → Bool) (s : Lists α) : List (Op α) → Option (Lists α × List (Obs α))
  | [] => some (s, [])
  | op :: ops => do
    let (s, o) ← step dflt eqv s op
    let (s, os) ← run dflt eqv s ops
    some (s, o :: os)

/-- The number of elements a call asks memory for; the documented limit of `reserve` is 2^48. -/
def demand (s : Lists α) : Op α → Nat
  | .pushRange i _ _ l => (s i).length + l.length
  | .insertRange i _ l => (s i).length + l.length
  | .reserve _ n => n
  | .resize _ n => n
  | .resizeWith _ n _ => n
  | .assignNew _ (.filled n _) => n
  | .assignNew _ (.reserved n) => n
  | .assignNew _ (.range l) => l.length
  | .assignNew _ (.copyOf j) => (s j).length
  | _ => 0

/-- Every call of the history stays below the limit, and the sum of index and count given to `remove_range` is below 2^64
(as is the length of every list that fits in memory). -/
def InRange (dflt : α) (eqv : α → α → Bool) (s : Lists α) : List (Op α) → Prop
  | [] => True
  | op :: ops =>
    demand s op ≤ 2 ^ 48 ∧
    (∀ i idx cnt, op = .removeRange i idx cnt → idx + cnt < 2 ^ 64 ∧ (s i).length < 2 ^ 64) ∧
    (∀ s' o, step dflt eqv s op = some (s', o) → InRange dflt eqv s' ops)

end Verif.Vector.Spec
