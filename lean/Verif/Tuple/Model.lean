import Verif.Common
/-!
# `cc::tuple`, `cc::pair`, `cc::get`, `cc::apply`, function objects

Model of `/repo/src/clean-core/tuple.hh`, `pair.hh`, `get.hh`, `apply.hh`, `invoke.hh` and `functors.hh`.

A parameter pack of `n` types is a function `T` on `Fin n`.  The comparison of two components is whatever their `==` and `!=` do, which may be undefined or fail a
contract; so the number and order of the comparisons matter.  References returned by `get` are modelled by reading and writing the component.  Not modelled: value categories (`apply` hands all
components on as lvalues), pointers to members in `invoke`; hashes are the model of C61.
-/
namespace Verif.Tuple

/-- `detail::tuple_impl<Ts...>` (tuple.hh 15-72): nothing, or a value and the tuple of the rest, which is its base class. -/
def Tup : (n : Nat) → (Fin n → Type) → Type
  | 0, _ => Unit
  | n + 1, T => T 0 × Tup n (fun i => T i.succ)

/-- The constructor (tuple.hh 33, 54). -/
def make : {n : Nat} → {T : Fin n → Type} → ((i : Fin n) → T i) → Tup n T
  | 0, _, _ => ()
  | _ + 1, _, v => (v 0, make fun i => v i.succ)

/-- `get<I>()`, reading (tuple.hh 35-46, 56-71), `cc::get<I>` (get.hh 13-28). -/
def get : {n : Nat} → {T : Fin n → Type} → Tup n T → (i : Fin n) → T i
  | 0, _, _ => fun i => i.elim0
  | _ + 1, T, t => Fin.cases (motive := T) t.1 fun i => get t.2 i

/-- `t.get<I>() = x`. -/
def set : {n : Nat} → {T : Fin n → Type} → Tup n T → (i : Fin n) → T i → Tup n T
  | 0, _, _ => fun i => i.elim0
  | n + 1, T, t => Fin.cases (motive := fun i => T i → Tup (n + 1) T) (fun x => (x, t.2)) fun i x => (t.1, set t.2 i x)

/-- `(true && ... && e)`: a left fold, evaluated from the left, that stops at the first `false`. -/
def foldAnd : List (Unit → R Bool) → R Bool
  | [] => .ok true
  | e :: es => do
    let b ← e ()
    if b then foldAnd es else pure false

/-- `(false || ... || e)`. -/
def foldOr : List (Unit → R Bool) → R Bool
  | [] => .ok false
  | e :: es => do
    let b ← e ()
    if b then pure true else foldOr es

/-- `std::index_sequence_for<Types...>`: 0, 1, ... -/
def indices (n : Nat) : List (Fin n) := List.finRange n

/-- `operator==` (tuple.hh 80-85, 109-113) with the components' `operator==`. -/
def areEqual {n : Nat} {T U : Fin n → Type} (eq : (i : Fin n) → T i → U i → R Bool) (l : Tup n T) (r : Tup n U) : R Bool :=
  foldAnd ((indices n).map fun i _ => eq i (get l i) (get r i))

/-- `operator!=` (tuple.hh 86-91, 114-118) with the components' `operator!=`. -/
def areNotEqual {n : Nat} {T U : Fin n → Type} (ne : (i : Fin n) → T i → U i → R Bool) (l : Tup n T) (r : Tup n U) : R Bool :=
  foldOr ((indices n).map fun i _ => ne i (get l i) (get r i))

/-- `std::tuple_element` (tuple.hh 145-153). -/
def tupleElement : {n : Nat} → (Fin n → Type) → Fin n → Type
  | 0, _ => fun i => i.elim0
  | _ + 1, T => Fin.cases (T 0) fun i => tupleElement (fun j => T j.succ) i

/-- `cc::apply(f, t)` (apply.hh 12-24) for a function of references to the components: its result, and the components afterwards. -/
def apply {n : Nat} {T : Fin n → Type} {β : Type} (f : ((i : Fin n) → T i) → R (β × ((i : Fin n) → T i))) (t : Tup n T) : R (β × Tup n T) := do
  let (r, v) ← f (get t)
  pure (r, (indices n).foldl (fun t i => set t i (v i)) t)

/-- `projection_function<I>` (functors.hh 41-58): drop arguments until it is the first one. -/
def projection : {n : Nat} → {T : Fin n → Type} → ((i : Fin n) → T i) → (i : Fin n) → T i
  | 0, _, _ => fun i => i.elim0
  | _ + 1, T, args => Fin.cases (motive := T) (args 0) fun i => projection (fun j => args j.succ) i

/-- `constant_function<C>` (functors.hh 15-24). -/
def constant {α : Type} {n : Nat} {T : Fin n → Type} (c : α) (_ : (i : Fin n) → T i) : α := c

/-- `cc::pair` (pair.hh 10-19). -/
structure Pair (A B : Type) where
  first : A
  second : B

/-- `operator==` (pair.hh 20-24). -/
def pairEq {A B C D : Type} (eqA : A → C → R Bool) (eqB : B → D → R Bool) (l : Pair A B) (r : Pair C D) : R Bool := do
  let a ← eqA l.first r.first
  if a then eqB l.second r.second else pure false

/-- `operator!=` (pair.hh 25-29). -/
def pairNe {A B C D : Type} (neA : A → C → R Bool) (neB : B → D → R Bool) (l : Pair A B) (r : Pair C D) : R Bool := do
  let a ← neA l.first r.first
  if a then pure true else neB l.second r.second

end Verif.Tuple
