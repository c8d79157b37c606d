import Verif.Common

/-!
Model of the small algorithms: `cc::copy`, `cc::fill`, `cc::are_ranges_equal`, `cc::are_ranges_unequal` (/repo/src/clean-core/algorithms.hh) over cursors
(/repo/src/clean-core/cursor.hh), `cc::any_of` (/repo/src/clean-core/any_of.hh) and `cc::cascaded_less` (/repo/src/clean-core/less.hh:65-73).

The ranges are contiguous: a begin and an end pointer, as for `span`, `vector`, `array` and `string`. Memory gives a value for every address; addresses count elements
and 0 is `nullptr`. Ranges may overlap and a reference argument may refer into a range. Element types of both ranges are the same; all elements are alive (see `Mem` for lifetimes).
-/
namespace Verif.Algo

abbrev Memory (α : Type) := Nat → α

variable {α : Type}

/-- `*p = a`. -/
def write (m : Memory α) (p : Nat) (a : α) : Memory α := fun x => if x = p then a else m x

/-- `iterator_cursor::is_valid` (cursor.hh:55). -/
def valid (c e : Nat) : Bool := c != e

/-- `iterator_cursor::get` (cursor.hh:44-49): the address of the element. -/
def get (c e : Nat) : R Nat := do
  ccAssert (c != 0)
  ccAssert (valid c e)
  .ok c

/-- `iterator_cursor::advance` (cursor.hh:50-54). A pointer past the end of its range is not allowed. -/
def advance (c e : Nat) : R Nat := do
  ccAssert (valid c e)
  if e < c + 1 then .error .ub else .ok (c + 1)

/-- `copy` (algorithms.hh:8-19); `n` bounds the number of rounds. -/
def copyLoop (m : Memory α) : Nat → (f fe t te : Nat) → R (Option (Memory α))
  | n, f, fe, t, te => if valid f fe then
      match n with
      | 0 => .ok none
      | n + 1 => do
        ccAssert (valid t te)
        let src ← get f fe
        let dst ← get t te
        let t ← advance t te
        let f ← advance f fe
        copyLoop (write m dst (m src)) n f fe t te
    else .ok (some m)

/-- `fill` (algorithms.hh:21-30). `value` is a reference: its address is `v`. -/
def fillLoop (m : Memory α) (v : Nat) : Nat → (c e : Nat) → R (Option (Memory α))
  | n, c, e => if valid c e then
      match n with
      | 0 => .ok none
      | n + 1 => do
        let dst ← get c e
        let c ← advance c e
        fillLoop (write m dst (m v)) v n c e
    else .ok (some m)

/-- The loops of `are_ranges_equal` and `are_ranges_unequal` (algorithms.hh:41-48, 60-67): is there a difference? `ne` is `!=`. -/
def diffLoop (ne : α → α → Bool) (m : Memory α) : Nat → (a ae b be : Nat) → R (Option Bool)
  | n, a, ae, b, be => if valid a ae then
      match n with
      | 0 => .ok none
      | n + 1 => do
        let x ← get a ae
        let y ← get b be
        if ne (m x) (m y) then .ok (some true) else do
        let a ← advance a ae
        let b ← advance b be
        diffLoop ne m n a ae b be
    else .ok (some false)

/-- A contiguous range with `n` elements. -/
structure Rg where
  p : Nat
  n : Nat

def Rg.fin (r : Rg) : Nat := r.p + r.n

/-- `copy`. -/
def copy (m : Memory α) (from_ to_ : Rg) : R (Option (Memory α)) := copyLoop m from_.n from_.p from_.fin to_.p to_.fin

/-- `fill`. -/
def fill (m : Memory α) (r : Rg) (v : Nat) : R (Option (Memory α)) := fillLoop m v r.n r.p r.fin

/-- `are_ranges_equal` (algorithms.hh:32-49). -/
def equal (ne : α → α → Bool) (m : Memory α) (a b : Rg) : R (Option Bool) :=
  if a.n != b.n then .ok (some false) else do
    let d ← diffLoop ne m a.n a.p a.fin b.p b.fin
    .ok (d.map (!·))

/-- `are_ranges_unequal` (algorithms.hh:51-68). -/
def unequal (ne : α → α → Bool) (m : Memory α) (a b : Rg) : R (Option Bool) :=
  if a.n != b.n then .ok (some true) else diffLoop ne m a.n a.p a.fin b.p b.fin

/-- `lhs == any_of(range)` (any_of.hh:19-38). -/
def anyOfRange {β : Type} (eq : α → β → Bool) (lhs : α) : List β → Bool
  | [] => false
  | rhs :: r => if eq lhs rhs then true else anyOfRange eq lhs r

/-- `lhs == any_of(a, b, rest...)` (any_of.hh:40-50); `rest` is a fold with `||`, which is false for no values. -/
def anyOfValues {β : Type} (eq : α → β → Bool) (lhs : α) (a b : β) (rest : List β) : Bool :=
  if eq lhs a then true
  else if eq lhs b then true
  else rest.foldr (fun x acc => eq lhs x || acc) false

/-- `lhs != any_of(…)` (any_of.hh:24-28). -/
def noneOf (test : Bool) : Bool := !test

/-- How members at one position compare: `<` and `!=`. -/
structure Cmp (α : Type) where
  lt : α → α → Bool
  ne : α → α → Bool

/-- `cascaded_less` (less.hh:65-73) for the members `(lhs, rhs)` with their operators, at least one. -/
def cascadedLess : (Cmp α × α × α) → List (Cmp α × α × α) → Bool
  | (c, l, r), [] => c.lt l r
  | (c, l, r), x :: rest => if c.ne l r then c.lt l r else cascadedLess x rest

end Verif.Algo
