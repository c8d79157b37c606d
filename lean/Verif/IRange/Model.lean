import Verif.Common

/-!
Model of the integer ranges (/repo/src/clean-core/detail/srange.hh:27-122) and `cc::indices_of` (/repo/src/clean-core/indices_of.hh).

A value of an integer type is its mathematical value. Only `++`, `--`, `+ 1` and comparisons are used, so that a type is given by its bounds and by what happens at
them: types of at least the size of `int` that are signed are undefined there, the others go around (small signed types through the conversion back from `int`, which every
compiler does in this way).
-/
namespace Verif.IRange

/-- An integer type. -/
structure Ty where
  lo : Int
  hi : Int
  /-- overflow is undefined -/
  ub : Bool

/-- The values. -/
def Ty.has (T : Ty) (x : Int) : Prop := T.lo ≤ x ∧ x ≤ T.hi

/-- `++x` and `x + 1`. -/
def Ty.inc (T : Ty) (x : Int) : R Int := if x = T.hi then (if T.ub then .error .ub else .ok T.lo) else .ok (x + 1)

/-- `--x`. -/
def Ty.dec (T : Ty) (x : Int) : R Int := if x = T.lo then (if T.ub then .error .ub else .ok T.hi) else .ok (x - 1)

/-- `irange` and `rev_irange`: begin and end (srange.hh:59-60, 108-109). -/
structure Rng where
  b : Int
  e : Int
deriving DecidableEq, Repr

/-- A range-based `for` over an `irange` (srange.hh:27-35, 62-63) that collects the values, for at most `n` rounds; `none` if it has not ended by then. -/
def loop (T : Ty) : Nat → Int → Int → R (Option (List Int))
  | n, x, e => if x = e then .ok (some []) else
    match n with
    | 0 => .ok none
    | n + 1 => do
      let y ← T.inc x
      let l ← loop T n y e
      .ok (l.map (x :: ·))

/-- The same over a `rev_irange` (srange.hh:37-45, 111-112). -/
def revLoop (T : Ty) : Nat → Int → Int → R (Option (List Int))
  | n, x, e => if x = e then .ok (some []) else
    match n with
    | 0 => .ok none
    | n + 1 => do
      let y ← T.dec x
      let l ← revLoop T n y e
      .ok (l.map (x :: ·))

/-- `skip_first` (srange.hh:66-74). -/
def skipFirst (T : Ty) (r : Rng) : R Rng := if r.b = r.e then .ok r else do
  let b ← T.inc r.b
  .ok { r with b := b }

/-- `skip_last` (srange.hh:76-84). -/
def skipLast (T : Ty) (r : Rng) : R Rng := if r.b = r.e then .ok r else do
  let e ← T.dec r.e
  .ok { r with e := e }

/-- `max` (srange.hh:87-94). -/
def max (T : Ty) (r : Rng) (v : Int) : R Rng :=
  if v ≥ r.e then .ok r
  else if v < r.b then .ok { b := 0, e := 0 }
  else do
    let e ← T.inc v
    .ok { b := r.b, e := e }

/-- `irange::reversed` (srange.hh:96-103). -/
def reversed (T : Ty) (r : Rng) : R Rng := do
  let b ← T.dec r.e
  let e ← T.dec r.b
  .ok { b := b, e := e }

/-- `rev_irange::reversed` (srange.hh:114-121). -/
def revReversed (T : Ty) (r : Rng) : R Rng := do
  let b ← T.inc r.e
  let e ← T.inc r.b
  .ok { b := b, e := e }

/-- `indices_of` (indices_of.hh:27-40), of a number or of a collection with this size. -/
def indicesOf (n : Int) : Rng := { b := 0, e := n }

end Verif.IRange
