import Verif.Str.System
/-!
# Comparing strings, views, literals, C strings and characters

The forms of `==` and `!=` of `/repo/src/clean-core/string_view.hh` (338-359, 493-510) that are not between two views.  A string on one
side becomes a view by the implicit conversion; a literal and a `char const*` become one by `string_view(char const*)` (48-55), which is
preferred to the constructor from containers (59-62) because it is not a template.  So a literal is read up to its first zero, whatever
its length.

The model converts the left side first; C++ leaves the order open, which makes no difference as conversions change nothing.
Two literals or two pointers are compared by the language, not by these operators; a `cc::string` and a `char` cannot be compared (the
constructor from `int`, 45, is deleted).
-/
namespace Verif.Str
open Verif.StrView (Chr View ofCstr)

/-- What can stand beside a view or a string. -/
inductive Text where
  /-- a `string_view` -/
  | view (v : View)
  /-- a `cc::string` or other `sbo_string` -/
  | str (s : Str)
  /-- a `char const*` to position `off` of the array `mem` -/
  | cstr (mem : List Chr) (off : Nat)
  /-- a `char const[N]`: its `N` characters, with the zero at the end if it is a string literal -/
  | literal (arr : List Chr)
deriving DecidableEq, Repr

/-- The conversion to `string_view` (string_view.hh 48-55, 59-62). -/
def Text.toView : Text → R View
  | .view v => pure v
  | .str s => s.view
  | .cstr mem off => ofCstr mem off
  | .literal arr => ofCstr arr 0

/-- `a == b` (string_view.hh 338-342, 349, 493-501). -/
def eqText (a b : Text) : R Bool := do
  let x ← a.toView
  let y ← b.toView
  x.eq y

/-- `a != b` (string_view.hh 343-347, 350, 502-510). -/
def neText (a b : Text) : R Bool := do
  let x ← a.toView
  let y ← b.toView
  x.ne y

/-- `lhs == c` (string_view.hh 355). -/
def eqViewChar (lhs : View) (c : Chr) : R Bool :=
  if lhs.size = 1 then do
    let d ← lhs.rd 0
    pure (d == c)
  else pure false

/-- `lhs != c` (string_view.hh 356). -/
def neViewChar (lhs : View) (c : Chr) : R Bool := do
  let r ← eqViewChar lhs c
  pure !r

/-- `c == rhs` (string_view.hh 358). -/
def eqCharView (c : Chr) (rhs : View) : R Bool :=
  if rhs.size = 1 then do
    let d ← rhs.rd 0
    pure (d == c)
  else pure false

/-- `c != rhs` (string_view.hh 359). -/
def neCharView (c : Chr) (rhs : View) : R Bool := do
  let r ← eqCharView c rhs
  pure !r

/-! ### What the operands mean -/

/-- The text of an operand: the characters a view shows, the characters the history of operations gave a string, and for a pointer or a
literal the characters before the first zero. -/
def Text.Shows : Text → List Chr → Prop
  | .view v, l => v.Inside ∧ v.chars = l
  | .str s, l => ∃ (C : Nat) (junk : Nat → Chr) (n i : Nat) (ops : List Op) (σ : List Spec.Cell) (st : Sys) (z : Bool),
      7 ≤ C ∧ C < 2 ^ 61 ∧ Spec.run (Spec.init n) ops = some σ ∧ Sys.run C junk (Sys.init n) ops = .ok st ∧
      σ[i]? = some (.val l z) ∧ st.vars[i]? = some (some s)
  | .cstr mem off, l => 0#8 ∉ l ∧ mem.length < 2 ^ 63 ∧ ∃ pre post, mem = pre ++ (l ++ 0#8 :: post) ∧ pre.length = off
  | .literal arr, l => 0#8 ∉ l ∧ arr.length < 2 ^ 63 ∧ ∃ post, arr = l ++ 0#8 :: post

end Verif.Str
