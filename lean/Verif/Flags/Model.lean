import Verif.Bits.Model

/-!
Model of `cc::flags` (/repo/src/clean-core/flags.hh). An enum value is the natural number it converts to. `w` is the width of
`storage_t` (8, 16, 32 or 64, detail/compact_size_t.hh:33-60); `int` has 32 bits.
-/
namespace Verif.Flags
open Verif.Bits

/-- The member `_value` (flags.hh:139). -/
abbrev Fl (w : Nat) := BitVec w

/-- `1 << s` computed as an `int` (flags.hh:47, 212): undefined for `s ≥ 32`; `1 << 31` is the smallest `int`. -/
def intBit (s : Nat) : R (BitVec 32) := if 32 ≤ s then .error .ub else .ok (1#32 <<< s)

/-- `_stored_value_of(EnumT)` (flags.hh:47): `storage_t(1 << storage_t(e))`. The `int` is converted to the storage type: truncated, or
sign extended for 64 bits. -/
def storedValueOf (w e : Nat) : R (Fl w) := do
  let x ← intBit (e % 2 ^ w)
  .ok (x.signExtend w)

variable {w : Nat}

/-- `operator&(EnumT)` (flags.hh:88-91) and `has` (flags.hh:54). -/
def has (f : Fl w) (e : Nat) : R Bool := do
  let x ← storedValueOf w e
  .ok (f &&& x != 0#w)

/-- `has_any`, `operator bool` (flags.hh:55, 135). -/
def hasAny (f : Fl w) : Bool := f != 0#w

/-- `has_all_of` (flags.hh:56). -/
def hasAllOf (f g : Fl w) : Bool := f &&& g == g

/-- `has_any_of` (flags.hh:57). -/
def hasAnyOf (f g : Fl w) : Bool := f &&& g != 0#w

/-- `is_single` (flags.hh:59); the 8 and 16 bit `popcount` overloads promote to 32 bits. -/
def isSingle (f : Fl w) : Bool := builtinPopcount (f.setWidth (promoted w)) == 1

/-- `single` (flags.hh:60-64). For 8 and 16 bit storage the call `count_trailing_zeros(_value)` is ambiguous between the two
overloads and does not compile, so this is meant for `w` = 32 and 64. -/
def single (f : Fl w) : R Nat := do
  ccAssert (isSingle f)
  countTrailingZeros f

/-- The fold in the constructor (flags.hh:73-77), after the first value. -/
def ctorLoop (acc : Fl w) : List Nat → R (Fl w)
  | [] => .ok acc
  | e :: es => do
    let x ← storedValueOf w e
    ctorLoop (acc ||| x) es

/-- The constructor from enum values (flags.hh:73-77), `make_flags` (168-175), and for no arguments the default constructor (71). -/
def ctor (es : List Nat) : R (Fl w) :=
  match es with
  | [] => .ok 0#w
  | e :: es => do
    let x ← storedValueOf w e
    ctorLoop x es

/-- `operator&(flags)`, `operator&=(flags)` (flags.hh:92-95, 101-105). -/
def and (f g : Fl w) : Fl w := f &&& g

/-- `operator&=(EnumT)` (flags.hh:96-100). -/
def andEnum (f : Fl w) (e : Nat) : R (Fl w) := do
  let x ← storedValueOf w e
  .ok (f &&& x)

/-- `operator|(flags)`, `operator|=(flags)` (flags.hh:111-114, 120-124), and `EnumT | flags` (162-166) after conversion. -/
def or (f g : Fl w) : Fl w := f ||| g

/-- `operator|(EnumT)`, `operator|=(EnumT)` (flags.hh:107-110, 115-119). -/
def orEnum (f : Fl w) (e : Nat) : R (Fl w) := do
  let x ← storedValueOf w e
  .ok (f ||| x)

/-- `operator==(flags)` (flags.hh:130). -/
def eq (f g : Fl w) : Bool := f == g

/-- `operator==(EnumT)` (flags.hh:132). -/
def eqEnum (f : Fl w) (e : Nat) : R Bool := do
  let x ← storedValueOf w e
  .ok (f == x)

/-- The inner loop of `operator++` (flags.hh:212-213), `n` bounds the iterations (`last - curr` of them at most). -/
def skip (v : Fl w) (last : Nat) (curr : Nat) : Nat → R Nat
  | 0 => .ok curr
  | n + 1 =>
    if curr < last then do
      let x ← intBit curr
      if v &&& x.signExtend w == 0#w then skip v last (curr + 1) n else .ok curr
    else .ok curr

/-- The range-for over flags (flags.hh:205-214): `n` bounds the number of steps; more steps than that stand for a loop that does not
end. -/
def iterLoop (v : Fl w) (last : Nat) (curr : Nat) : Nat → R (List Nat)
  | 0 => .error .ub
  | n + 1 =>
    if curr ≠ last then do
      let next ← skip v last (curr + 1) (last - (curr + 1))
      let rest ← iterLoop v last next n
      .ok (curr :: rest)
    else .ok []

/-- The values a range-for visits, with the iterator's constructor (flags.hh:190-203). As for `single`, this only compiles for 32 and
64 bit storage. -/
def iter (v : Fl w) : R (List Nat) :=
  if v = 0#w then iterLoop v 0 0 (w + 1)
  else do
    let curr ← countTrailingZeros v
    let clz ← countLeadingZeros v
    iterLoop v (w - clz) curr (w + 1)

end Verif.Flags
