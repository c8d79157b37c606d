import Mathlib.Data.Int.Log
import Mathlib.Data.Rat.Floor

/-!
Model of `cc::intrin_rsqrt`, `intrin_rsqrt_nr1` and `intrin_rsqrt_nr2` (/repo/src/clean-core/intrinsics.hh:187-249), which exist for x86-64 only.

A `float` is a rational number, an infinity or not a number; the sign of zero is left out. `_mm_mul_ss`, `_mm_add_ss` and `_mm_sub_ss` are the
operations of IEEE 754 binary32, rounding to the nearest, ties to even, with gradual underflow (the initial value of MXCSR). `_mm_rsqrt_ss` is a
parameter, about which the theorems assume what the vendors document.
-/
namespace Verif.Rsqrt

inductive Fl where
  | nan
  | inf (neg : Bool)
  | fin (q : ℚ)
deriving DecidableEq

/-- The exponent of the last place of a number. -/
def place (q : ℚ) : ℤ := max (Int.log 2 |q|) (-126) - 23

/-- The nearest integer, the even one of two. -/
def halfEven (s : ℚ) : ℤ :=
  if s - ⌊s⌋ < 1 / 2 then ⌊s⌋
  else if 1 / 2 < s - ⌊s⌋ then ⌊s⌋ + 1
  else if ⌊s⌋ % 2 = 0 then ⌊s⌋ else ⌊s⌋ + 1

/-- Rounding to binary32. -/
def round (q : ℚ) : Fl :=
  let v : ℚ := halfEven (q / 2 ^ place q) * 2 ^ place q
  if 2 ^ 128 ≤ |v| then .inf (v < 0) else .fin v

/-- `_mm_mul_ss` -/
def mul : Fl → Fl → Fl
  | .nan, _ => .nan
  | _, .nan => .nan
  | .fin a, .fin b => round (a * b)
  | .inf s, .inf t => .inf (s != t)
  | .inf s, .fin b => if b = 0 then .nan else .inf (s != decide (b < 0))
  | .fin a, .inf t => if a = 0 then .nan else .inf (decide (a < 0) != t)

/-- `_mm_add_ss` -/
def add : Fl → Fl → Fl
  | .nan, _ => .nan
  | _, .nan => .nan
  | .fin a, .fin b => round (a + b)
  | .inf s, .inf t => if s = t then .inf s else .nan
  | .inf s, .fin _ => .inf s
  | .fin _, .inf t => .inf t

def neg : Fl → Fl
  | .nan => .nan
  | .inf s => .inf !s
  | .fin q => .fin (-q)

/-- `_mm_sub_ss` -/
def sub (a b : Fl) : Fl := add a (neg b)

/-- `intrin_rsqrt` (intrinsics.hh:192-203); `hw` is `_mm_rsqrt_ss`. -/
def rsqrt (hw : Fl → Fl) (x : Fl) : Fl := hw x

/-- One Newton-Raphson iteration (intrinsics.hh:215-218, 235-238, 240-243). -/
def step (x_half x_0 : Fl) : Fl :=
  let point_five := Fl.fin (1 / 2)
  let x_1 := mul x_0 x_0
  let x_1 := sub point_five (mul x_half x_1)
  add x_0 (mul x_0 x_1)

/-- `intrin_rsqrt_nr1` (intrinsics.hh:207-223). -/
def rsqrt_nr1 (hw : Fl → Fl) (x : Fl) : Fl :=
  let y_0 := x
  let x_0 := hw y_0
  let x_half := mul y_0 (.fin (1 / 2))
  step x_half x_0

/-- `intrin_rsqrt_nr2` (intrinsics.hh:227-248). -/
def rsqrt_nr2 (hw : Fl → Fl) (x : Fl) : Fl :=
  let y_0 := x
  let x_0 := hw y_0
  let x_half := mul y_0 (.fin (1 / 2))
  let x_1 := step x_half x_0
  step x_half x_1

end Verif.Rsqrt
