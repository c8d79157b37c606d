import Verif.Text.Model
import Verif.Fmt.IntProps
import Verif.Flt.Values

/-! The texts of pointers, and which arguments are values of their type. -/
namespace Verif.Text.Spec
open Verif.StrView (Chr)
open Verif.Num (IntT)
open Verif.Flt (single double extended Number)

/-- A hexadecimal digit with small letters. -/
def hexDigit (d : Nat) : Chr := if d < 10 then BitVec.ofNat 8 (48 + d) else BitVec.ofNat 8 (87 + d)

/-- The text of a pointer: its 16 hexadecimal digits, the first is that of the highest bits. -/
def pointer (p : BitVec 64) : List Chr :=
  if p = 0#64 then Num.txt "[nullptr]" else Num.txt "0x" ++ (List.range 16).map fun i => hexDigit (p.toNat / 16 ^ (15 - i) % 16)

/-- The values of the types. -/
def IsValue : Val → Prop
  | .int t x => t.InRange x
  | .float F (.fin _ q) => Flt.Known F ∧ Number F q
  | .float F _ => Flt.Known F
  | _ => True

/-- The values that formatting cannot handle: the least ones of `int`, `long` and `long long`, and all of `long double`. -/
def Bad : Val → Prop
  | .int t x => t.signed = true ∧ 32 ≤ t.bits ∧ x = -2 ^ (t.bits - 1)
  | .float F _ => F = extended
  | _ => False

end Verif.Text.Spec
