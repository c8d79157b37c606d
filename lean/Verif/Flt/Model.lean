import Verif.Fmt.Model
import Verif.Rsqrt.Model
/-!
# Floating-point numbers and text

Model of `to_string` and `from_string` for `float`, `double` and `long double` (`/repo/src/clean-core/to_string.cc` 128-150, 584-624, 799-813 and
`/repo/src/clean-core/from_string.cc` 77-91, 149-161), on a platform with IEEE binary32 and binary64 and the extended format of x87.

The functions of the C library are modelled by what the C standard (with annex F) says about them in the "C" locale, with correct rounding to the nearest,
ties to even, as in glibc: `snprintf` with `%e`, `%f`, `%g`, `strtof` and `strtod`. Two things the standard leaves open are parameters: the text that `%a` prints,
and whether an inexact result that is too small for a normal number sets `errno` (`under`). The payload of a NaN is left out.
-/
namespace Verif.Flt
open Verif.StrView (Chr View)
open Verif.Num (numeral viaBuffer isDigit skipSpace readDigits printS printSAll)
open Verif.Rsqrt (halfEven)
open Verif.Fmt (Args parseArgs)

/-- A floating-point type: the number of binary digits, the exponent of the smallest positive number, and the exponent of the first power of two that is too large. -/
structure Format where
  prec : Nat
  emin : Int
  emax : Int
deriving DecidableEq, Repr

def single : Format := ⟨24, -149, 128⟩
def double : Format := ⟨53, -1074, 1024⟩
/-- `long double` -/
def extended : Format := ⟨64, -16445, 16384⟩

/-- A value: the sign, and the absolute value of a number. -/
inductive Fl where
  | nan (neg : Bool)
  | inf (neg : Bool)
  | fin (neg : Bool) (q : ℚ)
deriving DecidableEq

/-! ### printf -/

/-- The digits of `%e` with `P` of them behind the point, as one number, and the exponent. -/
def sci (P : Nat) (q : ℚ) : Nat × Int :=
  if q = 0 then (0, 0)
  else
    let x := Int.log 10 q
    let d := (halfEven (q / 10 ^ (x - P))).toNat
    if d = 10 ^ (P + 1) then (10 ^ P, x + 1) else (d, x)

/-- At least `n` digits. -/
def pad (n : Nat) (l : List Chr) : List Chr := List.replicate (n - l.length) 48#8 ++ l

/-- The digits before and behind the point for `%e` with `P` of them. -/
def sciParts (P : Nat) (q : ℚ) : List Chr × List Chr :=
  let ds := pad (P + 1) (numeral false 10 (sci P q).1)
  (ds.take 1, ds.drop 1)

/-- The digits before and behind the point for `%f`. -/
def fixedParts (P : Nat) (q : ℚ) : List Chr × List Chr :=
  let ds := pad (P + 1) (numeral false 10 (halfEven (q * 10 ^ P)).toNat)
  (ds.take (ds.length - P), ds.drop (ds.length - P))

/-- With a point if there are digits behind it, or with the flag `#`. -/
def point (alt : Bool) (p : List Chr × List Chr) : List Chr := p.1 ++ (if p.2 = [] ∧ alt = false then [] else 46#8 :: p.2)

/-- The exponent: a sign and at least two digits. -/
def expo (caps : Bool) (x : Int) : List Chr := [if caps then 69#8 else 101#8, if x < 0 then 45#8 else 43#8] ++ pad 2 (numeral false 10 x.natAbs)

/-- Without zeros at the end. -/
def strip (l : List Chr) : List Chr := (l.reverse.dropWhile (· == 48#8)).reverse

/-- `%f` -/
def textF (alt : Bool) (P : Nat) (q : ℚ) : List Chr := point alt (fixedParts P q)

/-- `%e`, `%E` -/
def textE (caps alt : Bool) (P : Nat) (q : ℚ) : List Chr := point alt (sciParts P q) ++ expo caps (sci P q).2

/-- The zeros are removed for `%g` without the flag `#`. -/
def trim (alt : Bool) (p : List Chr × List Chr) : List Chr × List Chr := if alt then p else (p.1, strip p.2)

/-- `%g`, `%G` -/
def textG (caps alt : Bool) (P : Nat) (q : ℚ) : List Chr :=
  let P := if P = 0 then 1 else P
  let x := (sci (P - 1) q).2
  if -4 ≤ x ∧ x < P then point alt (trim alt (fixedParts (P - 1 - x).toNat q))
  else point alt (trim alt (sciParts (P - 1) q)) ++ expo caps x

/-- A conversion specification of `printf`. -/
structure Spc where
  sign : Chr := 45#8
  alt : Bool := false
  zero : Bool := false
  width : Nat := 0
  prec : Option Nat := none
  type : Chr := 103#8
deriving DecidableEq, Repr

/-- `E`, `F`, `G` and `A` -/
def isCap (c : Chr) : Bool := c.toNat < 97

/-- The text without sign and padding; `hex` is what `%a` prints. -/
def body (hex : Spc → ℚ → List Chr) (s : Spc) (q : ℚ) : List Chr :=
  let P := s.prec.getD 6
  if s.type = 101#8 ∨ s.type = 69#8 then textE (isCap s.type) s.alt P q
  else if s.type = 102#8 ∨ s.type = 70#8 then textF s.alt P q
  else if s.type = 103#8 ∨ s.type = 71#8 then textG (isCap s.type) s.alt P q
  else hex s q

def infText (caps : Bool) : List Chr := if caps then [73#8, 78#8, 70#8] else [105#8, 110#8, 102#8]
def nanText (caps : Bool) : List Chr := if caps then [78#8, 65#8, 78#8] else [110#8, 97#8, 110#8]

def signText (s : Spc) (neg : Bool) : List Chr := if neg then [45#8] else if s.sign = 43#8 then [43#8] else if s.sign = 32#8 then [32#8] else []

/-- The text of the conversion; zeros are put behind the sign, but not in front of `inf` and `nan`. -/
def printf (hex : Spc → ℚ → List Chr) (s : Spc) : Fl → List Chr
  | .nan neg => let t := signText s neg ++ nanText (isCap s.type); List.replicate (s.width - t.length) 32#8 ++ t
  | .inf neg => let t := signText s neg ++ infText (isCap s.type); List.replicate (s.width - t.length) 32#8 ++ t
  | .fin neg q =>
    let g := signText s neg
    let t := body hex s q
    if s.zero then g ++ List.replicate (s.width - (g ++ t).length) 48#8 ++ t
    else List.replicate (s.width - (g ++ t).length) 32#8 ++ (g ++ t)

/-! ### to_string -/

/-- The size of the buffer (to_string.cc 130, 138, 146). -/
def bufferSize (F : Format) : Nat := if F = single then 21 else if F = double then 31 else 41

/-- `to_string` (to_string.cc 128-150): the characters of the result. -/
def toStr (F : Format) (v : Fl) : R (List Chr) := viaBuffer (bufferSize F) (printf (fun _ _ => []) {} v)

/-- `is_float_type` (to_string.cc 459). -/
def isFloatType (c : Chr) : Bool := c == 97#8 || c == 65#8 || c == 101#8 || c == 69#8 || c == 102#8 || c == 70#8 || c == 103#8 || c == 71#8

/-- The specification that is put together (to_string.cc 589-615). -/
def spcOf (a : Args) : R Spc := do
  let t ← (if a.type = 0#8 then pure 103#8 else do
    ccAssert (isFloatType a.type)
    pure a.type : R Chr)
  pure { sign := a.sign, alt := a.alt, zero := a.zero, width := a.width.toNat, prec := if 0 ≤ a.precision then some a.precision.toNat else none, type := t }

/-- `to_string_float_impl` (to_string.cc 584-624). A text of `2^31` characters or more gives a negative result. There is no `L` in the specification, and with a `long double` as argument the behaviour of `snprintf` is undefined without. -/
def floatImpl (hex : Spc → ℚ → List Chr) (F : Format) (v : Fl) (a : Args) : R (List Chr) := do
  let s ← spcOf a
  if F = extended then .error .ub
  else do
    let text := printf hex s v
    ccAssert (decide (text.length < 2 ^ 31))
    viaBuffer 31 text

/-- `to_string(ss, x, string_view)` (to_string.cc 799-813). -/
def floatFmt (hex : Spc → ℚ → List Chr) (F : Format) (v : Fl) (fmt : List Chr) : R (List Chr) := parseArgs fmt >>= floatImpl hex F v

/-! ### strtod -/

/-- The exponent of the last binary digit of a number. -/
def place (F : Format) (q : ℚ) : Int := max (Int.log 2 q - (F.prec - 1)) F.emin

/-- The nearest number with the precision of the type. -/
def nearest (F : Format) (q : ℚ) : ℚ := halfEven (q / 2 ^ place F q) * 2 ^ place F q

/-- A value with an absolute value, and whether `errno` is set: too large numbers become infinite. -/
def toFl (F : Format) (under : ℚ → Bool) (neg : Bool) (q : ℚ) : Fl × Bool :=
  let v := nearest F q
  if 2 ^ F.emax ≤ v then (.inf neg, true)
  else (.fin neg v, decide (q < 2 ^ (F.emin + (F.prec - 1)) ∧ v ≠ q) && under q)

/-- A small letter for a capital one. -/
def lower (c : Chr) : Chr := if 65 ≤ c.toNat ∧ c.toNat ≤ 90 then c + 32#8 else c

/-- Whether the text begins with `w`, in capital or small letters: the rest. -/
def prefixed : List Chr → List Chr → Option (List Chr)
  | [], m => some m
  | _ :: _, [] => none
  | w :: ws, c :: t => if lower c = w then prefixed ws t else none

/-- The characters between the brackets behind `nan`. -/
def isNChar (c : Chr) : Bool := isDigit c || c == 95#8 || (97 ≤ (lower c).toNat && (lower c).toNat ≤ 122)

/-- The rest behind `(…)`, or everything. -/
def afterNan (m : List Chr) : List Chr :=
  match m with
  | c :: t => if c = 40#8 then (match t.dropWhile isNChar with | d :: r => if d = 41#8 then r else m | [] => m) else m
  | [] => m

/-- The value of a hexadecimal digit. -/
def hexDigit (c : Chr) : Option Nat :=
  if isDigit c then some (c.toNat - 48) else if 97 ≤ (lower c).toNat ∧ (lower c).toNat ≤ 102 then some ((lower c).toNat - 87) else none

/-- Reads hexadecimal digits: the value and the position behind them. -/
def readHex : List Chr → Nat → R (Nat × List Chr)
  | [], _ => .error .ub
  | c :: t, acc => match hexDigit c with | some d => readHex t (16 * acc + d) | none => pure (acc, c :: t)

/-- Digits with an optional point: the digits as one number, how many are behind the point, and the rest; `none` if there are no digits. -/
def readMant (read : List Chr → Nat → R (Nat × List Chr)) (m : List Chr) : R (Option (Nat × Nat × List Chr)) := do
  let (v, e) ← read m 0
  let c ← Str.rd e 0
  if c = 46#8 then do
    let (w, r) ← read (e.drop 1) v
    if m.length - e.length + ((e.drop 1).length - r.length) = 0 then pure none
    else pure (some (w, (e.drop 1).length - r.length, r))
  else if m.length - e.length = 0 then pure none
  else pure (some (v, 0, e))

/-- An exponent after the letter `x`, if there is one. -/
def readExp (x : Chr) (m : List Chr) : R (Int × List Chr) := do
  let c ← Str.rd m 0
  if lower c = x then do
    let d ← Str.rd m 1
    let r := if d = 45#8 ∨ d = 43#8 then m.drop 2 else m.drop 1
    let g ← Str.rd r 0
    if isDigit g then do
      let (v, e) ← readDigits r 0
      pure (if d = 45#8 then -(v : Int) else v, e)
    else pure (0, m)
  else pure (0, m)

/-- A decimal number. -/
def readDecimal (m : List Chr) : R (Option (ℚ × List Chr)) := do
  match ← readMant readDigits m with
  | none => pure none
  | some (v, k, r) => do
    let (x, e) ← readExp 101#8 r
    pure (some (v * 10 ^ (x - k), e))

/-- A hexadecimal number, after `0x`. -/
def readHexNum (m : List Chr) : R (Option (ℚ × List Chr)) := do
  match ← readMant readHex m with
  | none => pure none
  | some (v, k, r) => do
    let (x, e) ← readExp 112#8 r
    pure (some (v * 2 ^ (x - 4 * k), e))

/-- A number in either form. -/
def readNumber (m : List Chr) : R (Option (ℚ × List Chr)) :=
  match prefixed [48#8, 120#8] m with
  | some h => do
    match ← readHexNum h with
    | some r => pure (some r)
    | none => readDecimal m
  | none => readDecimal m

/-- What is read: a number, an infinity or NaN. -/
inductive Read where
  | num (q : ℚ)
  | inf
  | nan

/-- After white space and sign. -/
def readBody (m : List Chr) : R (Option (Read × List Chr)) :=
  match prefixed [105#8, 110#8, 102#8, 105#8, 110#8, 105#8, 116#8, 121#8] m with
  | some r => pure (some (.inf, r))
  | none =>
    match prefixed [105#8, 110#8, 102#8] m with
    | some r => pure (some (.inf, r))
    | none =>
      match prefixed [110#8, 97#8, 110#8] m with
      | some r => pure (some (.nan, afterNan r))
      | none => do
        match ← readNumber m with
        | some (q, r) => pure (some (.num q, r))
        | none => pure none

/-- `strtof` and `strtod`: the value, whether `errno` is set, and `*end`; `none` if there is no number. -/
def strtod (F : Format) (under : ℚ → Bool) (mem : List Chr) : R (Option (Fl × Bool × List Chr)) := do
  let m ← skipSpace mem
  let c ← Str.rd m 0
  let neg := c == 45#8
  let m := if c == 45#8 || c == 43#8 then m.drop 1 else m
  match ← readBody m with
  | none => pure none
  | some (.inf, r) => pure (some (.inf neg, false, r))
  | some (.nan, r) => pure (some (.nan neg, false, r))
  | some (.num q, r) => pure (some ((toFl F under neg q).1, (toFl F under neg q).2, r))

/-! ### from_string -/

/-- `from_string(char const*, float&)` and `double&` (from_string.cc 77-91): whether it succeeds, and the value stored. Without a number the value is zero. -/
def fromCstr (F : Format) (under : ℚ → Bool) (mem : List Chr) : R (Bool × Fl) := do
  match ← strtod F under mem with
  | none => pure (false, .fin false 0)
  | some (v, err, e) => do
    let c ← Str.rd e 0
    pure (c == 0#8 && !err, v)

/-- `from_string(string_view, float&)` and `double&` (from_string.cc 149-161). -/
def fromView (F : Format) (under : ℚ → Bool) (v : View) : R (Bool × Fl) := do
  let mem := v.mem.drop v.off
  let text ← (if v.size % 2 ^ 32 < 2 ^ 31 then printS (v.size % 2 ^ 32) mem else printSAll mem : R (List Chr))
  fromCstr F under (text.take 255 ++ [0#8])

end Verif.Flt
