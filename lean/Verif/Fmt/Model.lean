import Verif.Num.Model
/-!
# Formatting values

Model of the part of `/repo/src/clean-core/to_string.cc` that formats strings, characters, truth values and integers with a
format specification (lines 320-800), on a platform with signed 8-bit `char`, 32-bit `int` and 64-bit `long`.

The stream that the text is appended to is modelled by the list of the characters appended.  A format specification is a view
that the code reads with a pointer compared to the end before each read; here it is the list of the characters from the pointer
to the end.  Floating-point numbers are modelled in `Flt/`, `wchar_t` in `WChar/`.
-/
namespace Verif.Fmt
open Verif.StrView (Chr)
open Verif.Num (IntT isDigit digitChr numeral viaBuffer)

/-- `parsed_fmt_args` (to_string.cc 331-341). A type of 0 is no type. -/
structure Args where
  width : Int := -1
  precision : Int := -1
  fill : Chr := 32#8
  align : Chr := 62#8
  sign : Chr := 45#8
  type : Chr := 0#8
  alt : Bool := false
  zero : Bool := false
deriving DecidableEq, Repr

/-- `is_align` (to_string.cc 376). -/
def isAlign (c : Chr) : Bool := c == 60#8 || c == 62#8 || c == 94#8

/-- `is_sign` (to_string.cc 377). -/
def isSign (c : Chr) : Bool := c == 43#8 || c == 45#8 || c == 32#8

/-- An `int`; overflow is undefined. -/
def intOp (x : Int) : R Int := if -2 ^ 31 ≤ x ∧ x < 2 ^ 31 then .ok x else .error .ub

/-- The loop of `parse_unsigned_int` (to_string.cc 383-388). -/
def uintLoop : List Chr → Int → R (Int × List Chr)
  | [], out => pure (out, [])
  | c :: t, out =>
    if isDigit c then do
      let out ← intOp (out * 10)
      let out ← intOp (out + (c.toNat - 48))
      uintLoop t out
    else pure (out, c :: t)

/-- `parse_unsigned_int` (to_string.cc 379-390): the number and the position behind it. -/
def parseUInt (l : List Chr) : R (Int × List Chr) :=
  match l with
  | [] => .error .ub
  | c :: t => uintLoop t (c.toNat - 48)

/-- Fill and alignment (to_string.cc 400-414). -/
def parseAlign (l : List Chr) (a : Args) : Args × List Chr :=
  match l with
  | [] => (a, [])
  | c :: t =>
    if isAlign c then ({ a with align := c }, t)
    else match t with
      | [] => (a, l)
      | d :: t' => if isAlign d then ({ a with fill := c, align := d }, t') else (a, l)

/-- The sign (to_string.cc 415-420). -/
def parseSign (l : List Chr) (a : Args) : Args × List Chr :=
  match l with
  | [] => (a, [])
  | c :: t => if isSign c then ({ a with sign := c }, t) else (a, l)

/-- The alternative mode (to_string.cc 421-426). -/
def parseAlt (l : List Chr) (a : Args) : Args × List Chr :=
  match l with
  | [] => (a, [])
  | c :: t => if c = 35#8 then ({ a with alt := true }, t) else (a, l)

/-- Zero padding (to_string.cc 427-434). -/
def parseZero (l : List Chr) (a : Args) : R (Args × List Chr) :=
  match l with
  | [] => pure (a, [])
  | c :: t =>
    if c = 48#8 then
      match t with
      | [] => .error .assert
      | d :: _ => do
        ccAssert (isDigit d)
        ccAssert (decide (d ≠ 48#8))
        pure ({ a with zero := true }, t)
    else pure (a, l)

/-- The width (to_string.cc 435-439). -/
def parseWidth (l : List Chr) (a : Args) : R (Args × List Chr) :=
  match l with
  | [] => pure (a, [])
  | c :: _ =>
    if isDigit c then do
      let (w, r) ← parseUInt l
      pure ({ a with width := w }, r)
    else pure (a, l)

/-- The precision (to_string.cc 440-446). -/
def parsePrecision (l : List Chr) (a : Args) : R (Args × List Chr) :=
  match l with
  | [] => pure (a, [])
  | c :: t =>
    if c = 46#8 then
      match t with
      | [] => .error .assert
      | d :: _ => do
        ccAssert (isDigit d)
        let (p, r) ← parseUInt t
        pure ({ a with precision := p }, r)
    else pure (a, l)

/-- The type and the end (to_string.cc 447-455). -/
def parseType (l : List Chr) (a : Args) : R Args :=
  match l with
  | [] => pure a
  | c :: t => do
    ccAssert (decide (t = []))
    pure { a with type := c }

/-- `parse_args` (to_string.cc 374-456). -/
def parseArgs (l : List Chr) : R Args :=
  let p := parseAlign l {}
  let p := parseSign p.2 p.1
  let p := parseAlt p.2 p.1
  parseZero p.2 p.1 >>= fun p =>
  parseWidth p.2 p.1 >>= fun p =>
  parsePrecision p.2 p.1 >>= fun p =>
  parseType p.2 p.1

/-! ### Strings -/

/-- `for (auto i = 0u; i < total; ++i) ss << fill;` with a 64-bit `total`. The counter has 32 bits, so that the loop does not end if
`total` needs more; this is modelled as a fault. -/
def fillLoop (fill : Chr) (total : BitVec 64) : R (List Chr) :=
  if total.toNat < 2 ^ 32 then pure (List.replicate total.toNat fill) else .error .ub

/-- `int(value.size())` -/
def toInt32 (n : Nat) : Int := (BitVec.ofNat 32 n).toInt

/-- `to_string(ss, string_view, string_view)` (to_string.cc 673-727). `args.width - value.size()` is computed with 64 bits. -/
def strFmt (value fmt : List Chr) : R (List Chr) :=
  if fmt = [] then pure value
  else parseArgs fmt >>= fun args =>
    if args.precision ≥ 0 ∧ args.precision ≤ toInt32 value.length then
      Str.slice value 0 args.precision.toNat
    else if args.width > toInt32 value.length then
      let total : BitVec 64 := BitVec.ofInt 64 args.width - BitVec.ofNat 64 value.length
      if args.align = 60#8 then do
        let f ← fillLoop args.fill total
        pure (value ++ f)
      else if args.align = 94#8 then do
        let right := total / 2#64
        let left := right + (if total % 2#64 = 1#64 then 1#64 else 0#64)
        let l ← fillLoop args.fill left
        let r ← fillLoop args.fill right
        pure (l ++ value ++ r)
      else do
        let f ← fillLoop args.fill total
        pure (f ++ value)
    else pure value

/-- `to_string(ss, char const*, string_view)` (to_string.cc 657-667) for a pointer to a zero-terminated text or null. -/
def cstrFmt (value : Option (List Chr)) (fmt : List Chr) : R (List Chr) :=
  match value with
  | some v => strFmt v fmt
  | none => pure [91#8, 110#8, 117#8, 108#8, 108#8, 112#8, 116#8, 114#8, 93#8]

/-! ### Integers -/

/-- The loop of `unsigned_int_to_binary` (to_string.cc 466-471); `space` is the room left in front of `end` in the buffer. -/
def binLoop : Nat → Nat → List Chr → R (List Chr)
  | 0, v, acc => if v = 0 then pure acc else .error .ub
  | s + 1, v, acc => if v = 0 then pure acc else binLoop s (v / 2) ((if v % 2 = 1 then 49#8 else 48#8) :: acc)

/-- `to_binary` (to_string.cc 487-493). -/
def toBinary (t : IntT) (v : Nat) : R (List Chr) := binLoop (t.bits + 1) v []

/-- `add_fill` (to_string.cc 479-485). -/
def addFill (a : Args) (length : Nat) : List Chr :=
  if a.width > 0 ∧ (length : Int) < a.width then List.replicate (a.width - length).toNat (if a.zero then 48#8 else a.fill) else []

/-- What `snprintf` prints for `%llx` or `%#llx` (`%llX`, `%#llX` if `caps`): the prefix is omitted for 0. -/
def hexText (caps alt : Bool) (v : Nat) : List Chr :=
  (if alt ∧ v ≠ 0 then [48#8, if caps then 88#8 else 120#8] else []) ++ numeral caps 16 v

/-- `length = snprintf(buffer, size, ...); add_fill(length); ss << string_view(buffer, length);` -/
def filled (a : Args) (size : Nat) (text : List Chr) : R (List Chr) := do
  let b ← viaBuffer size text
  pure (addFill a text.length ++ b)

/-- `unsigned_to_string_impl` (to_string.cc 475-551). The flag `0` in `%0llu` has no effect without a width. -/
def unsignedFmt (t : IntT) (v : Nat) (a : Args) : R (List Chr) :=
  if a.type = 0#8 ∨ a.type = 100#8 ∨ a.type = 117#8 then
    filled a 21 (numeral false 10 v)
  else if a.type = 98#8 then do
    let b ← toBinary t v
    pure ((if a.alt then [48#8, 98#8] else []) ++ b)
  else if a.type = 66#8 then do
    let b ← toBinary t v
    pure ((if a.alt then [48#8, 66#8] else []) ++ b)
  else if a.type = 111#8 then do
    let b ← filled a (t.bits / 3 + 1 + 1) (numeral false 8 v)
    pure ((if a.alt then [48#8] else []) ++ b)
  else if a.type = 120#8 then
    filled a (t.bits / 8 * 2 + 1) (hexText false a.alt v)
  else if a.type = 88#8 then
    filled a (t.bits / 8 * 2 + 1) (hexText true a.alt v)
  else .error .assert

/-- The sign printed by `int_to_string_impl` (to_string.cc 562-582). -/
def signText (sign : Chr) (neg : Bool) : List Chr :=
  if sign = 32#8 then [if neg then 45#8 else 32#8]
  else if sign = 45#8 then (if neg then [45#8] else [])
  else if sign = 43#8 then [if neg then 45#8 else 43#8]
  else []

/-- `int_to_string_impl` (to_string.cc 553-584). `-value` is computed with 32 bits for the smaller types and overflows for the least
value of the others. -/
def signedFmt (t : IntT) (x : Int) (a : Args) : R (List Chr) :=
  if x < 0 ∧ ¬ (-x < 2 ^ (max t.bits 32 - 1)) then .error .ub
  else do
    let v := ((if x < 0 then -x else x) % 2 ^ t.bits).toNat
    let sg := signText a.sign (decide (x < 0))
    let w := if a.width > 0 ∧ sg ≠ [] then a.width - 1 else a.width
    let u ← unsignedFmt t v { a with width := w }
    pure (sg ++ u)

/-- `to_string(ss, x, string_view)` for the integer types (to_string.cc 749-798). -/
def intFmt (t : IntT) (x : Int) (fmt : List Chr) : R (List Chr) := do
  let a ← parseArgs fmt
  if t.signed then signedFmt t x a else unsignedFmt t x.toNat a

/-- `is_int_type` (to_string.cc 458). -/
def isIntType (c : Chr) : Bool := c == 100#8 || c == 98#8 || c == 66#8 || c == 111#8 || c == 120#8 || c == 88#8

/-- `to_string(ss, char, string_view)` (to_string.cc 627-639). -/
def charFmt (c : Chr) (fmt : List Chr) : R (List Chr) := do
  let a ← parseArgs fmt
  if a.type = 0#8 ∨ a.type = 99#8 then pure [c]
  else do
    ccAssert (isIntType a.type)
    signedFmt .i8 c.toInt a

/-- `to_string(ss, bool, string_view)` (to_string.cc 640-656). -/
def boolFmt (b : Bool) (fmt : List Chr) : R (List Chr) := do
  let a ← parseArgs fmt
  if a.type = 0#8 then pure (Num.boolToStr b)
  else do
    ccAssert (isIntType a.type)
    signedFmt .i32 (if b then 1 else 0) a

end Verif.Fmt
