import Verif.StrView.Model
import Verif.Str.Model
/-!
# Numbers and text

Model of the integer, character, truth value and byte conversions in `/repo/src/clean-core/to_string.cc` and
`/repo/src/clean-core/from_string.cc`, on a platform where `int` has 32 bits and `long` and `long long` have 64.

The functions of the C library are modelled by what the C standard says about them in the "C" locale:
`snprintf` with `%d`, `%u` and `%.*s`, `strtol`, `strtoll`, `strtoul`, `strtoull`.  A pointer to characters is the
list of the characters from there to the end of the array; reading behind the end is undefined.
Floating-point conversions are not modelled.
-/
namespace Verif.Num
open Verif.StrView (Chr View)

/-- The integer types (`ill` and `ull` are `long long`, for which there is no `from_string`). -/
inductive IntT where
  | i8 | i16 | i32 | i64 | ill | u8 | u16 | u32 | u64 | ull
deriving DecidableEq, Repr

def IntT.bits : IntT → Nat
  | .i8 | .u8 => 8
  | .i16 | .u16 => 16
  | .i32 | .u32 => 32
  | _ => 64

def IntT.signed : IntT → Bool
  | .i8 | .i16 | .i32 | .i64 | .ill => true
  | _ => false

/-- The values of a type. -/
def IntT.InRange (t : IntT) (x : Int) : Prop :=
  if t.signed then -2 ^ (t.bits - 1) ≤ x ∧ x < 2 ^ (t.bits - 1) else 0 ≤ x ∧ x < 2 ^ t.bits

instance (t : IntT) (x : Int) : Decidable (t.InRange x) := by unfold IntT.InRange; infer_instance

/-- Conversion of a value to the type (`int32_t(x)`): modulo a power of two. -/
def IntT.cast (t : IntT) (x : Int) : Int :=
  if t.signed then Int.bmod x (2 ^ t.bits) else x % 2 ^ t.bits

/-! ### to_string -/

/-- The character of a digit; letters are capital if `caps`. -/
def digitChr (caps : Bool) (d : Nat) : Chr :=
  if d < 10 then BitVec.ofNat 8 (48 + d) else BitVec.ofNat 8 ((if caps then 65 else 97) + (d - 10))

/-- Puts the digits of `n` in base `b` in front of `acc`. -/
def numLoop (caps : Bool) (b : Nat) : Nat → Nat → List Chr → List Chr
  | 0, _, acc => acc
  | f + 1, n, acc => if n / b = 0 then digitChr caps (n % b) :: acc else numLoop caps b f (n / b) (digitChr caps (n % b) :: acc)

/-- What `printf` prints for `%u` (`b = 10`), `%o`, `%x` and `%X`. -/
def numeral (caps : Bool) (b n : Nat) : List Chr := numLoop caps b (n.log2 + 1) n []

/-- What `printf` prints for `%d` and `%u`: a minus sign for negative values, then the digits. -/
def decimal (x : Int) : List Chr := if x < 0 then 45#8 :: numeral false 10 x.natAbs else numeral false 10 x.natAbs

/-- `char buffer[n]; res = snprintf(buffer, n, ...); return string_view(buffer, res);` where the conversion prints `text`:
at most `n - 1` characters and a zero are stored, and `res` is the full length. -/
def viaBuffer (n : Nat) (text : List Chr) : R (List Chr) := Str.slice (text.take (n - 1) ++ [0#8]) 0 text.length

/-- The size of the buffer in `to_string` (to_string.cc 50, 58, 66, 74, 82, 90, 98, 106, 114, 122). -/
def IntT.buffer : IntT → Nat
  | .i8 => 5
  | .i16 => 8
  | .i32 => 12
  | .i64 => 21
  | .ill => 21
  | .u16 => 8
  | .u8 => 4
  | .u32 => 11
  | .u64 => 21
  | .ull => 21

/-- `to_string` of an integer (to_string.cc 48-126): the characters of the result. -/
def toStr (t : IntT) (x : Int) : R (List Chr) := viaBuffer t.buffer (decimal x)

/-- `to_string(char)` (to_string.cc 18). -/
def charToStr (c : Chr) : List Chr := List.replicate 1 c

/-- `to_string(bool)` (to_string.cc 19). -/
def boolToStr (b : Bool) : List Chr := if b then [116#8, 114#8, 117#8, 101#8] else [102#8, 97#8, 108#8, 115#8, 101#8]

/-- `"0123456789ABCDEF"` (to_string.cc 154). -/
def hexTable : List Chr := [48#8, 49#8, 50#8, 51#8, 52#8, 53#8, 54#8, 55#8, 56#8, 57#8, 65#8, 66#8, 67#8, 68#8, 69#8, 70#8, 0#8]

/-- `to_string(std::byte)` (to_string.cc 152-160). -/
def byteToStr (v : BitVec 8) : R (List Chr) := do
  let a ← Str.rd hexTable (v.toNat / 16)
  let b ← Str.rd hexTable (v.toNat % 16)
  pure [a, b]

/-! ### from_string -/

/-- `isspace` in the "C" locale. -/
def isSpaceC (c : Chr) : Bool := c == 32#8 || (9 ≤ c.toNat && c.toNat ≤ 13)

/-- A decimal digit. -/
def isDigit (c : Chr) : Bool := 48 ≤ c.toNat && c.toNat ≤ 57

/-- Skips white space. -/
def skipSpace : List Chr → R (List Chr)
  | [] => .error .ub
  | c :: t => if isSpaceC c then skipSpace t else pure (c :: t)

/-- Reads digits: the value and the position behind them. -/
def readDigits : List Chr → Nat → R (Nat × List Chr)
  | [], _ => .error .ub
  | c :: t, acc => if isDigit c then readDigits t (10 * acc + (c.toNat - 48)) else pure (acc, c :: t)

/-- The common part of `strtol` and its relatives with base 10: the sign, the absolute value and `*end`; `none` if there is no
number, in which case `*end` is the beginning of the text. -/
def strtoX (mem : List Chr) : R (Option (Bool × Nat × List Chr)) := do
  let m ← skipSpace mem
  let c ← Str.rd m 0
  let neg := c == 45#8
  let m := if c == 45#8 || c == 43#8 then m.drop 1 else m
  let d ← Str.rd m 0
  if isDigit d then do
    let (v, e) ← readDigits m 0
    pure (some (neg, v, e))
  else pure none

/-- The value of `strtol` and `strtoll` and whether `errno` is set: out of range values are clamped. -/
def clampSigned (neg : Bool) (v : Nat) : Int × Bool :=
  if neg then (if v ≤ 2 ^ 63 then (-(v : Int), false) else (-2 ^ 63, true))
  else (if v < 2 ^ 63 then ((v : Int), false) else (2 ^ 63 - 1, true))

/-- The value of `strtoul` and `strtoull` and whether `errno` is set: negative numbers wrap around. -/
def clampUnsigned (neg : Bool) (v : Nat) : Int × Bool :=
  if v < 2 ^ 64 then ((if neg then (-(v : Int)) % 2 ^ 64 else (v : Int)), false) else (2 ^ 64 - 1, true)

/-- The overloads for `int32_t`, `int64_t`, `uint32_t` and `uint64_t` (from_string.cc 26-43, 61-75): whether they succeed, and the
value stored. `end != c_str` says that there was a number; without one the value is 0. -/
def fromCstrWide (t : IntT) (mem : List Chr) : R (Bool × Int) := do
  match ← strtoX mem with
  | none => pure (false, 0)
  | some (neg, v, e) =>
    let p := if t.signed then clampSigned neg v else clampUnsigned neg v
    let c ← Str.rd e 0
    pure (c == 0#8 && !p.2, t.cast p.1)

/-- `from_string(char const*, T&)` (from_string.cc 10-75): the small types go through 32 bits. -/
def fromCstr (t : IntT) (mem : List Chr) : R (Bool × Int) :=
  match t with
  | .i8 | .i16 => do
    let (ok, full) ← fromCstrWide .i32 mem
    pure (ok && full == t.cast full, t.cast full)
  | .u8 | .u16 => do
    let (ok, full) ← fromCstrWide .u32 mem
    pure (ok && full == t.cast full, t.cast full)
  | _ => fromCstrWide t mem

/-- What `%.*s` prints: characters up to a zero, at most `n` of them. -/
def printS : Nat → List Chr → R (List Chr)
  | 0, _ => pure []
  | _ + 1, [] => .error .ub
  | n + 1, c :: t => if c = 0#8 then pure [] else do
    let r ← printS n t
    pure (c :: r)

/-- What `%s` prints: characters up to a zero. -/
def printSAll : List Chr → R (List Chr)
  | [] => .error .ub
  | c :: t => if c = 0#8 then pure [] else do
    let r ← printSAll t
    pure (c :: r)

/-- `from_string(string_view, T&)` (from_string.cc 93-147): the view is printed to a buffer of 256 characters. A negative precision
counts as none. -/
def fromView (t : IntT) (v : View) : R (Bool × Int) := do
  let mem := v.mem.drop v.off
  let text ← (if v.size % 2 ^ 32 < 2 ^ 31 then printS (v.size % 2 ^ 32) mem else printSAll mem : R (List Chr))
  fromCstr t (text.take 255 ++ [0#8])

/-- `from_string(string_view, char&)` (from_string.cc 163-170): the value if it succeeds. -/
def charFrom (v : View) : R (Option Chr) :=
  if v.size ≠ 1 then pure none else do
    let c ← v.at 0
    pure (some c)

/-- `from_string(string_view, bool&)` (from_string.cc 172-187). -/
def boolFrom (v : View) : R (Option Bool) := do
  let a ← v.eq ⟨boolToStr true, 0, 4⟩
  if a then pure (some true)
  else do
    let b ← v.eq ⟨boolToStr false, 0, 5⟩
    if b then pure (some false) else pure none

/-- `hex_from_char` (from_string.cc 194-206); characters are signed. -/
def hexFromChar (c : Chr) : Int :=
  if 48 ≤ c.toInt ∧ c.toInt ≤ 57 then c.toInt - 48
  else if 97 ≤ c.toInt ∧ c.toInt ≤ 102 then 10 + (c.toInt - 97)
  else if 65 ≤ c.toInt ∧ c.toInt ≤ 70 then 10 + (c.toInt - 65)
  else -1

/-- `from_string(string_view, std::byte&)` (from_string.cc 188-217). -/
def byteFrom (v : View) : R (Option (BitVec 8)) :=
  if v.size ≠ 2 then pure none else do
    let c0 ← v.at 0
    let c1 ← v.at 1
    let i0 := hexFromChar c0
    let i1 := hexFromChar c1
    if i0 = -1 ∨ i1 = -1 then pure none else pure (some (BitVec.ofInt 8 (i0 * 16 + i1)))

end Verif.Num
