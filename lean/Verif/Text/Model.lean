import Verif.Flt.Model
import Verif.WChar.Model

/-!
Model of the overloads of `to_string` (/repo/src/clean-core/to_string.hh): for each type the text, the text with a format specification, and the same two appended to a stream. The conversions themselves are
those of `Verif/Num`, `Verif/Fmt`, `Verif/Flt` and `Verif/WChar`; here are those of pointers, and how the forms are made from each other. A stream is the list of the characters appended to it.

Not modelled: `to_string(void const*, string_view)` is declared (to_string.hh:105) but defined nowhere, so a program that calls it cannot be linked. `Val.ptr` with `isConst` has three forms only.
-/
namespace Verif.Text
open Verif.StrView (Chr)
open Verif.Num (IntT viaBuffer numeral)
open Verif.Flt (Fl Format Spc)

/-- An argument. Pointers to characters are given by the text they point to, `none` is null. -/
inductive Val where
  | bool (b : Bool)
  | char (c : Chr)
  | byte (b : BitVec 8)
  | int (t : IntT) (x : Int)
  | float (F : Format) (v : Fl)
  | null
  | ptr (isConst : Bool) (p : BitVec 64)
  | cstr (s : Option (List Chr))
  | wide (s : Option (List Nat))
  | view (s : List Chr)

/-- What is fixed by the platform: the locale, and what `%a` prints. -/
structure Env where
  locale : WChar.Locale
  hex : Spc → ℚ → List Chr

/-- `"[nullptr]"` -/
def nullText : List Chr := [91#8, 110#8, 117#8, 108#8, 108#8, 112#8, 116#8, 114#8, 93#8]

/-- What `printf` prints for `0x%.16zx`: at least 16 digits. -/
def ptrText (n : Nat) : List Chr :=
  let t := numeral false 16 n
  [48#8, 120#8] ++ (List.replicate (16 - t.length) 48#8 ++ t)

/-- `to_string(void const*)` (to_string.cc:37-46). -/
def ptrToStr (p : BitVec 64) : R (List Chr) :=
  if p = 0#64 then .ok nullText else viaBuffer (16 + 2 + 1) (ptrText p.toNat)

/-- `to_string(value)` (to_string.cc:18-160). -/
def plain (env : Env) : Val → R (List Chr)
  | .bool b => .ok (Num.boolToStr b)
  | .char c => .ok (Num.charToStr c)
  | .byte b => Num.byteToStr b
  | .int t x => Num.toStr t x
  | .float F v => Flt.toStr F v
  /- to_string.cc:34 -/
  | .null => .ok nullText
  /- to_string.cc:36-46; a pointer to variable data is converted -/
  | .ptr _ p => ptrToStr p
  /- to_string.cc:20 -/
  | .cstr s => .ok (s.getD nullText)
  | .wide s => do
    let l ← WChar.toString env.locale s
    .ok (l.map (BitVec.ofNat 8))
  /- to_string.cc:21 -/
  | .view s => .ok s

/-- `to_string(ss, value, fmt)` (to_string.cc:627-813): what is appended. -/
def stream (env : Env) (v : Val) (fmt : List Chr) : R (List Chr) :=
  match v with
  | .bool b => Fmt.boolFmt b fmt
  | .char c => Fmt.charFmt c fmt
  /- to_string.cc:744-748 -/
  | .byte b => do
    ccAssert (decide (fmt = []))
    plain env (.byte b)
  | .int t x => Fmt.intFmt t x fmt
  | .float F x => Flt.floatFmt env.hex F x fmt
  /- to_string.cc:729-733 -/
  | .null => do
    ccAssert (decide (fmt = []))
    .ok nullText
  /- to_string.cc:734-743 -/
  | .ptr c p => do
    ccAssert (decide (fmt = []))
    plain env (.ptr c p)
  | .cstr s => Fmt.cstrFmt s fmt
  /- to_string.cc:668-672 -/
  | .wide s => plain env (.wide s)
  | .view s => Fmt.strFmt s fmt

/-- `to_string(ss, value)` (to_string.cc:289-318). -/
def streamPlain (env : Env) (v : Val) : R (List Chr) := stream env v []

/-- `to_string(value, fmt)` (to_string.cc:163-287): a stream that appends to a string which is empty at first. -/
def formatted (env : Env) (v : Val) (fmt : List Chr) : R (List Chr) := do
  let l ← stream env v fmt
  .ok ([] ++ l)

end Verif.Text
