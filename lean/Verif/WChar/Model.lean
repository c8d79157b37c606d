import Verif.Common

/-!
Model of `cc::widechar_to_char` and `cc::char_to_widechar` (/repo/src/clean-core/native/wchar_conversion.cc, not Windows) and of
`cc::to_string(wchar_t const*)` (/repo/src/clean-core/to_string.cc:23-32).

Characters are numbers; the source is the list of the elements that can be read from the pointer on, and reading beyond its end is undefined.
`std::wcsrtombs` and `std::mbsrtowcs` are modelled as ISO C describes them (7.29.6.4), for two locales: the "C" locale, in which every program
starts, with ASCII only, and one with UTF-8. `wchar_t` has four bytes.
-/
namespace Verif.WChar

/-- The locale of the program. -/
inductive Locale where
  | c
  | utf8
deriving DecidableEq

/-- `wcrtomb`: the bytes of a wide character, if it has any in the locale. -/
def encode (l : Locale) (c : Nat) : Option (List Nat) :=
  if c < 0x80 then some [c]
  else match l with
    | .c => none
    | .utf8 =>
      if c < 0x800 then some [0xC0 + c / 64, 0x80 + c % 64]
      else if c < 0xD800 ∨ (0xE000 ≤ c ∧ c < 0x10000) then some [0xE0 + c / 4096, 0x80 + c / 64 % 64, 0x80 + c % 64]
      else if 0x10000 ≤ c ∧ c < 0x110000 then some [0xF0 + c / 262144, 0x80 + c / 4096 % 64, 0x80 + c / 64 % 64, 0x80 + c % 64]
      else none

/-- `std::wcsrtombs` with a limit of `len` bytes: what is stored, and the number of bytes without the terminator, or nothing for
`(size_t)-1`. -/
def wcsrtombs (l : Locale) : (src : List Nat) → (len : Nat) → R (List Nat × Option Nat)
  | [], len => if len = 0 then .ok ([], some 0) else .error .ub
  | c :: cs, len =>
    if len = 0 then .ok ([], some 0)
    else match encode l c with
      | none => .ok ([], none)
      | some bs =>
        if len < bs.length then .ok ([], some 0)
        else if c = 0 then .ok ([0], some 0)
        else do
          let (out, k) ← wcsrtombs l cs (len - bs.length)
          .ok (bs ++ out, k.map (bs.length + ·))

/-- `n` continuation bytes after the value `acc`; nothing if another byte is found. -/
def conts (acc : Nat) : (n : Nat) → List Nat → R (Option (Nat × List Nat))
  | 0, bs => .ok (some (acc, bs))
  | _ + 1, [] => .error .ub
  | n + 1, b :: bs => if 0x80 ≤ b ∧ b < 0xC0 then conts (acc * 64 + (b - 0x80)) n bs else .ok none

/-- Keep a character that satisfies `p`. -/
def check (p : Nat → Bool) : Option (Nat × List Nat) → Option (Nat × List Nat)
  | none => none
  | some (c, bs) => if p c then some (c, bs) else none

/-- `mbrtowc`: the first character and the bytes behind it; nothing if the bytes are not a character. -/
def decode (l : Locale) : List Nat → R (Option (Nat × List Nat))
  | [] => .error .ub
  | b :: bs =>
    if b < 0x80 then .ok (some (b, bs))
    else match l with
      | .c => .ok none
      | .utf8 =>
        if 0xC2 ≤ b ∧ b < 0xE0 then conts (b - 0xC0) 1 bs
        else if 0xE0 ≤ b ∧ b < 0xF0 then do
          let r ← conts (b - 0xE0) 2 bs
          .ok (check (fun c => 0x800 ≤ c ∧ (c < 0xD800 ∨ 0xE000 ≤ c)) r)
        else if 0xF0 ≤ b ∧ b < 0xF5 then do
          let r ← conts (b - 0xF0) 3 bs
          .ok (check (fun c => 0x10000 ≤ c ∧ c < 0x110000) r)
        else .ok none

/-- `std::mbsrtowcs` with a limit of `len` wide characters. -/
def mbsrtowcs (l : Locale) : (len : Nat) → List Nat → R (List Nat × Option Nat)
  | 0, _ => .ok ([], some 0)
  | n + 1, src => do
    match ← decode l src with
    | none => .ok ([], none)
    | some (c, rest) =>
      if c = 0 then .ok ([0], some 0)
      else do
        let (out, k) ← mbsrtowcs l n rest
        .ok (c :: out, k.map (1 + ·))

/-- The destination after `out` has been stored at its begin. -/
def store (dest out : List Nat) : R (List Nat) :=
  if out.length ≤ dest.length then .ok (out ++ dest.drop out.length) else .error .ub

/-- `int(n)` for a `size_t`. -/
def toInt (n : Nat) : Int := if n % 2 ^ 32 < 2 ^ 31 then (n % 2 ^ 32 : Nat) else (n % 2 ^ 32 : Nat) - 2 ^ 32

/-- `size_t(i)` for an `int`. -/
def toSize (i : Int) : Nat := (i % 2 ^ 64).toNat

/-- The answer, as an `int`. -/
def answer : Option Nat → Int
  | none => -1
  | some n => toInt n

/-- `widechar_to_char` (wchar_conversion.cc:10-19): the destination afterwards and the answer. -/
def widecharToChar (l : Locale) (dest src : List Nat) (opt : Int) : R (List Nat × Int) := do
  let num : Int := if opt > 0 then min (toInt dest.length) (opt / 4) else toInt dest.length
  let (out, k) ← wcsrtombs l src (toSize num)
  let dest ← store dest out
  .ok (dest, answer k)

/-- `char_to_widechar` (wchar_conversion.cc:21-30). -/
def charToWidechar (l : Locale) (dest src : List Nat) (opt : Int) : R (List Nat × Int) := do
  let num : Int := if opt > 0 then min (toInt dest.length) opt else toInt dest.length
  let (out, k) ← mbsrtowcs l (toSize num) src
  let dest ← store dest out
  .ok (dest, answer k)

/-- `std::wcslen`. -/
def wcslen : List Nat → R Nat
  | [] => .error .ub
  | c :: cs =>
    if c = 0 then .ok 0
    else do
      let n ← wcslen cs
      .ok (n + 1)

/-- `to_string(wchar_t const*)` (to_string.cc:23-32); the string is given by its characters, and `resize` fills with zeros. No source is a null
pointer. -/
def toString (l : Locale) : Option (List Nat) → R (List Nat)
  | none => .ok ("[nullptr]".toList.map Char.toNat)
  | some src => do
    let n ← wcslen src
    let (res, _) ← widecharToChar l (List.replicate n 0) src (-1)
    .ok res

end Verif.WChar
