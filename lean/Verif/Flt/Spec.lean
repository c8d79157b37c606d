import Verif.Fmt.Spec
import Mathlib.Data.Rat.Floor
import Mathlib.Algebra.Order.Ring.Abs
/-!
# What texts of floating-point numbers denote

Independent of the code.
-/
namespace Verif.Flt.Spec
open Verif.Num.Spec (Chr IsDigit IsSpace value IsNumeral)

/-! ### Rounding -/

/-- Numbers with at most `p` digits in base `b`, the last one not below `b^k` for the `k` that are allowed. -/
def Digits (b p : Nat) (allowed : Int → Prop) (v : ℚ) : Prop := ∃ (m : Nat) (k : Int), m < b ^ p ∧ allowed k ∧ v = m * (b : ℚ) ^ k

/-- `v` is the number of that kind that is nearest to `q`; of two neighbours equally near it is the even multiple of their distance. -/
def Rounds (b p : Nat) (allowed : Int → Prop) (q v : ℚ) : Prop :=
  Digits b p allowed v ∧ (∀ w, Digits b p allowed w → |v - q| ≤ |w - q|) ∧
    ∀ w, Digits b p allowed w → w ≠ v → |w - q| = |v - q| → ∃ (m : Nat) (k : Int), |w - v| = (b : ℚ) ^ k ∧ v = (2 * m : Nat) * (b : ℚ) ^ k

/-- `v` is `q` rounded to `p` significant decimal digits. -/
def Rounded (p : Nat) (q v : ℚ) : Prop := Rounds 10 p (fun _ => True) q v

/-- `v` is `q` rounded to `k` digits behind the point: the nearest multiple of `10^-k`, the even one of two. -/
def RoundedAt (k : Nat) (q v : ℚ) : Prop :=
  ∃ n : Nat, v = n / 10 ^ k ∧ |v - q| ≤ 1 / (2 * 10 ^ k) ∧ (|v - q| = 1 / (2 * 10 ^ k) → n % 2 = 0)

/-! ### Texts -/

def Digs (l : List Chr) : Prop := ∀ c ∈ l, IsDigit c

/-- Digits, and after a point (if there is one) further digits. -/
def IsMant (l ip fp : List Chr) : Prop := l = ip ++ 46#8 :: fp ∨ (l = ip ∧ fp = [])

/-- A sign (`+` may be left out). -/
def IsSign (l : List Chr) (neg : Bool) : Prop := (l = [] ∧ neg = false) ∨ (l = [43#8] ∧ neg = false) ∨ (l = [45#8] ∧ neg = true)

/-- Nothing, or one of two letters, a sign and digits. -/
def IsExp (small capital : Chr) (l : List Chr) (x : Int) : Prop :=
  (l = [] ∧ x = 0) ∨ ∃ c sg ds neg, l = c :: (sg ++ ds) ∧ (c = small ∨ c = capital) ∧ IsSign sg neg ∧ ds ≠ [] ∧ Digs ds ∧ x = if neg then -(value 0 ds : Int) else value 0 ds

/-- A decimal number. -/
def IsDec (l : List Chr) (q : ℚ) : Prop :=
  ∃ mt ip fp ex x, l = mt ++ ex ∧ IsMant mt ip fp ∧ Digs (ip ++ fp) ∧ ip ++ fp ≠ [] ∧ IsExp 101#8 69#8 ex x ∧ q = value 0 (ip ++ fp) * 10 ^ (x - fp.length)

/-- The value of a hexadecimal digit. -/
def hexVal (c : Chr) : Option Nat :=
  if 48 ≤ c.toNat ∧ c.toNat ≤ 57 then some (c.toNat - 48)
  else if 65 ≤ c.toNat ∧ c.toNat ≤ 70 then some (c.toNat - 55)
  else if 97 ≤ c.toNat ∧ c.toNat ≤ 102 then some (c.toNat - 87)
  else none

def hexValue (acc : Nat) (l : List Chr) : Nat := l.foldl (fun a c => 16 * a + (hexVal c).getD 0) acc

/-- A hexadecimal number: `0x`, and a binary exponent. -/
def IsHex (l : List Chr) (q : ℚ) : Prop :=
  ∃ c mt ip fp ex x, l = 48#8 :: c :: (mt ++ ex) ∧ (c = 120#8 ∨ c = 88#8) ∧ IsMant mt ip fp ∧ (∀ d ∈ ip ++ fp, (hexVal d).isSome) ∧ ip ++ fp ≠ [] ∧ IsExp 112#8 80#8 ex x ∧
    q = hexValue 0 (ip ++ fp) * 2 ^ (x - 4 * fp.length)

/-- The same word, in capital or small letters. -/
def SameWord (l w : List Chr) : Prop := l.length = w.length ∧ ∀ (k : Nat) c d, l[k]? = some c → w[k]? = some d → c = d ∨ c.toNat + 32 = d.toNat

def wInf : List Chr := [105#8, 110#8, 102#8]
def wInfinity : List Chr := [105#8, 110#8, 102#8, 105#8, 110#8, 105#8, 116#8, 121#8]
def wNan : List Chr := [110#8, 97#8, 110#8]

/-- A letter, a digit or `_`. -/
def IsWordChr (c : Chr) : Prop := IsDigit c ∨ (65 ≤ c.toNat ∧ c.toNat ≤ 90) ∨ (97 ≤ c.toNat ∧ c.toNat ≤ 122) ∨ c = 95#8

/-- What a text stands for. -/
inductive Value where
  | num (q : ℚ)
  | inf
  | nan

/-- A number, `inf`, `infinity`, `nan` or `nan(…)`. -/
def IsBody (l : List Chr) : Value → Prop
  | .num q => IsDec l q ∨ IsHex l q
  | .inf => SameWord l wInf ∨ SameWord l wInfinity
  | .nan => SameWord l wNan ∨ ∃ n a, l = n ++ 40#8 :: (a ++ [41#8]) ∧ SameWord n wNan ∧ ∀ c ∈ a, IsWordChr c

/-- The text as a whole: white space, a sign and one of these. -/
def Denotes (l : List Chr) (neg : Bool) (v : Value) : Prop := ∃ ws sg m, l = ws ++ (sg ++ m) ∧ (∀ c ∈ ws, IsSpace c) ∧ IsSign sg neg ∧ IsBody m v

/-- The last character is not `0`. -/
def NoZeroAtEnd (l : List Chr) : Prop := l.getLast? ≠ some 48#8

/-- An exponent: a letter, a sign and at least two digits, no zeros in front of more. -/
def IsExpo (letter : Chr) (l : List Chr) (x : Int) : Prop :=
  ∃ ds, l = letter :: (if x < 0 then 45#8 else 43#8) :: ds ∧ Digs ds ∧ 2 ≤ ds.length ∧ (2 < ds.length → ds.head? ≠ some 48#8) ∧ value 0 ds = x.natAbs

/-- Digits before and behind a point, which is left out if there are none behind it, unless asked for. -/
def pointed (alt : Bool) (ip fp : List Chr) : List Chr := ip ++ (if fp = [] ∧ alt = false then [] else 46#8 :: fp)

/-- The usual way to write `v`: without an exponent from a ten-thousandth up to `10^p`, with one digit (not 0) before the point and an exponent otherwise; no zeros at the end, and no point there. -/
def Usual (letter : Chr) (p : Nat) (l : List Chr) (v : ℚ) : Prop :=
  (∃ ip fp, l = pointed false ip fp ∧ Digs fp ∧ NoZeroAtEnd fp ∧ (∃ n, IsNumeral ip n) ∧ v = value 0 (ip ++ fp) / 10 ^ fp.length ∧ (v = 0 ∨ 1 / 10 ^ 4 ≤ v) ∧ v < 10 ^ p) ∨
  (∃ d fp ex x, l = pointed false [d] fp ++ ex ∧ IsDigit d ∧ d ≠ 48#8 ∧ Digs fp ∧ NoZeroAtEnd fp ∧ IsExpo letter ex x ∧ v = value 0 (d :: fp) * 10 ^ (x - fp.length) ∧ (v < 1 / 10 ^ 4 ∨ 10 ^ p ≤ v))

/-- The same with a point and `p` digits in every case, zeros in front not counted. -/
def UsualAlt (letter : Chr) (p : Nat) (l : List Chr) (v : ℚ) : Prop :=
  (∃ ip fp, l = pointed true ip fp ∧ Digs fp ∧ (∃ n, IsNumeral ip n) ∧ v = value 0 (ip ++ fp) / 10 ^ fp.length ∧ (v = 0 ∨ 1 / 10 ^ 4 ≤ v) ∧ v < 10 ^ p ∧
    (v = 0 → fp.length + 1 = p) ∧ (v ≠ 0 → 10 ^ (p - 1) ≤ value 0 (ip ++ fp) ∧ value 0 (ip ++ fp) < 10 ^ p)) ∨
  (∃ d fp ex x, l = pointed true [d] fp ++ ex ∧ IsDigit d ∧ d ≠ 48#8 ∧ Digs fp ∧ fp.length + 1 = p ∧ IsExpo letter ex x ∧ v = value 0 (d :: fp) * 10 ^ (x - fp.length) ∧ (v < 1 / 10 ^ 4 ∨ 10 ^ p ≤ v))

/-- `q` with `p` significant digits (at least one). -/
def IsGeneral (letter : Chr) (alt : Bool) (p : Nat) (l : List Chr) (q : ℚ) : Prop :=
  ∃ v, Rounded (max p 1) q v ∧ (alt = false → Usual letter (max p 1) l v) ∧ (alt = true → UsualAlt letter (max p 1) l v)

/-- `q` with `p` digits behind the point. -/
def IsFixed (alt : Bool) (p : Nat) (l : List Chr) (q : ℚ) : Prop :=
  ∃ ip fp, l = pointed alt ip fp ∧ (∃ n, IsNumeral ip n) ∧ Digs fp ∧ fp.length = p ∧ RoundedAt p q (value 0 (ip ++ fp) / 10 ^ p)

/-- `q` with one digit before the point (0 only for zero), `p` digits behind it and an exponent. -/
def IsScientific (letter : Chr) (alt : Bool) (p : Nat) (l : List Chr) (q : ℚ) : Prop :=
  ∃ d fp ex x, l = pointed alt [d] fp ++ ex ∧ IsDigit d ∧ (d = 48#8 → q = 0 ∧ x = 0) ∧ Digs fp ∧ fp.length = p ∧ IsExpo letter ex x ∧ Rounded (p + 1) q (value 0 (d :: fp) * 10 ^ (x - p))

/-! ### Format specifications -/

/-- What the type says for a number: `e` and `E` with exponent, `f` and `F` without, `g` and `G` the usual way; six digits if there is no precision. -/
def NumText (type : Chr) (alt : Bool) (precision : Option Nat) (q : ℚ) (l : List Chr) : Prop :=
  (type = 101#8 → IsScientific 101#8 alt (precision.getD 6) l q) ∧ (type = 69#8 → IsScientific 69#8 alt (precision.getD 6) l q) ∧
  (type = 102#8 ∨ type = 70#8 → IsFixed alt (precision.getD 6) l q) ∧
  (type = 103#8 → IsGeneral 101#8 alt (precision.getD 6) l q) ∧ (type = 71#8 → IsGeneral 69#8 alt (precision.getD 6) l q)

/-- A word, in capital letters for `E`, `F` and `G`. -/
def wordFor (type : Chr) (w : List Chr) : List Chr := if type = 69#8 ∨ type = 70#8 ∨ type = 71#8 then w.map (· - 32#8) else w

/-- `out` is the text of a value for the specification `f`: the sign and the number, with zeros between them up to the width if `0` is given, and otherwise padded like any text. -/
def FloatText (f : Fmt.Spec.Fields) (neg : Bool) (v : Value) (out : List Chr) : Prop :=
  let front := Fmt.Spec.sign f.signChr neg
  let type := f.type.getD 103#8
  match v with
  | .num q => ∃ num, NumText type f.alt f.maxLen q num ∧
      if f.zero then out = front ++ List.replicate (f.minWidth - (front ++ num).length) 48#8 ++ num
      else Fmt.Spec.Padded (front ++ num) f.fillChr f.alignChr f.minWidth out
  | .inf => Fmt.Spec.Padded (front ++ wordFor type wInf) f.fillChr f.alignChr f.minWidth out
  | .nan => Fmt.Spec.Padded (front ++ wordFor type wNan) f.fillChr f.alignChr f.minWidth out

end Verif.Flt.Spec
