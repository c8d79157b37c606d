import Verif.Num.Spec
/-!
# Format specifications

The grammar `[[fill]align][sign]["#"]["0"][width]["." precision][type]` and the layout of formatted text, independent of the code.
-/
namespace Verif.Fmt.Spec
open Verif.Num.Spec (Chr IsDigit value)

/-- The parts of a format specification. -/
structure Fields where
  /-- The alignment, with an optional fill character. -/
  align : Option (Option Chr × Chr) := none
  sign : Option Chr := none
  alt : Bool := false
  zero : Bool := false
  /-- The digits of the width; none for no width. -/
  width : List Chr := []
  /-- The digits of the precision. -/
  precision : Option (List Chr) := none
  type : Option Chr := none

/-- `<`, `>`, `^` -/
def IsAlign (c : Chr) : Prop := c = 60#8 ∨ c = 62#8 ∨ c = 94#8
/-- `+`, `-` and a space. -/
def IsSign (c : Chr) : Prop := c = 43#8 ∨ c = 45#8 ∨ c = 32#8
/-- `a` to `z` and `A` to `Z`. -/
def IsLetter (c : Chr) : Prop := (97 ≤ c.toNat ∧ c.toNat ≤ 122) ∨ (65 ≤ c.toNat ∧ c.toNat ≤ 90)

def renderAlign : Option (Option Chr × Chr) → List Chr
  | none => []
  | some (none, a) => [a]
  | some (some f, a) => [f, a]

/-- The text of a format specification. -/
def Fields.render (f : Fields) : List Chr :=
  renderAlign f.align ++ (f.sign.toList ++ ((if f.alt then [35#8] else []) ++ ((if f.zero then [48#8] else []) ++ (f.width ++
    ((match f.precision with | none => [] | some p => 46#8 :: p) ++ f.type.toList)))))

/-- What the grammar says about the parts; numbers are below `2^31`. -/
structure Fields.Wf (f : Fields) : Prop where
  align : ∀ fl a, f.align = some (fl, a) → IsAlign a ∧ ∀ c, fl = some c → ¬ IsAlign c
  sign : ∀ c, f.sign = some c → IsSign c
  width : (∀ c ∈ f.width, IsDigit c) ∧ f.width.head? ≠ some 48#8 ∧ value 0 f.width < 2 ^ 31
  zero : f.zero = true → f.width ≠ []
  precision : ∀ p, f.precision = some p → p ≠ [] ∧ (∀ c ∈ p, IsDigit c) ∧ value 0 p < 2 ^ 31

/-- The fill character; a space if none is given. -/
def Fields.fillChr (f : Fields) : Chr := match f.align with | some (some c, _) => c | _ => 32#8
/-- The alignment; to the right if none is given. -/
def Fields.alignChr (f : Fields) : Chr := match f.align with | some (_, a) => a | none => 62#8
/-- The sign option; `-` if none is given. -/
def Fields.signChr (f : Fields) : Chr := f.sign.getD 45#8
/-- The least number of characters to print. -/
def Fields.minWidth (f : Fields) : Nat := value 0 f.width
/-- The greatest number of characters of the text to print, if given. -/
def Fields.maxLen (f : Fields) : Option Nat := f.precision.map (value 0)

/-- The text up to the precision. -/
def truncate (maxLen : Option Nat) (text : List Chr) : List Chr :=
  match maxLen with
  | none => text
  | some n => text.take n

/-- `out` is `text` padded to at least `width` characters with `fill`, on the right for `<`, on the left for `>`, and
on both sides for `^`, where an odd character goes to the left. -/
def Padded (text : List Chr) (fill align : Chr) (width : Nat) (out : List Chr) : Prop :=
  ∃ left right, out = List.replicate left fill ++ text ++ List.replicate right fill ∧ left + right = width - text.length ∧
    (align = 60#8 → left = 0) ∧ (align = 62#8 → right = 0) ∧ (align = 94#8 → left = right ∨ left = right + 1)

/-! ### Numerals -/

/-- The digits `0` to `9`, `a` to `f` or `A` to `F`. -/
def digit (caps : Bool) (d : Nat) : Chr :=
  (if caps then [48#8, 49#8, 50#8, 51#8, 52#8, 53#8, 54#8, 55#8, 56#8, 57#8, 65#8, 66#8, 67#8, 68#8, 69#8, 70#8]
    else [48#8, 49#8, 50#8, 51#8, 52#8, 53#8, 54#8, 55#8, 56#8, 57#8, 97#8, 98#8, 99#8, 100#8, 101#8, 102#8]).getD d 63#8

/-- `l` is the usual numeral of `n` in base `b`: at least one digit, and no zeros in front. -/
def IsNumeralB (caps : Bool) (b : Nat) (l : List Chr) (n : Nat) : Prop :=
  ∃ ds : List Nat, l = ds.map (digit caps) ∧ ds ≠ [] ∧ (∀ d ∈ ds, d < b) ∧ (ds.head? = some 0 → ds.length = 1) ∧
    ds.foldl (fun a d => b * a + d) 0 = n

/-- The sign for a number: `-` if negative; otherwise `+`, a space or nothing. -/
def sign (opt : Chr) (neg : Bool) : List Chr :=
  if neg then [45#8] else if opt = 43#8 then [43#8] else if opt = 32#8 then [32#8] else []

/-- What the type says: the base, whether digits are capital letters, and the prefix with `#`. -/
inductive Shape : Chr → Nat → Bool → List Chr → Prop
  | none : Shape 0#8 10 false []
  | d : Shape 100#8 10 false []
  | u : Shape 117#8 10 false []
  | b : Shape 98#8 2 false [48#8, 98#8]
  | B : Shape 66#8 2 false [48#8, 66#8]
  | o : Shape 111#8 8 false [48#8]
  | x : Shape 120#8 16 false [48#8, 120#8]
  | X : Shape 88#8 16 true [48#8, 88#8]

/-- `out` is the text of `x` for the specification `f`: sign, prefix and the numeral of the absolute value, with zeros before the
numeral up to the width if `0` is given, and otherwise padded like any text. -/
def IntText (f : Fields) (base : Nat) (caps : Bool) (pre : List Chr) (x : Int) (out : List Chr) : Prop :=
  ∃ num, IsNumeralB caps base num x.natAbs ∧
    let front := sign f.signChr (decide (x < 0)) ++ (if f.alt then pre else [])
    if f.zero then out = front ++ List.replicate (f.minWidth - (front ++ num).length) 48#8 ++ num
    else Padded (front ++ num) f.fillChr f.alignChr f.minWidth out

end Verif.Fmt.Spec
