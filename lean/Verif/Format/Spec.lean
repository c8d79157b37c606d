import Verif.Num.Spec
import Verif.Common
/-!
# What a format string means

A format string is a sequence of pieces.  Independent of the code.
-/
namespace Verif.Format.Spec
open Verif.Num.Spec (Chr IsDigit value)

/-- The flags, conversion characters and so on of the printf-style syntax. -/
def Flag (c : Chr) : Prop := c ∈ [45#8, 43#8, 32#8, 35#8, 94#8, 60#8, 62#8, 48#8]
def Conv (c : Chr) : Prop := c ∈ [99#8, 115#8, 100#8, 105#8, 111#8, 120#8, 88#8, 117#8, 102#8, 70#8, 101#8, 69#8, 97#8, 65#8, 103#8, 71#8, 112#8]
/-- `*` or digits; zeros in front are flags. -/
def Width (w : List Chr) : Prop := w = [42#8] ∨ ((∀ c ∈ w, IsDigit c) ∧ w.head? ≠ some 48#8)
def Precision (p : List Chr) : Prop := p = [] ∨ p = [46#8, 42#8] ∨ ∃ ds, p = 46#8 :: ds ∧ ds ≠ [] ∧ ∀ c ∈ ds, IsDigit c
/-- `z`, `t`, `j`, `L`, `h`, `hh`, `l`, `ll`, or nothing. -/
def Length (l : List Chr) : Prop := l ∈ [[], [122#8], [116#8], [106#8], [76#8], [104#8], [104#8, 104#8], [108#8], [108#8, 108#8]]

/-- `[flags][width][.precision][length]conversion` -/
def PrintfSpec (l : List Chr) : Prop :=
  ∃ fl w p m c, l = fl ++ (w ++ (p ++ (m ++ [c]))) ∧ (∀ x ∈ fl, Flag x) ∧ Width w ∧ Precision p ∧ Length m ∧ Conv c

/-- A letter or `_`. -/
def NameStart (c : Chr) : Prop := c = 95#8 ∨ (97 ≤ c.toNat ∧ c.toNat ≤ 122) ∨ (65 ≤ c.toNat ∧ c.toNat ≤ 90)

def IsName (l : List Chr) : Prop := ∃ c t, l = c :: t ∧ NameStart c ∧ ∀ x ∈ t, NameStart x ∨ IsDigit x

/-- A piece of a format string. -/
inductive Piece where
  /-- a character that stands for itself -/
  | lit (c : Chr)
  /-- `{{`, `}}` or `%%` -/
  | esc (c : Chr)
  /-- `{}` or `{:spec}` -/
  | auto (spec : Option (List Chr))
  /-- `{N}` or `{N:spec}` -/
  | index (digits : List Chr) (spec : Option (List Chr))
  /-- `{name}` or `{name:spec}` -/
  | named (name : List Chr) (spec : Option (List Chr))
  /-- `%spec` -/
  | printf (spec : List Chr)

/-- `:spec`, if there is one. -/
def renderSpec : Option (List Chr) → List Chr
  | none => []
  | some sp => 58#8 :: sp

/-- The text of a piece. -/
def Piece.render : Piece → List Chr
  | .lit c => [c]
  | .esc c => [c, c]
  | .auto sp => 123#8 :: (renderSpec sp ++ [125#8])
  | .index ds sp => 123#8 :: (ds ++ (renderSpec sp ++ [125#8]))
  | .named nm sp => 123#8 :: (nm ++ (renderSpec sp ++ [125#8]))
  | .printf sp => 37#8 :: sp

def render (ps : List Piece) : List Chr := (ps.map Piece.render).flatten

def NoClose (sp : Option (List Chr)) : Prop := ∀ l, sp = some l → 125#8 ∉ l

/-- The pieces of a syntax: `pf` for the printf-style, `py` for the pythonic syntax. -/
def Piece.Valid (pf py : Bool) : Piece → Prop
  | .lit c => (pf = true → c ≠ 37#8) ∧ (py = true → c ≠ 123#8 ∧ c ≠ 125#8)
  | .esc c => (pf = true ∧ c = 37#8) ∨ (py = true ∧ (c = 123#8 ∨ c = 125#8))
  | .auto sp => py = true ∧ NoClose sp
  | .index ds sp => py = true ∧ ds ≠ [] ∧ (∀ c ∈ ds, IsDigit c) ∧ NoClose sp
  | .named nm sp => py = true ∧ IsName nm ∧ NoClose sp
  | .printf sp => pf = true ∧ PrintfSpec sp

/-- An argument: its name (empty for none) and how it is formatted. -/
abbrev Argument := List Chr × (List Chr → R (List Chr))

/-- The text `out` of a sequence of pieces and the arguments used. The first parameter is the number of the next argument for
`{}` and `%`, or nothing once an argument was chosen by index or name. -/
inductive Denote (args : List Argument) : Option Nat → List Piece → List Chr → List Nat → Prop
  | nil (k) : Denote args k [] [] []
  | lit {k c ps out us} : Denote args k ps out us → Denote args k (.lit c :: ps) (c :: out) us
  | esc {k c ps out us} : Denote args k ps out us → Denote args k (.esc c :: ps) (c :: out) us
  | auto {k sp ps out us a t} : args[k]? = some a → a.2 (sp.getD []) = .ok t → Denote args (some (k + 1)) ps out us →
      Denote args (some k) (.auto sp :: ps) (t ++ out) (k :: us)
  | index {k ds sp ps out us a t} : args[value 0 ds]? = some a → a.2 (sp.getD []) = .ok t → Denote args none ps out us →
      Denote args k (.index ds sp :: ps) (t ++ out) (value 0 ds :: us)
  | named {k nm sp ps out us a t i} : args[i]? = some a → a.1 = nm → (∀ (j : Nat) (b : Argument), j < i → args[j]? = some b → b.1 ≠ nm) → a.2 (sp.getD []) = .ok t →
      Denote args none ps out us → Denote args k (.named nm sp :: ps) (t ++ out) (i :: us)
  | printf {k sp ps out us a t} : args[k]? = some a → a.2 (if sp = [115#8] then [] else sp) = .ok t → Denote args (some (k + 1)) ps out us →
      Denote args (some k) (.printf sp :: ps) (t ++ out) (k :: us)

/-- The result of formatting: the text of pieces that make up the format string, with every argument used. -/
def Formats (pf py : Bool) (args : List Argument) (s out : List Chr) : Prop :=
  ∃ ps us, (∀ p ∈ ps, p.Valid pf py) ∧ render ps = s ∧ Denote args (some 0) ps out us ∧ ∀ i, i < args.length → i ∈ us

end Verif.Format.Spec
