import Init.Data.String.Basic

/-! Specification: Unicode text and its UTF-8 form, by the definition of UTF-8 that Lean's strings are built on. -/
namespace Verif.WChar.Spec

/-- The code points. -/
def wide (text : List Char) : List Nat := text.map Char.toNat

/-- The UTF-8 bytes. -/
def utf8 (text : List Char) : List Nat := text.flatMap fun c => (String.utf8EncodeChar c).map UInt8.toNat

/-- Text without the null character. -/
def NoNul (text : List Char) : Prop := ∀ c ∈ text, c.toNat ≠ 0

/-- Text with ASCII characters only. -/
def Ascii (text : List Char) : Prop := ∀ c ∈ text, c.toNat < 128

/-- `p` is the longest part from the begin of the text whose UTF-8 form has at most `n` bytes. -/
def Fits (n : Nat) (text p : List Char) : Prop :=
  ∃ rest, text = p ++ rest ∧ (utf8 p).length ≤ n ∧ ∀ c cs, rest = c :: cs → n < (utf8 (p ++ [c])).length

/-- The destination after writing `out`, with a terminator if `all` has been written and there is room for it. -/
def written (dest out : List Nat) (all : Prop) [Decidable all] : List Nat :=
  if all ∧ out.length < dest.length then out ++ [0] ++ dest.drop (out.length + 1) else out ++ dest.drop out.length

end Verif.WChar.Spec
