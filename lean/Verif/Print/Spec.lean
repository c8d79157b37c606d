import Verif.Print.Model
import Verif.Format.Lemmas
/-!
# What `print` and `println` are to write

Independent of C strings, of the buffer and of the schedule.
-/
namespace Verif.Print.Spec
open Verif.StrView (Chr)
open Verif.Format.Spec (Formats)
open Verif.Print (Formatter Call)

/-- The syntaxes of a formatter: printf-style, pythonic. -/
def syntaxes : Formatter → Bool × Bool
  | .default => (true, true)
  | .printf => (true, false)
  | .pythonic => (false, true)

/-- `mem` holds the C string `s`. -/
def CString (mem s : List Chr) : Prop := 0#8 ∉ s ∧ ∃ rest, mem = s ++ 0#8 :: rest

/-- The text that a call is about. -/
inductive Text : Call → List Chr → Prop
  | str (text rest) : Text (.str text rest) text
  | view (text) : Text (.view text) text
  | cstr {mem text} : CString mem text → Text (.cstr mem) text
  | fmt {f mem args s out} : CString mem s → Formats (syntaxes f).1 (syntaxes f).2 (Verif.Format.toSpec args) s out → Text (.fmt f mem args) out
  | val {v out} : v.fmt [] = .ok out → Text (.val v) out

/-- `print` writes the text, `println` the text and the end of the line. -/
def line (ln : Bool) (text : List Chr) : List Chr := if ln then text ++ [10#8] else text

end Verif.Print.Spec
