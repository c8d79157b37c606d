import Verif.ErrMsg.Model

/-!
What a picture of the errors should look like, without rows, offsets or the order of writing.
-/
namespace Verif.ErrMsg.Spec

/-- The errors with targets that begin in the line with this position and length, or at its end. -/
def onLine (off : Nat) (line : Str) (errors : List Sub) : List Sub := errors.filter fun x => decide ((off : Int) ≤ x.b ∧ x.b ≤ off + line.length)

/-- The columns of a target; an empty one is shown as one column. -/
def marked (off : Nat) (x : Sub) (col : Nat) : Prop := x.b ≤ off + col ∧ ((off + col : Int) < x.e ∨ (x.b = x.e ∧ (off + col : Int) = x.b))

/-- The character at row `y` and column `col`. -/
def cell (g : List Str) (y col : Nat) : Option Char := (g[y]?).bind (·[col]?)

/-- The picture below a line: some rows for markers, then rows for texts. The `k`-th error has its marker in row `mr k` and its text in row `tr k`, from column `tc k` on. -/
structure Picture (off : Nat) (errs : List Sub) (g : List Str) (tm : Nat) (mr tr tc : Nat → Nat) : Prop where
  /-- each column of the target has a `^` -/
  marks : ∀ (k : Nat) x, errs[k]? = some x → mr k < tm ∧ ∀ col, marked off x col → cell g (mr k) col = some '^'
  /-- and there are no other `^` in the rows for markers -/
  only : ∀ y col, y < tm → cell g y col = some '^' → ∃ (k : Nat) (x : Sub), errs[k]? = some x ∧ mr k = y ∧ marked off x col
  /-- the markers in one row do not touch -/
  apart : ∀ (k l : Nat) x y, errs[k]? = some x → errs[l]? = some y → k < l → mr k = mr l → ∀ c d, marked off x c → marked off y d → c + 1 < d ∨ d + 1 < c
  /-- each text is complete, in a row below the markers, and begins below its marker -/
  texts : ∀ (k : Nat) x, errs[k]? = some x → tm ≤ tr k ∧ marked off x (tc k) ∧ ∀ (j : Nat) c, ('*' :: ' ' :: x.msg)[j]? = some c → cell g (tr k) (tc k + j) = some c

  /-- a line of `|` leads from the marker to the text, except where there is another marker or text -/
  joined : ∀ (k : Nat) x, errs[k]? = some x → ∀ y, mr k < y → y < tr k → cell g y (tc k) = some '|' ∨ cell g y (tc k) = some '^' ∨
    ∃ (l : Nat) (z : Sub), errs[l]? = some z ∧ tr l = y ∧ tc l ≤ tc k ∧ tc k < tc l + (z.msg.length + 2)

/-- The picture of one line: nothing if it has no errors. -/
def Good (off : Nat) (line : Str) (errors : List Sub) (g : List Str) : Prop :=
  (onLine off line errors = [] → g = []) ∧ ∃ tm mr tr tc, Picture off (onLine off line errors) g tm mr tr tc

/-- A line of the string with its picture. -/
def block (line : Str) (g : List Str) : Str := ['>', ' '] ++ line ++ g.flatMap (fun r => ['\n', ' ', ' '] ++ r)

/-- No target reaches into a line after the one where it begins (it may include the end of its line). -/
def OneLine (str : Str) (errors : List Sub) : Prop := ∀ x, x ∈ errors → ∀ l, l ∈ lines 0 str → x.b < l.1 → x.e ≤ l.1

end Verif.ErrMsg.Spec
