import Verif.Str.System
/-!
# Where the characters of a string are (C144)

A view of a string, a pointer or an iterator into it is a position in the memory the string uses: its own small buffer or a block.
-/
namespace Verif.Str
open Verif.StrView (Chr View)

/-- The memory `c_str()` points to: the buffer inside the object, the `k`-th block that the object obtained, or (moved from) none. -/
inductive Place where
  | inline
  | block (k : Nat)
  | none
deriving DecidableEq, Repr

/-- Where `_data` points (sbo_string.hh 777). -/
def Str.place (s : Str) : Place :=
  match s.data with
  | .sbo => .inline
  | .heap _ => .block s.news
  | .null => .none

/-- What is read through a view of `len` characters at position `off` of the memory `p`, taken earlier from the string that is now `s`:
undefined if the string uses other memory by now. (Memory inside the object is still there then, but holds the capacity and
not the text; reading it is counted as an error too.) -/
def Str.through (s : Str) (p : Place) (off len : Nat) : R (List Chr) :=
  if p = s.place then do
    let b ← s.buf
    slice b off len
  else .error .ub

namespace Spec

/-- The room that a call on a string of `size` characters needs, for the calls that keep the memory if there is room. -/
def need (size : Nat) : Op → Option Nat
  | .pushBack _ _ => some (size + 1)
  | .append _ m => some (size + m.length)
  | .appendOwn _ _ len => some (size + len)
  | .reserve _ n => some n
  | .resize _ n _ => some n
  | .fill _ _ n => some n
  | .padStart _ n _ => some (max size n)
  | .padEnd _ n _ => some (max size n)
  | .replaceAt _ _ count m => some (size - count + m.length)
  | .insert _ _ m => some (size + m.length)
  | .fillAll _ _ => some size
  | .popBack _ => some size
  | .capitalize _ => some size
  | .replaceChars _ _ _ => some size
  | .removePrefix _ _ => some size
  | .removeSuffix _ _ => some size
  | .removePrefixStr _ _ => some size
  | .removeSuffixStr _ _ => some size
  | .trimStart _ _ => some size
  | .trimEnd _ _ => some size
  | .trim _ _ => some size
  | _ => none

/-- The variable such a call is made on. -/
def target : Op → Nat
  | .pushBack d _ | .append d _ | .appendOwn d _ _ | .reserve d _ | .resize d _ _ | .fill d _ _ | .padStart d _ _ | .padEnd d _ _
  | .replaceAt d _ _ _ | .insert d _ _ | .fillAll d _ | .popBack d | .capitalize d | .replaceChars d _ _ | .removePrefix d _
  | .removeSuffix d _ | .removePrefixStr d _ | .removeSuffixStr d _ | .trimStart d _ | .trimEnd d _ | .trim d _
  | .make d _ | .makeFilled d _ _ | .copyNew d _ | .moveNew d _ | .assign d _ | .moveAssign d _ | .destroy d | .clear d | .shrink d
  | .lowerNew d _ | .upperNew d _ | .capitalizedNew d _ | .replacedCharsNew d _ _ _ | .replaceAll d _ _
  | .replacedAtNew d _ _ _ _ | .replacedNew d _ _ _ | .concatNew d _ _ | .substringNew d _ _ _ => d

/-- The variable a move takes from. -/
def source : Op → Option Nat
  | .moveNew _ s => some s
  | .moveAssign _ s => some s
  | _ => none

/-- Every call of the history concerns other variables, or is a call on variable `d` that needs room for at most `cap` characters. -/
def Within (cap d : Nat) : List Cell → List Op → Prop
  | _, [] => True
  | σ, op :: ops =>
    ((target op ≠ d ∧ source op ≠ some d) ∨
      (target op = d ∧ ∃ l t n, σ[d]? = some (.val l t) ∧ need l.length op = some n ∧ n ≤ cap)) ∧
    ∀ σ', step σ op = some σ' → Within cap d σ' ops

end Spec
end Verif.Str
