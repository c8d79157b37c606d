import Verif.Str.Model
/-!
# The copying forms of the string functions

Most functions of `sbo_string` exist twice: one changes the string (`trim`, `remove_prefix`, `+=`), one makes a new string and leaves the
old one alone (`trimmed`, `removed_prefix`, `+`).  They are two separate implementations: the copying ones go through `string_view`.
-/
namespace Verif.Str
open Verif.StrView (Chr View isEqual isSpace)

/-- `return string_view(_data, _size).f(…)` in a function returning `sbo_string`: the view is converted with the constructor from
`string_view` (sbo_string.hh 107-124). -/
def Str.viaView (C : Nat) (junk : Nat → Chr) (s : Str) (f : View → R View) : R Str := do
  let v ← s.view
  let w ← f v
  let l ← slice w.mem w.off w.size
  fromView C junk l

/-- `trimmed_start(pred)` (sbo_string.hh 473-477); with a character (478) `pred` is `isEqual c`, without argument (479) `isSpace`. -/
def Str.trimmedStart (C : Nat) (junk : Nat → Chr) (s : Str) (p : Chr → Bool) : R Str := s.viaView C junk (·.trimStart p)

/-- `trimmed_end(pred)` (sbo_string.hh 481-487). -/
def Str.trimmedEnd (C : Nat) (junk : Nat → Chr) (s : Str) (p : Chr → Bool) : R Str := s.viaView C junk (·.trimEnd p)

/-- `trimmed(pred)` (sbo_string.hh 489-495). -/
def Str.trimmed (C : Nat) (junk : Nat → Chr) (s : Str) (p : Chr → Bool) : R Str := s.viaView C junk (·.trim p)

/-- `removed_prefix(n)` (sbo_string.hh 423). -/
def Str.removedPrefix (C : Nat) (junk : Nat → Chr) (s : Str) (n : Nat) : R Str := s.viaView C junk (·.removePrefixN n)

/-- `removed_prefix(s)` (sbo_string.hh 424). -/
def Str.removedPrefixStr (C : Nat) (junk : Nat → Chr) (s : Str) (q : List Chr) : R Str :=
  s.viaView C junk (·.removePrefix ⟨q, 0, q.length⟩)

/-- `removed_suffix(n)` (sbo_string.hh 425). -/
def Str.removedSuffix (C : Nat) (junk : Nat → Chr) (s : Str) (n : Nat) : R Str := s.viaView C junk (·.removeSuffixN n)

/-- `removed_suffix(s)` (sbo_string.hh 426). -/
def Str.removedSuffixStr (C : Nat) (junk : Nat → Chr) (s : Str) (q : List Chr) : R Str :=
  s.viaView C junk (·.removeSuffix ⟨q, 0, q.length⟩)

/-- `first(n)` (sbo_string.hh 428). -/
def Str.first (C : Nat) (junk : Nat → Chr) (s : Str) (n : Nat) : R Str := s.viaView C junk fun v => pure (v.first n)

/-- `last(n)` (sbo_string.hh 429). -/
def Str.last (C : Nat) (junk : Nat → Chr) (s : Str) (n : Nat) : R Str := s.viaView C junk fun v => pure (v.last n)

/-- `substring(offset)` (sbo_string.hh 329). -/
def Str.substringFrom (C : Nat) (junk : Nat → Chr) (s : Str) (off : Nat) : R Str := s.viaView C junk (·.subviewFrom off)

/-- `operator+(sbo_string lhs, string_view rhs)` (sbo_string.hh 712-716): the parameter is a copy, and is moved into the result. `rhs`
shows characters elsewhere. -/
def Str.plus (C : Nat) (junk : Nat → Chr) (s : Str) (m : List Chr) : R Str := do
  let lhs ← copyCtor C junk s
  let lhs ← lhs.append C junk (.ext m)
  pure (moveCtor C lhs).1

/-- `operator+(sbo_string lhs, char rhs)` (sbo_string.hh 723-727). -/
def Str.plusChar (C : Nat) (junk : Nat → Chr) (s : Str) (c : Chr) : R Str := do
  let lhs ← copyCtor C junk s
  let lhs ← lhs.pushBack C junk c
  pure (moveCtor C lhs).1

/-- `operator+(sbo_string lhs, sbo_string<C2> const& rhs)` (sbo_string.hh 717-722): `rhs` is converted to a `string_view`. -/
def Str.plusStr (C : Nat) (junk : Nat → Chr) (s t : Str) : R Str := do
  let lhs ← copyCtor C junk s
  let v ← t.view
  let m ← slice v.mem v.off v.size
  let lhs ← lhs.append C junk (.ext m)
  pure (moveCtor C lhs).1

/-- `operator==(sbo_string<B> const&)` (sbo_string.hh 701-705). -/
def Str.eqStr (s t : Str) : R Bool := do
  let v ← s.view
  let w ← t.view
  v.eq w

/-- `operator!=(sbo_string<B> const&)` (sbo_string.hh 706-710). -/
def Str.neStr (s t : Str) : R Bool := do
  let v ← s.view
  let w ← t.view
  v.ne w

/-- `contains(string_view)` (sbo_string.hh 331). -/
def Str.contains (s : Str) (q : List Chr) : R Bool := do
  let v ← s.view
  v.contains ⟨q, 0, q.length⟩

/-- `contains(char)` (sbo_string.hh 330). -/
def Str.containsChar (s : Str) (c : Chr) : R Bool := do
  let v ← s.view
  v.containsChar c

/-- `starts_with(string_view)` (sbo_string.hh 333). -/
def Str.startsWith (s : Str) (q : List Chr) : R Bool := do
  let v ← s.view
  v.startsWith ⟨q, 0, q.length⟩

/-- `starts_with(char)` (sbo_string.hh 332). -/
def Str.startsWithChar (s : Str) (c : Chr) : R Bool := do
  let v ← s.view
  v.startsWithChar c

/-- `ends_with(string_view)` (sbo_string.hh 335). -/
def Str.endsWith (s : Str) (q : List Chr) : R Bool := do
  let v ← s.view
  v.endsWith ⟨q, 0, q.length⟩

/-- `ends_with(char)` (sbo_string.hh 334). -/
def Str.endsWithChar (s : Str) (c : Chr) : R Bool := do
  let v ← s.view
  v.endsWithChar c

/-- The pieces a loop over `split(pred, opts)` (sbo_string.hh 337-343) sees, and whether it ended; `split()` is
`split(isSpace, skip_empty)`. -/
def Str.split (s : Str) (p : Chr → Bool) (skip : Bool) : R (List View × Bool) := do
  let v ← s.view
  v.split p skip

/-- The functions that exist in both forms. -/
inductive Form where
  | trimStart (p : Chr → Bool)
  | trimEnd (p : Chr → Bool)
  | trim (p : Chr → Bool)
  | removePrefix (n : Nat)
  | removeSuffix (n : Nat)
  | removePrefixStr (q : List Chr)
  | removeSuffixStr (q : List Chr)
  | append (m : List Chr)
  | appendChar (c : Chr)

/-- The form that changes the string. -/
def Str.change (C : Nat) (junk : Nat → Chr) (s : Str) : Form → R Str
  | .trimStart p => s.trimStart p
  | .trimEnd p => s.trimEnd p
  | .trim p => s.trim p
  | .removePrefix n => s.removePrefix n
  | .removeSuffix n => s.removeSuffix n
  | .removePrefixStr q => s.removePrefixStr q
  | .removeSuffixStr q => s.removeSuffixStr q
  | .append m => s.append C junk (.ext m)
  | .appendChar c => s.pushBack C junk c

/-- The form that returns a new string. -/
def Str.copying (C : Nat) (junk : Nat → Chr) (s : Str) : Form → R Str
  | .trimStart p => s.trimmedStart C junk p
  | .trimEnd p => s.trimmedEnd C junk p
  | .trim p => s.trimmed C junk p
  | .removePrefix n => s.removedPrefix C junk n
  | .removeSuffix n => s.removedSuffix C junk n
  | .removePrefixStr q => s.removedPrefixStr C junk q
  | .removeSuffixStr q => s.removedSuffixStr C junk q
  | .append m => s.plus C junk m
  | .appendChar c => s.plusChar C junk c

end Verif.Str
