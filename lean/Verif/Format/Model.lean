import Verif.Fmt.Model
import Verif.Num.Model
/-!
# `cc::format`

Model of `/repo/src/clean-core/format.cc`.

The format string is a view.  A pointer into it is the list of the characters from there to the end of the *array* that the view is
in, and the number of characters to the end of the *view*, which is negative behind it; reading behind the end of the array
is undefined.  The non-formatted part from `segment_start` to the current position is kept as its characters (`seg`), the stream as
the characters appended to it (`out`).  An argument is its name and the function that formats it, which may fail.
The error messages built for failing contracts are not modelled.
-/
namespace Verif.Format
open Verif.StrView (Chr isUpper isLower)
open Verif.Num (isDigit)

/-- `default_do_format::arg_info` (format.hh 186-192) without the flag. -/
structure Arg where
  name : List Chr
  fmt : List Chr → R (List Chr)

/-- A position in the format string: the characters to the end of the array, and how many there are to the end of the view. -/
abbrev Pos := List Chr × Int

/-- `while (curr != end && p(*curr)) ++curr;` -/
def skipWhile (p : Chr → Bool) : List Chr → Int → R Pos
  | [], n => if n = 0 then pure ([], 0) else .error .ub
  | c :: t, n => if n = 0 then pure (c :: t, 0) else if p c then skipWhile p t (n - 1) else pure (c :: t, n)

/-- The flags (format.cc 16-27). -/
def isFlag (c : Chr) : Bool :=
  c == 45#8 || c == 43#8 || c == 32#8 || c == 35#8 || c == 94#8 || c == 60#8 || c == 62#8 || c == 48#8

/-- The width (format.cc 29-40). -/
def advWidth (q : Pos) : R Pos :=
  if q.2 ≠ 0 then do
    let c ← Str.rd q.1 0
    if c = 42#8 then pure (q.1.drop 1, q.2 - 1) else skipWhile isDigit q.1 q.2
  else pure q

/-- The precision (format.cc 42-60). -/
def advPrecision (q : Pos) : R Pos :=
  if q.2 ≠ 0 then do
    let c ← Str.rd q.1 0
    if c = 46#8 then do
      ccAssert (decide (q.2 - 1 ≠ 0))
      let d ← Str.rd (q.1.drop 1) 0
      if d = 42#8 then pure (q.1.drop 2, q.2 - 2)
      else do
        ccAssert (isDigit d)
        skipWhile isDigit (q.1.drop 1) (q.2 - 1)
    else pure q
  else pure q

/-- `h` or `l`, possibly twice. -/
def advTwice (x : Chr) (q : Pos) : R Pos :=
  if q.2 ≠ 0 then do
    let d ← Str.rd q.1 0
    if d = x then pure (q.1.drop 1, q.2 - 1) else pure q
  else pure q

/-- The length modifier (format.cc 62-86). -/
def advLength (q : Pos) : R Pos :=
  if q.2 ≠ 0 then do
    let c ← Str.rd q.1 0
    if c = 122#8 ∨ c = 116#8 ∨ c = 106#8 ∨ c = 76#8 then pure (q.1.drop 1, q.2 - 1)
    else if c = 104#8 then advTwice 104#8 (q.1.drop 1, q.2 - 1)
    else if c = 108#8 then advTwice 108#8 (q.1.drop 1, q.2 - 1)
    else pure q
  else pure q

/-- The conversion specifiers that are accepted (format.cc 91-109): `c s d i o x X u f F e E a A g G p`. -/
def isConv (c : Chr) : Bool :=
  [99#8, 115#8, 100#8, 105#8, 111#8, 120#8, 88#8, 117#8, 102#8, 70#8, 101#8, 69#8, 97#8, 65#8, 103#8, 71#8, 112#8].contains c

/-- The conversion specifier (format.cc 88-118): the character is read without a check for the end of the view. -/
def advConv (q : Pos) : R Pos := do
  let c ← Str.rd q.1 0
  if isConv c then pure (q.1.drop 1, q.2 - 1) else .error .assert

/-- `advance_printf_chars` (format.cc 11-119). -/
def advPrintf (q : Pos) : R Pos :=
  skipWhile isFlag q.1 q.2 >>= advWidth >>= advPrecision >>= advLength >>= advConv

/-- `++curr` -/
def next (q : Pos) : Pos := (q.1.drop 1, q.2 - 1)

/-- The state of the loop of `impl_vformat_to`. -/
structure St where
  pos : Pos
  seg : List Chr := []
  out : List Chr := []
  /-- `curr_arg_id` -/
  argId : Int := 0
  /-- the indices of the arguments with `was_used` -/
  used : List Nat := []

/-- `args[i]` (span.hh 61-65). -/
def getArg (args : List Arg) (i : Nat) : R Arg :=
  match args[i]? with
  | some a => .ok a
  | none => .error .assert

/-- `args[i].do_format(ss, args[i].data, spec); args[i].was_used = true;` -/
def useArg (args : List Arg) (s : St) (i : Nat) (spec : List Chr) : R St := do
  let a ← getArg args i
  let t ← a.fmt spec
  pure { s with out := s.out ++ t, used := i :: s.used }

/-- The characters between two positions: `string_view(from, to)`. -/
def between (a b : Pos) : List Chr := a.1.take (a.1.length - b.1.length)

/-- The branch for `%` (format.cc 138-176), at the `%`. -/
def stepPercent (args : List Arg) (s : St) : R St := do
  let s := { s with out := s.out ++ s.seg, seg := [] }
  let p := next s.pos
  ccAssert (decide (p.2 ≠ 0))
  let c ← Str.rd p.1 0
  if c = 37#8 then
    pure { s with pos := next p, seg := [37#8] }
  else do
    let e ← advPrintf p
    let spec := between p e
    ccAssert (decide (spec ≠ []))
    ccAssert (decide (s.argId ≥ 0))
    ccAssert (decide (s.argId < (args.length : Int)))
    let spec := if spec = [115#8] then [] else spec
    let s ← useArg args s s.argId.toNat spec
    pure { s with argId := s.argId + 1, pos := e }

/-- The branch for `}` (format.cc 178-188), at the `}`. -/
def stepClose (s : St) : R St := do
  let p := next s.pos
  if p.2 ≠ 0 then do
    let c ← Str.rd p.1 0
    ccAssert (decide (c = 125#8))
    pure { s with out := s.out ++ (s.seg ++ [125#8]), seg := [], pos := next p }
  else .error .assert

/-- The loop over the digits of an index (format.cc 227-233). -/
def indexLoop : List Chr → Int → Nat → R (Nat × Pos)
  | [], _, _ => .error .ub
  | c :: t, n, i =>
    if isDigit c then do
      ccAssert (decide (n - 1 ≠ 0))
      indexLoop t (n - 1) ((i * 10 % 2 ^ 64 + (c.toNat - 48)) % 2 ^ 64)
    else pure (i, (c :: t, n))

/-- `*curr_c == '_' || is_lower(*curr_c) || is_upper(*curr_c)` -/
def isNameStart (c : Chr) : Bool := c == 95#8 || isLower c || isUpper c

/-- The loop over the characters of a name (format.cc 244-248). -/
def nameLoop : List Chr → Int → List Chr → R (List Chr × Pos)
  | [], _, _ => .error .ub
  | c :: t, n, acc =>
    if isNameStart c || isDigit c then do
      ccAssert (decide (n - 1 ≠ 0))
      nameLoop t (n - 1) (acc ++ [c])
    else pure (acc, (c :: t, n))

/-- The search for a name (format.cc 250-257): the index, or `size_t(-1)`. -/
def findName (args : List Arg) (name : List Chr) : Nat → Nat → Nat
  | 0, _ => 2 ^ 64 - 1
  | f + 1, i =>
    match args[i]? with
    | none => 2 ^ 64 - 1
    | some a => if a.name ≠ [] ∧ a.name = name then i else findName args name f (i + 1)

/-- The loop over the format specification (format.cc 281-285). -/
def specLoop : List Chr → Int → List Chr → R (List Chr × Pos)
  | [], _, _ => .error .ub
  | c :: t, n, acc =>
    if c ≠ 125#8 then do
      ccAssert (decide (n - 1 ≠ 0))
      specLoop t (n - 1) (acc ++ [c])
    else pure (acc, (c :: t, n))

/-- The index or name (format.cc 219-264) at the character after `{`: the argument's index, the next value of `curr_arg_id`, the position. -/
def argRef (args : List Arg) (argId : Int) (p : Pos) : R (Nat × Int × Pos) := do
  let c ← Str.rd p.1 0
  if isDigit c then do
    ccAssert (decide (p.2 - 1 ≠ 0))
    let (i, q) ← indexLoop (p.1.drop 1) (p.2 - 1) (c.toNat - 48)
    ccAssert (decide (i < args.length))
    pure (i, -1, q)
  else if isNameStart c then do
    ccAssert (decide (p.2 - 1 ≠ 0))
    let (name, q) ← nameLoop (p.1.drop 1) (p.2 - 1) [c]
    let i := findName args name args.length 0
    ccAssert (decide (i < args.length))
    pure (i, -1, q)
  else pure ((argId % 2 ^ 64).toNat, argId + 1, p)

/-- Behind the index or name (format.cc 265-296): the format specification, the argument, the next segment. -/
def argTail (args : List Arg) (s : St) (i : Nat) (argId : Int) (q : Pos) : R St := do
  ccAssert (decide (q.2 ≠ 0))
  let d ← Str.rd q.1 0
  if d = 125#8 then do
    let s ← useArg args s i []
    pure { s with argId := argId, pos := next q }
  else do
    ccAssert (decide (d = 58#8))
    ccAssert (decide (q.2 - 1 ≠ 0))
    let (spec, r) ← specLoop (q.1.drop 1) (q.2 - 1) []
    let s ← useArg args s i spec
    pure { s with argId := argId, pos := next r }

/-- The branch for `{` (format.cc 190-297), at the `{`. -/
def stepOpen (args : List Arg) (s : St) : R St := do
  let s := { s with out := s.out ++ s.seg, seg := [] }
  let p := next s.pos
  ccAssert (decide (p.2 ≠ 0))
  let c ← Str.rd p.1 0
  if c = 123#8 then
    pure { s with pos := next p, seg := [123#8] }
  else if c = 125#8 then do
    ccAssert (decide (s.argId ≥ 0))
    ccAssert (decide (s.argId < (args.length : Int)))
    let s ← useArg args s s.argId.toNat []
    pure { s with argId := s.argId + 1, pos := next p }
  else do
    let r ← argRef args s.argId p
    argTail args s r.1 r.2.1 r.2.2

/-- One round of the loop (format.cc 135-300), not at the end; `pf` and `py` are the template parameters. -/
def step (pf py : Bool) (args : List Arg) (s : St) : R St := do
  let c ← Str.rd s.pos.1 0
  if pf && c == 37#8 then stepPercent args s
  else if py && c == 125#8 then stepClose s
  else if py && c == 123#8 then stepOpen args s
  else pure { s with pos := next s.pos, seg := s.seg ++ [c] }

/-- Behind the loop (format.cc 303-308). -/
def finish (args : List Arg) (s : St) : R (List Chr) := do
  ccAssert ((List.range args.length).all fun i => s.used.contains i)
  pure (s.out ++ s.seg)

/-- The loop. Every round moves on by at least one character of the array; with more fuel than there are characters it does not run out. -/
def loop (pf py : Bool) (args : List Arg) : Nat → St → R (List Chr)
  | 0, _ => .error .ub
  | f + 1, s => if s.pos.2 = 0 then finish args s else step pf py args s >>= loop pf py args f

/-- `impl_vformat_to` (format.cc 121-309) for a view of `size` characters at the beginning of `mem`. -/
def vformat (pf py : Bool) (args : List Arg) (mem : List Chr) (size : Nat) : R (List Chr) :=
  loop pf py args (mem.length + 1) { pos := (mem, size) }

end Verif.Format
