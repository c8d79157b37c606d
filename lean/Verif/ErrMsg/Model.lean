import Verif.Common

/-!
Model of `cc::make_error_message_for_substrings` (/repo/src/clean-core/error_messages.cc), the ASCII art that `cc::format` and others print for bad input.

Strings are lists of characters; a substring is given by its positions in the string. Positions are integers without bounds (the code has `int`, so strings must be shorter than 2^31). The
views and containers (`string_view::split`, `string`, `vector`) are the subject of other properties; here `operator[]` of `vector` and `string` fails its contract for an index out of range, where a
negative `int` becomes a huge `size_t`.
-/
namespace Verif.ErrMsg

abbrev Str := List Char

/-- `substr_error` (error_messages.hh:15-23): target `[b, e)` in the string, and message. -/
structure Sub where
  b : Int
  e : Int
  msg : Str
deriving DecidableEq, Repr

/-- `err_info` (error_messages.cc:17-45). -/
structure Info where
  mo : Nat
  ms : Int
  me : Int
  to_ : Nat
  ts : Int
  te : Int
  msg : Str
deriving DecidableEq, Repr

/-- `overlaps_marker` (error_messages.cc:29-36). -/
def overlapsMarker (i r : Info) : Bool :=
  if r.me < i.ms - 1 then false
  else if r.ms > i.me then false
  else true

/-- `overlaps_text` (error_messages.cc:37-44). -/
def overlapsText (i r : Info) : Bool :=
  if r.te < i.ts - 1 then false
  else if r.ts > i.te then false
  else true

/-- The lines that `str.split('\n')` visits, each with its position (string_view.hh:238, 368-437). -/
def lines (off : Nat) : Str → List (Nat × Str)
  | [] => [(off, [])]
  | c :: cs =>
    if c = '\n' then (off, []) :: lines (off + 1) cs
    else match lines (off + 1) cs with
      | (_, l) :: r => (off, c :: l) :: r
      | [] => []

/-- Is the error in this line, and where (error_messages.cc:81-98)? The division rounds towards zero. -/
def mkInfo (off : Nat) (line : Str) (x : Sub) : Option Info :=
  let ms := x.b - off
  let me := x.e - off
  let me := if ms = me then me + 1 else me
  if me ≤ 0 then none
  else if ms > line.length then none
  else
    let ts := (ms + me - 1).tdiv 2
    some { mo := 0, ms := ms, me := me, to_ := 0, ts := ts, te := ts + x.msg.length + 2, msg := x.msg }

/-- Find a row for the marker (error_messages.cc:101-115), in at most `n` rounds. -/
def allocMarker (errs : List Info) : Nat → Info → Option Info
  | 0, _ => none
  | n + 1, i => if errs.any (fun ee => ee.mo == i.mo && overlapsMarker ee i) then allocMarker errs n { i with mo := i.mo + 1 } else some i

/-- Find a row for the text (error_messages.cc:118-132). -/
def allocText (errs : List Info) : Nat → Info → Option Info
  | 0, _ => none
  | n + 1, i => if errs.any (fun ee => ee.to_ == i.to_ && overlapsText ee i) then allocText errs n { i with to_ := i.to_ + 1 } else some i

/-- The errors of a line (error_messages.cc:75-141). -/
def prepare (off : Nat) (line : Str) : List Sub → List Info → Option (List Info)
  | [], errs => some errs
  | x :: xs, errs =>
    match mkInfo off line x with
    | none => prepare off line xs errs
    | some i => do
      let i ← allocMarker errs (errs.length + 1) i
      let i ← allocText errs (errs.length + 1) i
      prepare off line xs (errs ++ [i])

/-- `total_marker_lines` (error_messages.cc:76, 134). -/
def markerLines (errs : List Info) : Nat := errs.foldl (fun m i => max m (i.mo + 1)) 0

/-- `total_text_lines` (error_messages.cc:77, 135). -/
def textLines (errs : List Info) : Nat := errs.foldl (fun m i => max m (i.to_ + 1)) 0

/-- `max_line_size` (error_messages.cc:78, 137-138). -/
def lineSize (errs : List Info) : Int := errs.foldl (fun m i => max (max m i.me) i.te) 0

/-- The writes `err_lines[y][x] = c`. -/
abbrev Write := Int × Int × Char

/-- Whole numbers from `a` on, `n` of them. -/
def upFrom (a : Int) : Nat → List Int
  | 0 => []
  | n + 1 => a :: upFrom (a + 1) n

/-- The writes of the loop for connectors (error_messages.cc:156-160). -/
def connector (tm : Nat) (i : Info) : List Write :=
  let y0 : Int := i.mo + 1
  let y1 : Int := tm + i.to_ - 1
  (upFrom y0 (y1 + 1 - y0).toNat).map fun y => (y, i.ts, '|')

/-- For markers (error_messages.cc:166-170). -/
def marker (i : Info) : List Write := (upFrom i.ms (i.me - i.ms).toNat).map fun x => (i.mo, x, '^')

/-- The writes of a text from position `x` on. -/
def textAt (y : Int) (x : Int) : Str → List Write
  | [] => []
  | c :: cs => (y, x, c) :: textAt y (x + 1) cs

/-- For texts (error_messages.cc:176-181). -/
def text (tm : Nat) (i : Info) : List Write := textAt (tm + i.to_) i.ts ('*' :: ' ' :: i.msg)

/-- `err_lines[y][x] = c`. -/
def put (g : List Str) (y x : Int) (c : Char) : R (List Str) := do
  ccAssert (decide (0 ≤ y ∧ y < g.length))
  let row := g.getD y.toNat []
  ccAssert (decide (0 ≤ x ∧ x < row.length))
  .ok (g.set y.toNat (row.set x.toNat c))

/-- All writes in order. -/
def paint (g : List Str) : List Write → R (List Str)
  | [] => .ok g
  | (y, x, c) :: ws => do
    let g ← put g y x c
    paint g ws

/-- The lines below a line of the string (error_messages.cc:144-182). -/
def rows (errs : List Info) : R (List Str) :=
  if errs.isEmpty then .ok []
  else
    let tm := markerLines errs
    let g := List.replicate (tm + textLines errs) (List.replicate (lineSize errs).toNat ' ')
    paint g (errs.flatMap (connector tm) ++ errs.flatMap marker ++ errs.flatMap (text tm))

/-- Append the lines (error_messages.cc:185-190). -/
def addRows (res : Str) : List Str → Str
  | [] => res
  | l :: ls => addRows (((res ++ ['\n']) ++ [' ', ' ']) ++ l) ls

/-- The loop over the lines (error_messages.cc:63-192). -/
def loop (errors : List Sub) (first : Bool) (res : Str) : List (Nat × Str) → Option (R Str)
  | [] => some (.ok res)
  | (off, line) :: ls => do
    let res := if first then res else res ++ ['\n']
    let res := (res ++ ['>', ' ']) ++ line
    let errs ← prepare off line errors []
    match rows errs with
    | .error f => some (.error f)
    | .ok r => loop errors false (addRows res r) ls

/-- The loop for the empty string (error_messages.cc:51-55). -/
def addMessages (res : Str) : List Sub → Str
  | [] => res
  | x :: xs => addMessages ((res ++ ['\n', '*', ' ']) ++ x.msg) xs

/-- `make_error_message_for_substrings` (error_messages.cc:5-203); `none` if it does not end. -/
def make (str : Str) (errors : List Sub) (message : Str) : Option (R Str) :=
  if !errors.all (fun x => decide (0 ≤ x.b ∧ x.e ≤ str.length)) then some (.error .assert)
  else do
    let r ← (if str.isEmpty then some (.ok (addMessages "<empty string>".toList errors)) else loop errors true [] (lines 0 str) : Option (R Str))
    match r with
    | .error f => some (.error f)
    | .ok res => some (.ok (if message.isEmpty then res else (res ++ ['\n']) ++ message))

end Verif.ErrMsg
