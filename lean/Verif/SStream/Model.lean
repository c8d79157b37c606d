import Verif.Mem.Model
import Verif.Str.Model

/-!
Model of `cc::string_stream` (/repo/src/clean-core/string_stream.hh).

Buffers are blocks of the heap of `Mem.Model` with characters as elements; the characters of `new char[n]` are raw until they are written, and reading a raw one
is undefined here. A pointer is a block and an offset; the difference of pointers into different blocks is undefined. `size_t` arithmetic is
modulo `2^64`. Line 53 subtracts `m_data` after it was deleted; as on all usual platforms, this is the difference it was before. A view given to `<<` shows
characters outside of all streams: a stream gives out no view of its own.
-/
namespace Verif.SStream
open Mem
open Verif.StrView (Chr)

/-- The members (string_stream.hh:121-124); `m_curr` is the block `curr` and the offset `off`. -/
structure SS where
  data : Ptr
  curr : Ptr
  off : Nat
  cap : Nat
deriving DecidableEq, Repr

/-- The default constructor (string_stream.hh:66, 122-124). -/
def SS.new : SS := { data := none, curr := none, off := 0, cap := 0 }

/-- `size` (string_stream.hh:62). -/
def SS.size (s : SS) : R Nat := if s.curr = s.data then .ok s.off else .error .ub

/-- `empty` (string_stream.hh:63). -/
def SS.empty (s : SS) : Bool := decide (s.curr = s.data ∧ s.off = 0)

/-- `new char[n]`. -/
def newChars (h : Heap Chr) (n : Nat) : Ptr × Heap Chr := alloc h (n % 2 ^ 64)

/-- `reserve` (string_stream.hh:43-57). -/
def reserve (h : Heap Chr) (s : SS) (n : Nat) : R (Heap Chr × SS) := do
  let sz ← s.size
  if (sz + n) % 2 ^ 64 ≤ s.cap then .ok (h, s)
  else do
    let newCap := if (s.cap <<< 1) % 2 ^ 64 < (sz + n) % 2 ^ 64 then (sz + n) % 2 ^ 64 else (s.cap <<< 1) % 2 ^ 64
    let (p, h) := newChars h newCap
    let h ← (if s.empty then .ok h else memcpy h p 0 s.data 0 sz : R (Heap Chr))
    let h ← free true h s.data
    .ok (h, { data := p, curr := p, off := sz, cap := newCap })

/-- `operator<<(string_view)` (string_stream.hh:13-22). -/
def append (h : Heap Chr) (s : SS) (sv : List Chr) : R (Heap Chr × SS) :=
  if sv = [] then .ok (h, s)
  else do
    let (h, s) ← reserve h s sv.length
    let h ← copyConstructRange true h (.ext sv) sv.length s.curr s.off
    .ok (h, { s with off := s.off + sv.length })

/-- `operator<<(char)` (string_stream.hh:24-30). -/
def appendChar (h : Heap Chr) (s : SS) (c : Chr) : R (Heap Chr × SS) := do
  let (h, s) ← reserve h s 1
  let h ← construct true h s.curr s.off c
  .ok (h, { s with off := s.off + 1 })

/-- The first `n` characters of a block, from `i` on, as the source of a `memcpy` to a string. -/
def readChars (h : Heap Chr) (p : Ptr) (i : Nat) : Nat → R (List Chr)
  | 0 => .ok []
  | n + 1 => do
    let c ← read h p i
    let l ← readChars h p (i + 1) n
    .ok (c :: l)

/-- `to_string` (string_stream.hh:32-40, 127); `cc::string` is `sbo_string<15>`. -/
def toString (junk : Nat → Chr) (h : Heap Chr) (s : SS) : R Str.Str :=
  if s.empty then .ok (Str.Str.empty 15)
  else do
    let sz ← s.size
    let r ← Str.uninitialized 15 junk sz
    let b ← r.buf
    let l ← readChars h s.data 0 sz
    let b ← Str.memcpy b 0 l
    .ok (r.setBuf b)

/-- `clear` (string_stream.hh:59). -/
def clear (s : SS) : SS := { s with curr := s.data, off := 0 }

/-- The copy constructor (string_stream.hh:68-77). -/
def copyCtor (h : Heap Chr) (r : SS) : R (Heap Chr × SS) :=
  if r.empty then .ok (h, SS.new)
  else do
    let sz ← r.size
    let (p, h) := newChars h sz
    let h ← memcpy h p 0 r.data 0 sz
    .ok (h, { data := p, curr := p, off := sz, cap := sz })

/-- Copy assignment from another stream (string_stream.hh:92-107); copy assignment from itself does nothing. -/
def copyAssign (h : Heap Chr) (s r : SS) : R (Heap Chr × SS) := do
  let sz ← r.size
  let (h, s) ← (if s.cap < sz then do
    let h ← free true h s.data
    let (p, h) := newChars h sz
    .ok (h, { s with data := p, cap := sz })
  else .ok (h, s) : R (Heap Chr × SS))
  let h ← (if r.empty then .ok h else memcpy h s.data 0 r.data 0 sz : R (Heap Chr))
  .ok (h, { s with curr := s.data, off := sz })

/-- The destructor (string_stream.hh:89). -/
def dtor (h : Heap Chr) (s : SS) : R (Heap Chr) := free true h s.data

/-! ### a program with several streams -/

/-- The heap and the variables; a variable holds a stream or is not alive. -/
structure World where
  heap : Heap Chr
  vars : Nat → Option SS

/-- Nothing there. -/
def World.init : World := { heap := .init, vars := fun _ => none }

/-- Store a stream. -/
def World.put (w : World) (h : Heap Chr) (i : Nat) (s : Option SS) : World := { heap := h, vars := fun j => if j = i then s else w.vars j }

/-- The stream in variable `i`. -/
def World.get (w : World) (i : Nat) : R SS :=
  match w.vars i with
  | some s => .ok s
  | none => .error .ub

/-- The calls. -/
inductive Op where
  | make (i : Nat)
  | copyNew (i j : Nat)
  | moveNew (i j : Nat)
  | destroy (i : Nat)
  | assign (i j : Nat)
  | moveAssign (i j : Nat)
  | append (i : Nat) (sv : List Chr)
  | appendChar (i : Nat) (c : Chr)
  | reserve (i n : Nat)
  | clear (i : Nat)
  | size (i : Nat)
  | empty (i : Nat)
  | toString (i : Nat)

/-- What a call returns. -/
inductive Obs where
  | none
  | size (n : Nat)
  | bool (b : Bool)
  /-- a string: its size, its bytes including the one behind the last character, and how many blocks it leaves behind when it is destroyed -/
  | str (size : Nat) (bytes : List Chr) (left : Int)
deriving DecidableEq, Repr

/-- Move construction and move assignment from another stream (string_stream.hh:79-87, 109-119): take the pointers and leave null. -/
def moveFrom (w : World) (h : Heap Chr) (i j : Nat) (r : SS) : World := (w.put h i (some r)).put h j (some SS.new)

/-- Run one call. -/
def step (junk : Nat → Chr) (w : World) : Op → R (World × Obs)
  | .make i => .ok (w.put w.heap i (some SS.new), .none)
  | .copyNew i j => do
    let r ← w.get j
    let (h, s) ← copyCtor w.heap r
    .ok (w.put h i (some s), .none)
  | .moveNew i j => do
    let r ← w.get j
    .ok (moveFrom w w.heap i j r, .none)
  | .destroy i => do
    let s ← w.get i
    let h ← dtor w.heap s
    .ok (w.put h i none, .none)
  | .assign i j => do
    let s ← w.get i
    let r ← w.get j
    if i = j then .ok (w, .none)
    else do
      let (h, s) ← copyAssign w.heap s r
      .ok (w.put h i (some s), .none)
  | .moveAssign i j => do
    let s ← w.get i
    let h ← free true w.heap s.data
    let r ← w.get j
    .ok (moveFrom w h i j r, .none)
  | .append i sv => do
    let s ← w.get i
    let (h, s) ← append w.heap s sv
    .ok (w.put h i (some s), .none)
  | .appendChar i c => do
    let s ← w.get i
    let (h, s) ← appendChar w.heap s c
    .ok (w.put h i (some s), .none)
  | .reserve i n => do
    let s ← w.get i
    let (h, s) ← reserve w.heap s n
    .ok (w.put h i (some s), .none)
  | .clear i => do
    let s ← w.get i
    .ok (w.put w.heap i (some (clear s)), .none)
  | .size i => do
    let s ← w.get i
    let n ← s.size
    .ok (w, .size n)
  | .empty i => do
    let s ← w.get i
    .ok (w, .bool s.empty)
  | .toString i => do
    let s ← w.get i
    let r ← toString junk w.heap s
    let b ← r.cstrUpTo r.size
    .ok (w, .str r.size b r.destroy.bal)

/-- Run a history. -/
def run (junk : Nat → Chr) (w : World) : List Op → R (World × List Obs)
  | [] => .ok (w, [])
  | op :: ops => do
    let (w, o) ← step junk w op
    let (w, os) ← run junk w ops
    .ok (w, o :: os)

end Verif.SStream
