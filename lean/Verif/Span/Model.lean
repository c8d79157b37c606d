import Verif.Common

/-!
Model of `cc::span`, `cc::clamped_span`, `cc::wrapped_span` and `cc::strided_span` (/repo/src/clean-core/span.hh,
experimental/clamped_span.hh, experimental/wrapped_span.hh, strided_span.hh).

A span points into one array, here a list; `data` is the offset of the first element in it. Reading or writing outside of the array
is undefined. `size_t` values are natural numbers below 2^64, `int64_t` values are integers.
-/
namespace Verif.Span

variable {α : Type}

/-- The members of `span` (span.hh:194-195). -/
structure Sp where
  data : Nat
  size : Nat
deriving DecidableEq, Repr

/-- `_data[i]`. -/
def at_ (mem : List α) (s : Sp) (i : Nat) : R α :=
  match mem[s.data + i]? with
  | some a => .ok a
  | none => .error .ub

/-- `operator[]` (span.hh:61-65). -/
def get (mem : List α) (s : Sp) (i : Nat) : R α := do
  ccAssert (i < s.size)
  at_ mem s i

/-- `front` (span.hh:67-71). -/
def front (mem : List α) (s : Sp) : R α := do
  ccAssert (s.size > 0)
  at_ mem s 0

/-- `back` (span.hh:72-76). -/
def back (mem : List α) (s : Sp) : R α := do
  ccAssert (s.size > 0)
  at_ mem s (s.size - 1)

/-- `first` (span.hh:80-84). -/
def first (s : Sp) (n : Nat) : R Sp := do
  ccAssert (n ≤ s.size)
  .ok { data := s.data, size := n }

/-- `last` (span.hh:85-89). -/
def last (s : Sp) (n : Nat) : R Sp := do
  ccAssert (n ≤ s.size)
  .ok { data := s.data + (s.size - n), size := n }

/-- `subspan(offset, count)` (span.hh:90-94); the sum in the contract is a `size_t` sum. -/
def subspan (s : Sp) (offset count : Nat) : R Sp := do
  ccAssert (offset ≤ s.size && (offset + count) % 2 ^ 64 ≤ s.size)
  .ok { data := s.data + offset, size := count }

/-- `subspan(offset)` (span.hh:95-99). -/
def subspanFrom (s : Sp) (offset : Nat) : R Sp := do
  ccAssert (offset ≤ s.size)
  .ok { data := s.data + offset, size := s.size - offset }

/-- The loop of `equals_content` (span.hh:126-128). -/
def equalsLoop [DecidableEq α] (mem : List α) (s t : Sp) (i : Nat) : Nat → R Bool
  | 0 => .ok true
  | n + 1 => do
    let x ← at_ mem s i
    let y ← at_ mem t i
    if x ≠ y then .ok false else equalsLoop mem s t (i + 1) n

/-- `equals_content` (span.hh:121-131). -/
def equalsContent [DecidableEq α] (mem : List α) (s t : Sp) : R Bool :=
  if s.size ≠ t.size then .ok false else equalsLoop mem s t 0 s.size

/-- Copy `n` elements, the `i`-th first (span.hh:152-153, 180-183); `memcpy` for trivially copyable types has the same effect on
ranges that do not overlap. -/
def copyLoop (mem : List α) (dst src : Sp) (i : Nat) : Nat → R (List α)
  | 0 => .ok mem
  | n + 1 => do
    let a ← at_ mem src i
    if dst.data + i < mem.length then copyLoop (mem.set (dst.data + i) a) dst src (i + 1) n else .error .ub

/-- `copy_from` (span.hh:141-156). -/
def copyFrom (mem : List α) (dst src : Sp) : R (List α) := do
  ccAssert (src.size = dst.size)
  copyLoop mem dst src 0 dst.size

/-- `fill_from` (span.hh:168-187): the new memory and the returned number. -/
def fillFrom (mem : List α) (dst src : Sp) : R (List α × Nat) := do
  let n := if src.size < dst.size then src.size else dst.size
  let mem ← copyLoop mem dst src 0 n
  .ok (mem, src.size)

/-- `reinterpret_as<U>` (span.hh:109-117), sizes only: (element count of the result). -/
def reinterpretSize (s : Sp) (sizeT sizeU : Nat) : R Nat := do
  ccAssert (s.size * sizeT % 2 ^ 64 % sizeU = 0)
  .ok (s.size * sizeT % 2 ^ 64 / sizeU)

/-- `int64_t(x)` of a `size_t`. -/
def toI64 (x : Nat) : Int := if x % 2 ^ 64 < 2 ^ 63 then (x % 2 ^ 64 : Nat) else ((x % 2 ^ 64 : Nat) : Int) - 2 ^ 64

/-- `_data[i]` for a signed index. -/
def atInt (mem : List α) (s : Sp) (i : Int) : R α :=
  if (s.data : Int) + i < 0 then .error .ub
  else
    match mem[((s.data : Int) + i).toNat]? with
    | some a => .ok a
    | none => .error .ub

/-- `cc::clamp` (utility.hh:37-42). -/
def clamp (v lo hi : Int) : R Int := do
  ccAssert (!(decide (hi < lo)))
  .ok (if v < lo then lo else if hi < v then hi else v)

/-- `clamped_span::operator[]` (experimental/clamped_span.hh:21-25). -/
def clampedGet (mem : List α) (s : Sp) (i : Int) : R α := do
  ccAssert (s.size > 0)
  let j ← clamp i 0 (toI64 (s.size - 1))
  atInt mem s j

/-- `wrapped_span::operator[]` (experimental/wrapped_span.hh:23-30); `%` truncates towards zero. -/
def wrappedGet (mem : List α) (s : Sp) (i : Int) : R α := do
  ccAssert (s.size > 0)
  let i := i.tmod (toI64 s.size)
  let i := if i < 0 then i + toI64 s.size else i
  atInt mem s i

/-! ### strided_span

Addresses are 64 bit numbers; `_data + _stride * i` is computed modulo 2^64 (the `int64_t` stride is converted to `size_t` for the
product). A strided span designates a sequence of addresses. -/

/-- The members of `strided_span` (strided_span.hh:137-139). -/
structure Ss where
  data : BitVec 64
  size : BitVec 64
  stride : BitVec 64
deriving DecidableEq, Repr

/-- Address of `operator[]` (strided_span.hh:60-64). -/
def sGet (s : Ss) (i : BitVec 64) : R (BitVec 64) := do
  ccAssert (i < s.size)
  .ok (s.data + s.stride * i)

/-- Address of `front` (strided_span.hh:66-70). -/
def sFront (s : Ss) : R (BitVec 64) := do
  ccAssert (s.size > 0#64)
  .ok s.data

/-- Address of `back` (strided_span.hh:71-75). -/
def sBack (s : Ss) : R (BitVec 64) := do
  ccAssert (s.size > 0#64)
  .ok (s.data + s.stride * (s.size - 1#64))

/-- `first` (strided_span.hh:79-83). -/
def sFirst (s : Ss) (n : BitVec 64) : R Ss := do
  ccAssert (n ≤ s.size)
  .ok { data := s.data, size := n, stride := s.stride }

/-- `last` (strided_span.hh:84-88). -/
def sLast (s : Ss) (n : BitVec 64) : R Ss := do
  ccAssert (n ≤ s.size)
  .ok { data := s.data + s.stride * (s.size - n), size := n, stride := s.stride }

/-- `subspan(offset, count)` (strided_span.hh:89-93). -/
def sSubspan (s : Ss) (offset count : BitVec 64) : R Ss := do
  ccAssert (offset ≤ s.size && offset + count ≤ s.size)
  .ok { data := s.data + s.stride * offset, size := count, stride := s.stride }

/-- `subspan(offset)` (strided_span.hh:94-98). -/
def sSubspanFrom (s : Ss) (offset : BitVec 64) : R Ss := do
  ccAssert (offset ≤ s.size)
  .ok { data := s.data + s.stride * offset, size := s.size - offset, stride := s.stride }

/-- `reversed` (strided_span.hh:99); `-INT64_MIN` overflows. -/
def sReversed (s : Ss) : R Ss :=
  if s.stride = BitVec.intMin 64 then .error .ub
  else .ok { data := s.data + s.stride * (s.size - 1#64), size := s.size, stride := -s.stride }

/-- The addresses a range-for visits (strided_span.hh:111-134), `n = size` steps. -/
def sIterLoop (stride : BitVec 64) (ptr : BitVec 64) : Nat → R (List (BitVec 64))
  | 0 => .ok []
  | n + 1 => do
    ccAssert (ptr ≠ 0#64)
    let rest ← sIterLoop stride (ptr + stride) n
    .ok (ptr :: rest)

/-- `begin()` .. `end()` (strided_span.hh:133-134). -/
def sIter (s : Ss) : R (List (BitVec 64)) := sIterLoop s.stride s.data s.size.toNat

end Verif.Span
