import Verif.StrView.Model
/-!
# `cc::sbo_string<sbo_capacity>`

Model of `/repo/src/clean-core/sbo_string.hh` (`cc::string` is `sbo_string<15>`, string.hh).  `C` is `sbo_capacity`.

* A `char` is a byte.  `_data` points to the small buffer, to a block from `new char[n]` or is null; a block belongs
  to the pointer that holds it, so the model keeps the bytes of the block with the pointer.  The ghost field `bal`
  counts the blocks obtained minus the blocks deleted by the operations on an object; the history theorem uses it to
  show that nothing is leaked or deleted twice.  The ghost field `news` counts the blocks that the object obtained by
  `new`, and so names the one it holds for as long as no other string is moved into it (C144).
* The union of `_capacity`, `_sbo` and `_sbo_words` (sbo_string.hh 779-784) is its `C + 1` bytes; `_capacity` is
  the little-endian value of the first eight.
* `new char[n]` always succeeds; its bytes are arbitrary: `junk` (the same function for each block).
* Sizes are natural numbers below `2^64`; sums and shifts that the caller controls are taken modulo `2^64`.
* Reading or writing outside a buffer, through a null pointer, and `memcpy` between overlapping ranges are undefined.
* Argument views that show characters elsewhere are lists; views into the string itself are `Arg.own`.
-/
namespace Verif.Str
open Verif.StrView (Chr View)

/-- `_data` (sbo_string.hh 777). -/
inductive Ptr where
  | sbo
  | heap (b : List Chr)
  | null
deriving DecidableEq, Repr

/-- The members (sbo_string.hh 777-784), the ghost count of blocks, and the ghost number of the block held. -/
structure Str where
  data : Ptr
  size : Nat
  un : List Chr
  bal : Int
  news : Nat
deriving DecidableEq, Repr

/-! ### Memory -/

/-- The little-endian bytes of a number. -/
def leBytes : Nat → Nat → List Chr
  | 0, _ => []
  | n + 1, c => BitVec.ofNat 8 c :: leBytes n (c / 256)

/-- The number with the given little-endian bytes. -/
def leVal : List Chr → Nat
  | [] => 0
  | x :: t => x.toNat + 256 * leVal t

/-- `new char[n]`, with `n` a `size_t`. -/
def newChars (junk : Nat → Chr) (n : Nat) : List Chr := (List.range (n % 2 ^ 64)).map junk

/-- `memcpy(dst + off, src, n)` from `n` readable bytes elsewhere. -/
def memcpy (dst : List Chr) (off : Nat) (src : List Chr) : R (List Chr) :=
  if off + src.length ≤ dst.length then pure (dst.take off ++ (src ++ dst.drop (off + src.length)))
  else .error .ub

/-- The `n` bytes at `b + off`, as the source of a `memcpy`. -/
def slice (b : List Chr) (off n : Nat) : R (List Chr) :=
  if off + n ≤ b.length then pure ((b.drop off).take n) else .error .ub

/-- `b[i]` -/
def rd (b : List Chr) (i : Nat) : R Chr :=
  match b[i]? with
  | some c => .ok c
  | none => .error .ub

/-- `b[i] = c` -/
def wr (b : List Chr) (i : Nat) (c : Chr) : R (List Chr) :=
  if i < b.length then pure (b.set i c) else .error .ub

/-- `for (i...; n times) b[i] = c` (sbo_string.hh 364-365, 509-510, 522-523). -/
def fillLoop (c : Chr) : Nat → List Chr → Nat → R (List Chr)
  | 0, b, _ => pure b
  | n + 1, b, i => do
    let b ← wr b i c
    fillLoop c n b (i + 1)

/-- `for (i...; n times) b[i] = f(b[i])` (sbo_string.hh 386-387, 531-533). -/
def mapLoop (f : Chr → Chr) : Nat → List Chr → Nat → R (List Chr)
  | 0, b, _ => pure b
  | n + 1, b, i => do
    let c ← rd b i
    let b ← wr b i (f c)
    mapLoop f n b (i + 1)

/-- `for (i...; n times) r[i] = f(b[i])` (sbo_string.hh 371-372, 378-379, 394-395, 613-617). -/
def mapToLoop (f : Chr → Chr) (b : List Chr) : Nat → List Chr → Nat → R (List Chr)
  | 0, r, _ => pure r
  | n + 1, r, i => do
    let c ← rd b i
    let r ← wr r i (f c)
    mapToLoop f b n r (i + 1)

/-- `for (i...; n times) b[dst + i] = b[src + i]`, ascending (sbo_string.hh 402-403, 441-442, 468-469, 580-581). -/
def shiftDown : Nat → List Chr → Nat → Nat → R (List Chr)
  | 0, b, _, _ => pure b
  | n + 1, b, dst, src => do
    let c ← rd b src
    let b ← wr b dst c
    shiftDown n b (dst + 1) (src + 1)

/-- `for (i = 1; i <= n; ++i) b[dst - i] = b[src - i]` (sbo_string.hh 507-508, 575-576). -/
def shiftUp : Nat → List Chr → Nat → Nat → R (List Chr)
  | 0, b, _, _ => pure b
  | n + 1, b, dst, src => do
    let c ← rd b (src - 1)
    let b ← wr b (dst - 1) c
    shiftUp n b (dst - 1) (src - 1)

/-! ### Fields -/

/-- `_is_short` (sbo_string.hh 749). -/
def Str.isShort (s : Str) : Bool :=
  match s.data with
  | .sbo => true
  | _ => false

/-- `capacity` (sbo_string.hh 38). -/
def Str.capacity (C : Nat) (s : Str) : Nat := if s.isShort then C else leVal (s.un.take 8)

/-- `_capacity = c` -/
def Str.setCap (s : Str) (c : Nat) : Str := { s with un := leBytes 8 c ++ s.un.drop 8 }

/-- The bytes `_data` points to. -/
def Str.buf (s : Str) : R (List Chr) :=
  match s.data with
  | .sbo => .ok s.un
  | .heap b => .ok b
  | .null => .error .ub

/-- Stores to the bytes `_data` points to. -/
def Str.setBuf (s : Str) (b : List Chr) : Str :=
  match s.data with
  | .sbo => { s with un := b }
  | .heap _ => { s with data := .heap b }
  | .null => s

/-- `if (!_is_short()) delete[] _data;` (sbo_string.hh 186-187, 238-239, 283-284, ...); deleting null does nothing.
The caller stores a new pointer. -/
def Str.release (s : Str) : Str :=
  match s.data with
  | .sbo => s
  | .heap _ => { s with data := .null, bal := s.bal - 1 }
  | .null => s

/-- `delete[]` of the old block unless short, then `_data = b; _capacity = cap` for a new block `b`
(sbo_string.hh 97-98, 158-159, 315-319, 564-569, 692-697, 758-762). -/
def Str.adopt (s : Str) (b : List Chr) (cap : Nat) : Str :=
  let s := s.release
  { s with data := .heap b, un := leBytes 8 cap ++ s.un.drop 8, bal := s.bal + 1, news := s.news + 1 }

/-- `string_view(_data, _size)` -/
def Str.view (s : Str) : R View := do
  let b ← s.buf
  pure ⟨b, 0, s.size⟩

/-! ### Construction, copy, move, destruction -/

/-- `sbo_string()` (sbo_string.hh 77-82). -/
def Str.empty (C : Nat) : Str := ⟨.sbo, 0, List.replicate (C + 1) 0#8, 0, 0⟩

/-- `sbo_string(char const*, size_t)` and `sbo_string(string_view)` (sbo_string.hh 104-121). -/
def fromView (C : Nat) (junk : Nat → Chr) (l : List Chr) : R Str := do
  let s : Str := { Str.empty C with size := l.length }
  let s := if l.length ≤ C then s else s.adopt (newChars junk (l.length + 1)) l.length
  let b ← s.buf
  let b ← (if l.length > 0 then memcpy b 0 l else pure b : R (List Chr))
  let b ← wr b l.length 0#8
  pure (s.setBuf b)

/-- `sbo_string(char const*)` (sbo_string.hh 88-103): as above with the length found by `strlen`. -/
def fromCstr (C : Nat) (junk : Nat → Chr) (mem : List Chr) (off : Nat) : R Str := do
  let v ← StrView.ofCstr mem off
  let l ← slice mem off v.size
  fromView C junk l

/-- `_reserve_force` (sbo_string.hh 751-763). -/
def Str.reserveForce (junk : Nat → Chr) (s : Str) (newCap : Nat) : R Str := do
  let nb := newChars junk (newCap + 1)
  let b ← s.buf
  let src ← slice b 0 (s.size + 1)
  let nb ← memcpy nb 0 src
  pure (s.adopt nb newCap)

/-- `reserve` (sbo_string.hh 254-260). -/
def Str.reserve (C : Nat) (junk : Nat → Chr) (s : Str) (newCap : Nat) : R Str :=
  if newCap ≤ s.capacity C then pure s else s.reserveForce junk newCap

/-- `uninitialized` (sbo_string.hh 123-130). -/
def uninitialized (C : Nat) (junk : Nat → Chr) (size : Nat) : R Str := do
  let s ← (Str.empty C).reserve C junk size
  let b ← s.buf
  let b ← wr b size 0#8
  pure { s.setBuf b with size := size }

/-- `resize` (sbo_string.hh 270-279). -/
def Str.resize (C : Nat) (junk : Nat → Chr) (s : Str) (newSize : Nat) (fill : Chr) : R Str := do
  let s ← s.reserve C junk newSize
  let b ← s.buf
  let b ← (if newSize > s.size then memcpy b s.size (List.replicate (newSize - s.size) fill) else pure b : R (List Chr))
  let b ← wr b newSize 0#8
  pure { s.setBuf b with size := newSize }

/-- `filled` (sbo_string.hh 132-137). -/
def filled (C : Nat) (junk : Nat → Chr) (size : Nat) (value : Chr) : R Str := (Str.empty C).resize C junk size value

/-- The three cases shared by the copy constructor (sbo_string.hh 143-161) and copy assignment (189-207);
`this` has given up its block. -/
def copyInto (C : Nat) (junk : Nat → Chr) (this rhs : Str) : R Str :=
  if rhs.isShort then pure { this with data := .sbo, size := rhs.size, un := rhs.un }
  else do
    let rb ← rhs.buf
    let src ← slice rb 0 (rhs.size + 1)
    if rhs.size ≤ C then
      let un ← memcpy this.un 0 src
      pure { this with data := .sbo, size := rhs.size, un := un }
    else
      let nb ← memcpy (newChars junk (rhs.size + 1)) 0 src
      pure { (this.adopt nb rhs.size) with size := rhs.size }

/-- `sbo_string(sbo_string const&)` (sbo_string.hh 139-162). -/
def copyCtor (C : Nat) (junk : Nat → Chr) (rhs : Str) : R Str := copyInto C junk (Str.empty C) rhs

/-- `operator=(sbo_string const&)` (sbo_string.hh 181-210) for a different object; assignment of an object to itself
returns at once. -/
def copyAssign (C : Nat) (junk : Nat → Chr) (this rhs : Str) : R Str := copyInto C junk this.release rhs

/-- The two cases shared by the move constructor (sbo_string.hh 167-178) and move assignment (220-231). -/
def moveInto (this rhs : Str) : Str × Str :=
  if rhs.isShort then ({ this with data := .sbo, size := rhs.size, un := rhs.un }, rhs)
  else ({ this with data := rhs.data, size := rhs.size, un := leBytes 8 (leVal (rhs.un.take 8)) ++ this.un.drop 8 },
    { rhs with data := .null })

/-- `sbo_string(sbo_string&&)` (sbo_string.hh 163-179): the new object and the source afterwards. -/
def moveCtor (C : Nat) (rhs : Str) : Str × Str := moveInto (Str.empty C) rhs

/-- The beginning of move assignment (sbo_string.hh 213-218). -/
def Str.dropForMove (s : Str) : Str :=
  if s.isShort then s else { s.release with data := .sbo, un := leBytes 8 0 ++ s.un.drop 8 }

/-- `operator=(sbo_string&&)` (sbo_string.hh 211-234) from a different object. -/
def moveAssign (this rhs : Str) : Str × Str := moveInto this.dropForMove rhs

/-- `operator=(sbo_string&&)` (sbo_string.hh 211-234) from itself: after the first part the string is short. -/
def selfMoveAssign (s : Str) : Str := s.dropForMove

/-- `~sbo_string` (sbo_string.hh 236-240). -/
def Str.destroy (s : Str) : Str := s.release

/-! ### Modification -/

/-- `_grow` (sbo_string.hh 765). -/
def Str.grow (C : Nat) (junk : Nat → Chr) (s : Str) : R Str := s.reserveForce junk (s.capacity C * 2 % 2 ^ 64)

/-- `push_back` (sbo_string.hh 244-252) and `operator+=(char)` (661-665). -/
def Str.pushBack (C : Nat) (junk : Nat → Chr) (s : Str) (c : Chr) : R Str := do
  let s ← (if s.size = s.capacity C then s.grow C junk else pure s : R Str)
  let b ← s.buf
  let b ← wr b s.size c
  let b ← wr b (s.size + 1) 0#8
  pure { s.setBuf b with size := s.size + 1 }

/-- `pop_back` (sbo_string.hh 262-268). -/
def Str.popBack (s : Str) : R Str := do
  ccAssert (decide (s.size ≠ 0))
  let b ← s.buf
  let b ← wr b (s.size - 1) 0#8
  pure { s.setBuf b with size := s.size - 1 }

/-- `clear` (sbo_string.hh 281-289). -/
def Str.clear (s : Str) : Str := { s.release with data := .sbo, size := 0, un := leBytes 8 0 ++ s.un.drop 8 }

/-- `shrink_to_fit` (sbo_string.hh 291-321). -/
def Str.shrinkToFit (C : Nat) (junk : Nat → Chr) (s : Str) : R Str :=
  if s.isShort then pure s
  else if s.size = s.capacity C then pure s
  else do
    let b ← s.buf
    let src ← slice b 0 (s.size + 1)
    if s.size ≤ C then
      let un ← memcpy s.un 0 src
      pure { s.release with data := .sbo, un := un }
    else
      let nb ← memcpy (newChars junk (s.size + 1)) 0 src
      pure (s.adopt nb s.size)

/-- `dynamic_size` (fwd.hh). -/
def dynamicSize : Nat := 2 ^ 64 - 1

/-- `fill` (sbo_string.hh 345-366). -/
def Str.fill (C : Nat) (junk : Nat → Chr) (s : Str) (c : Chr) (n : Nat) : R Str := do
  let s ← (
    if n ≤ s.capacity C then do
      let b ← s.buf
      let b ← wr b n 0#8
      pure { s.setBuf b with size := n }
    else if n ≠ dynamicSize then do
      ccAssert (decide (n ≥ C))
      let nb ← wr (newChars junk (n + 1)) n 0#8
      pure { s.adopt nb n with size := n }
    else pure s : R Str)
  let b ← s.buf
  let b ← fillLoop c s.size b 0
  pure (s.setBuf b)

/-- `to_lower`, `to_upper` (sbo_string.hh 368-381) and `replaced(char, char)` (610-619) for the function `f`. -/
def Str.mapped (C : Nat) (junk : Nat → Chr) (f : Chr → Chr) (s : Str) : R Str := do
  let r ← uninitialized C junk s.size
  let b ← s.buf
  let rb ← r.buf
  let rb ← mapToLoop f b s.size rb 0
  pure (r.setBuf rb)

/-- `replace(char, char)` and `replaced(char, char)` on one character (sbo_string.hh 532-533, 616). -/
def replaceChar (old new c : Chr) : Chr := if c = old then new else c

/-- `capitalize` (sbo_string.hh 382-388). -/
def Str.capitalize (s : Str) : R Str := do
  let b ← s.buf
  let b ← (if s.size > 0 then mapLoop StrView.toUpper 1 b 0 else pure b : R (List Chr))
  let b ← mapLoop StrView.toLower (s.size - 1) b 1
  pure (s.setBuf b)

/-- `capitalized` (sbo_string.hh 389-397). -/
def Str.capitalized (C : Nat) (junk : Nat → Chr) (s : Str) : R Str := do
  let r ← uninitialized C junk s.size
  let b ← s.buf
  let rb ← r.buf
  let rb ← (if s.size > 0 then mapToLoop StrView.toUpper b 1 rb 0 else pure rb : R (List Chr))
  let rb ← mapToLoop StrView.toLower b (s.size - 1) rb 1
  pure (r.setBuf rb)

/-- `replace(char, char)` (sbo_string.hh 529-534). -/
def Str.replaceChars (s : Str) (old new : Chr) : R Str := do
  let b ← s.buf
  let b ← mapLoop (replaceChar old new) s.size b 0
  pure (s.setBuf b)

/-- `remove_prefix(n)` (sbo_string.hh 399-405). -/
def Str.removePrefix (s : Str) (n : Nat) : R Str := do
  ccAssert (decide (s.size ≥ n))
  let b ← s.buf
  let b ← shiftDown (s.size - n) b 0 n
  pure { s.setBuf b with size := s.size - n }

/-- `remove_prefix(s)` (sbo_string.hh 406-410). -/
def Str.removePrefixStr (s : Str) (p : List Chr) : R Str := do
  let v ← s.view
  let ok ← v.startsWith ⟨p, 0, p.length⟩
  ccAssert ok
  s.removePrefix p.length

/-- `remove_suffix(n)` (sbo_string.hh 412-416). -/
def Str.removeSuffix (s : Str) (n : Nat) : R Str := do
  ccAssert (decide (s.size ≥ n))
  pure { s with size := s.size - n }

/-- `remove_suffix(s)` (sbo_string.hh 417-421). -/
def Str.removeSuffixStr (s : Str) (p : List Chr) : R Str := do
  let v ← s.view
  let ok ← v.endsWith ⟨p, 0, p.length⟩
  ccAssert ok
  pure { s with size := s.size - p.length }

/-- `while (n < _size && pred(_data[n])) ++n;` (sbo_string.hh 434-436, 462-464); `k` is `_size - n`. -/
def countLoop (p : Chr → Bool) (b : List Chr) : Nat → Nat → R Nat
  | 0, n => pure n
  | k + 1, n => do
    let c ← rd b n
    if p c then countLoop p b k (n + 1) else pure n

/-- `while (s > 0 && pred(_data[n + s - 1])) --s;` (sbo_string.hh 452-453, 465-467). -/
def backLoop (p : Chr → Bool) (b : List Chr) (n : Nat) : Nat → R Nat
  | 0 => pure 0
  | s + 1 => do
    let c ← rd b (n + s)
    if p c then backLoop p b n s else pure (s + 1)

/-- `trim_start` (sbo_string.hh 431-445). -/
def Str.trimStart (s : Str) (p : Chr → Bool) : R Str := do
  let b ← s.buf
  let n ← countLoop p b s.size 0
  if n = 0 then pure s
  else do
    let b ← shiftDown (s.size - n) b 0 n
    let b ← wr b (s.size - n) 0#8
    pure { s.setBuf b with size := s.size - n }

/-- `trim_end` (sbo_string.hh 449-455). -/
def Str.trimEnd (s : Str) (p : Chr → Bool) : R Str := do
  let b ← s.buf
  let n ← backLoop p b 0 s.size
  let b ← wr b n 0#8
  pure { s.setBuf b with size := n }

/-- `trim` (sbo_string.hh 459-472). -/
def Str.trim (s : Str) (p : Chr → Bool) : R Str := do
  let b ← s.buf
  let n ← countLoop p b s.size 0
  let k ← backLoop p b n (s.size - n)
  let b ← shiftDown k b 0 n
  let b ← wr b k 0#8
  pure { s.setBuf b with size := k }

/-- `pad_start` (sbo_string.hh 500-514). -/
def Str.padStart (C : Nat) (junk : Nat → Chr) (s : Str) (length : Nat) (c : Chr) : R Str :=
  if s.size ≥ length then pure s
  else do
    let s ← s.reserve C junk length
    let b ← s.buf
    let b ← shiftUp s.size b length s.size
    let b ← fillLoop c (length - s.size) b 0
    let b ← wr b length 0#8
    pure { s.setBuf b with size := length }

/-- `pad_end` (sbo_string.hh 515-527). -/
def Str.padEnd (C : Nat) (junk : Nat → Chr) (s : Str) (length : Nat) (c : Chr) : R Str :=
  if s.size ≥ length then pure s
  else do
    let s ← s.reserve C junk length
    let b ← s.buf
    let b ← fillLoop c (length - s.size) b s.size
    let b ← wr b length 0#8
    pure { s.setBuf b with size := length }

/-- A `string_view` argument: characters elsewhere, or `len` characters from position `off` of the string itself. -/
inductive Arg where
  | ext (l : List Chr)
  | own (off len : Nat)
deriving DecidableEq, Repr

def Arg.size : Arg → Nat
  | .ext l => l.length
  | .own _ len => len

/-- The bytes the view shows while the string's buffer is `b`. -/
def Arg.bytes (b : List Chr) : Arg → R (List Chr)
  | .ext l => pure l
  | .own off len => slice b off len

/-- `memcpy(_data + dst, view.data(), view.size())`: into the string's own buffer. -/
def copyArg (b : List Chr) (dst : Nat) (a : Arg) : R (List Chr) :=
  match a with
  | .ext l => memcpy b dst l
  | .own off len =>
    if len ≠ 0 ∧ dst < off + len ∧ off < dst + len then .error .ub
    else do
      let src ← slice b off len
      memcpy b dst src

/-- Unsigned subtraction of `size_t`. -/
def sub64 (a b : Nat) : Nat := (a + (2 ^ 64 - b)) % 2 ^ 64

/-- `replace(pos, count, view)` (sbo_string.hh 535-588). -/
def Str.replaceAt (C : Nat) (junk : Nat → Chr) (s : Str) (pos count : Nat) (a : Arg) : R Str := do
  ccAssert (decide (pos ≤ s.size))
  ccAssert (decide ((pos + count) % 2 ^ 64 ≤ s.size))
  let b ← s.buf
  if count = a.size then
    let b ← copyArg b pos a
    pure (s.setBuf b)
  else
    let newSize := (sub64 s.size count + a.size) % 2 ^ 64
    let tail := sub64 (sub64 s.size count) pos
    if newSize > s.capacity C then
      let dbl := s.capacity C * 2 % 2 ^ 64
      let newCap := if newSize > dbl then newSize else dbl
      let nb := newChars junk (newCap + 1)
      let s1 ← slice b 0 pos
      let nb ← memcpy nb 0 s1
      let s2 ← a.bytes b
      let nb ← memcpy nb pos s2
      let s3 ← slice b ((pos + count) % 2 ^ 64) tail
      let nb ← memcpy nb (pos + a.size) s3
      let nb ← wr nb newSize 0#8
      pure { s.adopt nb newCap with size := newSize }
    else
      let b ← (if a.size > count then shiftUp tail b newSize s.size
        else shiftDown tail b (pos + a.size) ((pos + count) % 2 ^ 64) : R (List Chr))
      let b ← copyArg b pos a
      let b ← wr b newSize 0#8
      pure { s.setBuf b with size := newSize }

/-- `insert` (sbo_string.hh 655). -/
def Str.insert (C : Nat) (junk : Nat → Chr) (s : Str) (pos : Nat) (a : Arg) : R Str := s.replaceAt C junk pos 0 a

/-- The loop of `replace(old, new)` (sbo_string.hh 598-607); the fuel is never used up (C47). -/
def replaceLoop (C : Nat) (junk : Nat → Chr) (old new : List Chr) : Nat → Str → Nat → R Str
  | 0, _, _ => .error .ub
  | fuel + 1, s, i =>
    if i + old.length ≤ s.size then do
      let v ← s.view
      let w ← v.subview i old.length
      let found ← w.eq ⟨old, 0, old.length⟩
      if found then
        let s ← s.replaceAt C junk i old.length (.ext new)
        replaceLoop C junk old new fuel s (i + new.length)
      else replaceLoop C junk old new fuel s (i + 1)
    else pure s

/-- `replace(old, new)` (sbo_string.hh 589-608). -/
def Str.replaceAll (C : Nat) (junk : Nat → Chr) (s : Str) (old new : List Chr) : R Str := do
  ccAssert (decide (old.length ≠ 0))
  if old.length > s.size then pure s else replaceLoop C junk old new (s.size + 1) s 0

/-- `operator+=(string_view)` (sbo_string.hh 666-701). -/
def Str.append (C : Nat) (junk : Nat → Chr) (s : Str) (a : Arg) : R Str := do
  let newSize := (s.size + a.size) % 2 ^ 64
  let b ← s.buf
  if newSize ≤ s.capacity C then
    let b ← copyArg b s.size a
    let b ← wr b newSize 0#8
    pure { s.setBuf b with size := newSize }
  else
    ccAssert (decide (s.capacity C ≥ C))
    let dbl := s.capacity C * 2 % 2 ^ 64
    let newCap := if dbl < newSize then newSize else dbl
    let nb := newChars junk (newCap + 1)
    let s1 ← slice b 0 s.size
    let nb ← memcpy nb 0 s1
    let s2 ← a.bytes b
    let nb ← memcpy nb s.size s2
    let nb ← wr nb newSize 0#8
    pure { s.adopt nb newCap with size := newSize }

/-- `replaced(pos, count, view)` (sbo_string.hh 620-629). -/
def Str.replacedAt (C : Nat) (junk : Nat → Chr) (s : Str) (pos count : Nat) (a : Arg) : R Str := do
  ccAssert (decide (pos ≤ s.size))
  ccAssert (decide ((pos + count) % 2 ^ 64 ≤ s.size))
  let r ← uninitialized C junk ((sub64 s.size count + a.size) % 2 ^ 64)
  let b ← s.buf
  let rb ← r.buf
  let s1 ← slice b 0 pos
  let rb ← memcpy rb 0 s1
  let s2 ← a.bytes b
  let rb ← memcpy rb pos s2
  let s3 ← slice b ((pos + count) % 2 ^ 64) (sub64 (sub64 s.size count) pos)
  let rb ← memcpy rb (pos + a.size) s3
  pure (r.setBuf rb)

/-- The loop of `replaced(old, new)` (sbo_string.hh 639-651). -/
def replacedLoop (C : Nat) (junk : Nat → Chr) (s : Str) (old new : List Chr) : Nat → Str → Nat → R Str
  | 0, _, _ => .error .ub
  | fuel + 1, r, i =>
    if i < s.size then do
      let v ← s.view
      let found ← (v.subviewClamped i old.length).eq ⟨old, 0, old.length⟩
      if found then
        let r ← r.append C junk (.ext new)
        replacedLoop C junk s old new fuel r (i + old.length)
      else
        let c ← v.rd i
        let r ← r.pushBack C junk c
        replacedLoop C junk s old new fuel r (i + 1)
    else pure r

/-- `replaced(old, new)` (sbo_string.hh 630-653). -/
def Str.replaced (C : Nat) (junk : Nat → Chr) (s : Str) (old new : List Chr) : R Str := do
  ccAssert (decide (old.length ≠ 0))
  if old.length > s.size then copyCtor C junk s
  else replacedLoop C junk s old new (s.size + 1) (Str.empty C) 0

/-- `operator+(string_view, sbo_string const&)` (sbo_string.hh 738-745) and `operator+(char, sbo_string const&)`
(730-737) with one character; `lhs` shows characters elsewhere. -/
def concat (C : Nat) (junk : Nat → Chr) (lhs : List Chr) (s : Str) : R Str := do
  let r ← uninitialized C junk ((lhs.length + s.size) % 2 ^ 64)
  let rb ← r.buf
  let rb ← memcpy rb 0 lhs
  let b ← s.buf
  let src ← slice b 0 s.size
  let rb ← memcpy rb lhs.length src
  pure (r.setBuf rb)

/-- `substring(offset, size)` (sbo_string.hh 328). -/
def Str.substring (C : Nat) (junk : Nat → Chr) (s : Str) (off n : Nat) : R Str := do
  let v ← s.view
  let w ← v.subview off n
  let l ← slice w.mem w.off w.size
  fromView C junk l

/-! ### Reading -/

/-- `operator[]` (sbo_string.hh 64-73). -/
def Str.get (s : Str) (i : Nat) : R Chr := do
  ccAssert (decide (i < s.size))
  let b ← s.buf
  rd b i

/-- What a caller sees that reads the characters from `c_str()` (sbo_string.hh 30) up to and including index `n`. -/
def Str.cstrUpTo (s : Str) (n : Nat) : R (List Chr) := do
  let b ← s.buf
  slice b 0 (n + 1)

/-- The characters from `begin()` to `end()` (sbo_string.hh 32-35). -/
def Str.chars (s : Str) : R (List Chr) := do
  let b ← s.buf
  slice b 0 s.size

end Verif.Str
