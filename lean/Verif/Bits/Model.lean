import Verif.Common

/-
Model of /repo/src/clean-core/bits.hh (GCC/Clang branch, lines 101-183; the MSVC count_leading_zeros
branch, lines 67-98) and of the integer helpers of /repo/src/clean-core/utility.hh.

The compiler intrinsics are external; their documented behaviour is modelled directly:
`__builtin_clz/ctz(0)` is undefined, `__lzcnt*`/`_tzcnt*` return the width for 0.
Overloads for several widths are one definition with the width `w` as parameter where the C++ text
is the same.
-/
namespace Verif.Bits

/-- `__builtin_popcount`, `__builtin_popcountll`: number of one bits. -/
def builtinPopcount {w : Nat} (v : BitVec w) : Nat := (List.range w).countP (fun i => v.getLsbD i)

/-- `__builtin_clz`, `__builtin_clzll` (`w` = 32, 64). -/
def builtinClz {w : Nat} (v : BitVec w) : R Nat :=
  if v = 0#w then .error .ub else .ok (w - 1 - v.toNat.log2)

/-- Position of the lowest one bit at or above `i`, looking at `n` bits. -/
def lowestBit {w : Nat} (v : BitVec w) (i : Nat) : Nat → Nat
  | 0 => i
  | n + 1 => if v.getLsbD i then i else lowestBit v (i + 1) n

/-- `__builtin_ctz`, `__builtin_ctzll`. -/
def builtinCtz {w : Nat} (v : BitVec w) : R Nat :=
  if v = 0#w then .error .ub else .ok (lowestBit v 0 w)

/-- `__lzcnt16`, `__lzcnt32`, `__lzcnt64`. -/
def lzcnt {w : Nat} (v : BitVec w) : Nat := if v = 0#w then w else w - 1 - v.toNat.log2

/-- `_tzcnt_u32`, `_tzcnt_u64`. -/
def tzcnt {w : Nat} (v : BitVec w) : Nat := if v = 0#w then w else lowestBit v 0 w

/-- `_BitScanReverse`, `_BitScanReverse64`: index of the highest one bit, undefined for 0. -/
def bitScanReverse {w : Nat} (v : BitVec w) : R Nat :=
  if v = 0#w then .error .ub else .ok v.toNat.log2

/-- Byte `i` of a word, counted from the least significant. -/
def byteOf {w : Nat} (v : BitVec w) (i : Nat) : BitVec 8 := v.extractLsb' (8 * i) 8

/-- `__builtin_bswap16/32/64` (bits.hh:110-112) as shifts and masks on `n` bytes. -/
def byteswap {w : Nat} (v : BitVec w) : BitVec w :=
  (List.range (w / 8)).foldl (fun acc i => acc ||| ((v >>> (8 * i)) &&& 255#w) <<< (w - 8 - 8 * i)) 0#w

/-- `popcount(uint8_t)`, `popcount(uint16_t)` (bits.hh:104-105): integral promotion to 32 bits. -/
def popcountNarrow {w : Nat} (v : BitVec w) : Nat := builtinPopcount (v.setWidth 32)

/-- `popcount(uint32_t)`, `popcount(uint64_t)` (bits.hh:106-107). -/
def popcount {w : Nat} (v : BitVec w) : Nat := builtinPopcount v

/-- `count_trailing_zeros` without BMI (bits.hh:118-119). -/
def countTrailingZeros {w : Nat} (v : BitVec w) : R Nat :=
  if v ≠ 0#w then builtinCtz v else .ok w

/-- `count_trailing_zeros` with BMI (bits.hh:115-116). -/
def countTrailingZerosBmi {w : Nat} (v : BitVec w) : R Nat := .ok (tzcnt v)

/-- `count_leading_zeros(uint32_t/uint64_t)` without LZCNT (bits.hh:135-136). -/
def countLeadingZeros {w : Nat} (v : BitVec w) : R Nat :=
  if v ≠ 0#w then builtinClz v else .ok w

/-- `count_leading_zeros(uint32_t/uint64_t)` with LZCNT (bits.hh:130-131). -/
def countLeadingZerosLzcnt {w : Nat} (v : BitVec w) : R Nat := .ok (lzcnt v)

/-- `count_leading_zeros(uint8_t)` without LZCNT (bits.hh:133). The result is an `int`. -/
def countLeadingZeros8 (v : BitVec 8) : R Int :=
  if v ≠ 0#8 then do let c ← builtinClz (v.setWidth 32); pure ((c : Int) - 24) else .ok 8

/-- `count_leading_zeros(uint16_t)` without LZCNT (bits.hh:134). -/
def countLeadingZeros16 (v : BitVec 16) : R Int :=
  if v ≠ 0#16 then do let c ← builtinClz (v.setWidth 32); pure ((c : Int) - 16) else .ok 16

/-- `count_leading_zeros(uint8_t)` with LZCNT (bits.hh:128). -/
def countLeadingZeros8Lzcnt (v : BitVec 8) : R Int := .ok ((lzcnt (v.setWidth 16) : Int) - 8)

/-- `count_leading_zeros(uint16_t)` with LZCNT (bits.hh:129). -/
def countLeadingZeros16Lzcnt (v : BitVec 16) : R Int := .ok (lzcnt v : Int)

/-- `count_leading_zeros(uint8_t)`, MSVC without AVX2 (bits.hh:67-74). -/
def countLeadingZeros8Msvc (v : BitVec 8) : R Int :=
  if v = 0#8 then .ok 8 else do
    let idx ← bitScanReverse (v.setWidth 32)
    pure (((idx ^^^ 31 : Nat) : Int) - 24)

/-- `count_leading_zeros(uint32_t)`, MSVC without AVX2 (bits.hh:83-90); 64 bits: lines 91-98 with
`63` for `31`. -/
def countLeadingZerosMsvc {w : Nat} (v : BitVec w) : R Nat :=
  if v = 0#w then .ok w else do
    let idx ← bitScanReverse v
    pure (idx ^^^ (w - 1))

/-- `bit_log2` (bits.hh:142-143): `uint_t(8 * sizeof(uint_t) - count_leading_zeros(v) - 1)`. The
subtraction happens in `size_t` and is truncated to the width, so it wraps for `v = 0`. -/
def bitLog2 {w : Nat} (v : BitVec w) : R (BitVec w) := do
  let c ← countLeadingZeros v
  pure (BitVec.ofNat w w - BitVec.ofNat w c - 1#w)

/-- `x << s` on an unsigned type of width `w`; a shift by the width or more is undefined. -/
def shl {w : Nat} (x : BitVec w) (s : Nat) : R (BitVec w) :=
  if s < w then .ok (x <<< s) else .error .ub

/-- `x >> s`. -/
def shr {w : Nat} (x : BitVec w) (s : Nat) : R (BitVec w) :=
  if s < w then .ok (x >>> s) else .error .ub

/-- `ceil_pow2` (bits.hh:146-147); `w - 1` is the mask 31 resp. 63. -/
def ceilPow2 {w : Nat} (v : BitVec w) : R (BitVec w) := do
  let l ← bitLog2 (v - 1#w)
  shl 1#w ((l + 1#w) &&& BitVec.ofNat w (w - 1)).toNat

/-- `is_pow2` (bits.hh:150-151). -/
def isPow2 {w : Nat} (v : BitVec w) : Bool := (v &&& (v - 1#w)) == 0#w

/-- `mod_pow2` (bits.hh:154-155). -/
def modPow2 {w : Nat} (v d : BitVec w) : BitVec w := v &&& (d - 1#w)

/-- `div_pow2_floor` (bits.hh:158-159). -/
def divPow2Floor {w : Nat} (v d : BitVec w) : R (BitVec w) := do
  let l ← bitLog2 d
  shr v l.toNat

/-- `div_pow2_ceil` (bits.hh:162-163). -/
def divPow2Ceil {w : Nat} (v d : BitVec w) : R (BitVec w) := do
  let l ← bitLog2 d
  let q ← shr (v - 1#w) l.toNat
  pure (q + 1#w)

/-- The type in which `uintN_t(1) << bit_idx` is computed: `int` (32 bits) for the 8 and 16 bit
overloads, the type itself for 32 and 64 bits. The bit pattern is what matters: `int` and `unsigned`
behave alike (shifting a one into the sign bit is well defined since C++14). -/
def promoted (w : Nat) : Nat := if w < 32 then 32 else w

/-- `uintN_t(1) << bit_idx`. -/
def bitMask (w : Nat) (i : Nat) : R (BitVec (promoted w)) := shl 1#(promoted w) i

/-- `set_bit` (bits.hh:165-168): new value of `val`. -/
def setBit {w : Nat} (v : BitVec w) (i : Nat) : R (BitVec w) := do
  let m ← bitMask w i
  pure ((v.setWidth (promoted w) ||| m).setWidth w)

/-- `unset_bit` (bits.hh:170-173). -/
def unsetBit {w : Nat} (v : BitVec w) (i : Nat) : R (BitVec w) := do
  let m ← bitMask w i
  pure ((v.setWidth (promoted w) &&& ~~~m).setWidth w)

/-- `flip_bit` (bits.hh:175-178). -/
def flipBit {w : Nat} (v : BitVec w) (i : Nat) : R (BitVec w) := do
  let m ← bitMask w i
  pure ((v.setWidth (promoted w) ^^^ m).setWidth w)

/-- `has_bit` (bits.hh:180-183). -/
def hasBit {w : Nat} (v : BitVec w) (i : Nat) : R Bool := do
  let m ← bitMask w i
  pure ((v.setWidth (promoted w) &&& m) != 0#_)

/-! ### utility.hh -/

/-- `align_up_masked` (utility.hh:95-99), `size_t` arithmetic. -/
def alignUpMasked (v mask : BitVec 64) : BitVec 64 := (v + mask) &&& ~~~mask

/-- `align_down_masked` (utility.hh:102-106). -/
def alignDownMasked (v mask : BitVec 64) : BitVec 64 := v &&& ~~~mask

/-- `align_up` (utility.hh:112-116). -/
def alignUp (v a : BitVec 64) : BitVec 64 := alignUpMasked v (a - 1#64)

/-- `align_down` (utility.hh:122-126). -/
def alignDown (v a : BitVec 64) : BitVec 64 := alignDownMasked v (a - 1#64)

/-- `is_aligned` (utility.hh:129-133). -/
def isAligned (v a : BitVec 64) : Bool := 0#64 == (v &&& (a - 1#64))

/-- `int_div_ceil` (utility.hh:62-67) for a signed or unsigned integer type with values in
`lo .. hi`; a result outside is overflow. Division truncates. -/
def intDivCeil (lo hi nom denom : Int) : R Int := do
  ccAssert (decide (nom > 0 ∧ denom > 0))
  let r := 1 + (nom - 1).tdiv denom
  if lo ≤ nom - 1 ∧ nom - 1 ≤ hi ∧ lo ≤ r ∧ r ≤ hi then pure r else .error .ub

/-- `int_ceil_to_multiple` (utility.hh:70-74) for an unsigned type of width `w` (wraps around);
division by zero is undefined. -/
def intCeilToMultiple {w : Nat} (v m : BitVec w) : R (BitVec w) :=
  if m = 0#w then .error .ub else .ok ((v + m - 1#w) / m * m)

/-- `wrapped_increment` (utility.hh:46-51) for an unsigned type. -/
def wrappedIncrement {w : Nat} (pos max : BitVec w) : BitVec w :=
  if pos + 1#w = max then 0#w else pos + 1#w

/-- `wrapped_decrement` (utility.hh:53-58). -/
def wrappedDecrement {w : Nat} (pos max : BitVec w) : R (BitVec w) := do
  ccAssert (decide (0 < max.toNat))
  pure (if pos = 0#w then max - 1#w else pos - 1#w)

/-- `max` (utility.hh:25-29), for any type with `<`. -/
def max {T : Type} (lt : T → T → Bool) (a b : T) : T := if lt a b then b else a

/-- `min` (utility.hh:31-35). -/
def min {T : Type} (lt : T → T → Bool) (a b : T) : T := if lt a b then a else b

/-- `clamp` (utility.hh:37-42). -/
def clamp {T : Type} (lt : T → T → Bool) (v lo hi : T) : R T := do
  ccAssert (!lt hi lo)
  pure (if lt v lo then lo else if lt hi v then hi else v)

end Verif.Bits
