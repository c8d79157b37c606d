import Verif.Common
import Verif.Bits.Model
/-!
# The size classes of the TLSF allocator

Model of the size arithmetic in `/repo/src/clean-core/detail/lib/tlsf.cc` for the
64-bit configuration (`TLSF_64BIT`, gcc/clang builtins, lines 38-75).  The constants
of lines 209-257 are `SL_INDEX_COUNT_LOG2 = 5`, `ALIGN_SIZE = 8`, `FL_INDEX_MAX = 32`,
`SL_INDEX_COUNT = 32`, `FL_INDEX_SHIFT = 8`, `FL_INDEX_COUNT = 25`,
`SMALL_BLOCK_SIZE = 256`; those of lines 332-350 are `block_header_overhead = 8`,
`block_size_min = 24` and `block_size_max = 2^32`.

`size_t` is a 64-bit word, `int` an integer; a shift by an amount outside the width of
its operand is undefined and so is modelled by the fault `ub`.
-/
namespace Verif.Tlsf
open Verif.Bits

/-- `block_size_min` (tlsf.cc 347). -/
def blockSizeMin : BitVec 64 := 24#64

/-- `block_size_max` (tlsf.cc 348). -/
def blockSizeMax : BitVec 64 := 4294967296#64

/-- `tlsf_fls`, gcc builtin version (tlsf.cc 67-71). -/
def fls (word : BitVec 32) : R Int := do
  let bit : Int ← if word ≠ 0#32 then do
      let c ← builtinClz word
      pure (32 - (c : Int))
    else pure 0
  pure (bit - 1)

/-- `tlsf_fls_sizet` (tlsf.cc 187-201). The conversions to `int` and back to
`unsigned` keep all 32 bits. -/
def flsSizet (size : BitVec 64) : R Int :=
  let high : BitVec 32 := (size >>> 32).setWidth 32
  if high ≠ 0#32 then do
    let b ← fls high
    pure (32 + b)
  else fls (size.setWidth 32)

/-- `x >> k` for a `size_t` and an `int` shift amount. -/
def shrSize (x : BitVec 64) (k : Int) : R (BitVec 64) :=
  if 0 ≤ k ∧ k < 64 then .ok (x >>> k.toNat) else .error .ub

/-- `1 << k` for `int` operands (defined when the result is an `int`). -/
def intShl1 (k : Int) : R Int :=
  if 0 ≤ k ∧ k < 31 then .ok (2 ^ k.toNat) else .error .ub

/-- `align_up` (tlsf.cc 439-443). -/
def alignUp (x align : BitVec 64) : R (BitVec 64) := do
  ccAssert ((align &&& (align - 1#64)) == 0#64)
  pure ((x + (align - 1#64)) &&& ~~~(align - 1#64))

/-- `align_down` (tlsf.cc 445-449). -/
def alignDown (x align : BitVec 64) : R (BitVec 64) := do
  ccAssert ((align &&& (align - 1#64)) == 0#64)
  pure (x - (x &&& (align - 1#64)))

/-- `adjust_request_size` (tlsf.cc 461-475). -/
def adjustRequestSize (size align : BitVec 64) : R (BitVec 64) :=
  if size ≠ 0#64 then do
    let aligned ← alignUp size align
    if aligned < blockSizeMax then
      pure (if aligned > blockSizeMin then aligned else blockSizeMin)
    else pure 0#64
  else pure 0#64

/-- `mapping_insert` (tlsf.cc 482-499); the two output parameters are the result. -/
def mapInsert (size : BitVec 64) : R (Int × Int) :=
  if size < 256#64 then
    pure (0, (size.setWidth 32).toInt / 8)
  else do
    let fl ← flsSizet size
    let sh ← shrSize size (fl - 5)
    let sl := ((sh.setWidth 32) ^^^ 32#32).toInt
    pure (fl - 7, sl)

/-- `mapping_search` (tlsf.cc 502-510). -/
def mapSearch (size : BitVec 64) : R (Int × Int) :=
  if size ≥ 256#64 then do
    let fl ← flsSizet size
    let r ← intShl1 (fl - 5)
    mapInsert (size + BitVec.ofInt 64 (r - 1))
  else mapInsert size

/-- The size computation and the range check of `tlsf_add_pool` (tlsf.cc 932-953):
the size of the pool's first block, or nothing if the pool is refused.  The alignment
check of the memory is left out. -/
def poolBytes (bytes : BitVec 64) : R (Option (BitVec 64)) := do
  let p ← alignDown (bytes - 16#64) 8#64
  if p < blockSizeMin ∨ p > blockSizeMax then pure none else pure (some p)

end Verif.Tlsf
