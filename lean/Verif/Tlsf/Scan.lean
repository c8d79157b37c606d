import Verif.Tlsf.Map
/-!
# The bit scans of the TLSF allocator with every compiler

Model of all branches of the conditional compilation in `/repo/src/clean-core/detail/lib/tlsf.cc` 46-202.  The intrinsics of the
compilers are external and have their documented meaning: `__builtin_clz` is undefined for 0, `_CountLeadingZeros`, `__clz` and
`__CLZ32` give 32 for 0, `__builtin_ffs` gives one more than the position of the lowest one and 0 for 0, and `_BitScanForward` and
`_BitScanReverse` tell whether there is a one and store the position of the lowest or highest one.
-/
namespace Verif.Tlsf
open Verif.Bits

/-- The branches (tlsf.cc 46, 48, 70, 90, 108, 124, 142). -/
inductive Compiler where
  | gnu | snc | msvc | msvcPpc | armcc | ghs | generic
  deriving DecidableEq, Repr

/-- `__builtin_ffs`. -/
def builtinFfs (word : BitVec 32) : Nat := if word = 0#32 then 0 else lowestBit word 0 32 + 1

/-- `_BitScanForward(&index, word) ? index : -1` (tlsf.cc 84-88). -/
def scanForward (word : BitVec 32) : Int := if word = 0#32 then -1 else (lowestBit word 0 32 : Int)

/-- `_BitScanReverse(&index, word) ? index : -1` (tlsf.cc 78-82). -/
def scanReverse (word : BitVec 32) : Int := if word = 0#32 then -1 else (word.toNat.log2 : Int)

/-- `word & (~word + 1)` (tlsf.cc 53, 103, 113, 131, 181). -/
def reverse (word : BitVec 32) : BitVec 32 := word &&& (~~~word + 1#32)

/-- One of the tests of `tlsf_fls_generic`: `if (!(word & mask)) { word <<= k; bit -= k; }`. -/
def halve (mask : BitVec 32) (k : Nat) (s : BitVec 32 × Int) : BitVec 32 × Int :=
  if s.1 &&& mask = 0#32 then (s.1 <<< k, s.2 - k) else s

/-- `tlsf_fls_generic` (tlsf.cc 145-178). -/
def flsGeneric (word : BitVec 32) : Int :=
  let s : BitVec 32 × Int := (word, if word = 0#32 then 32 - 1 else 32)
  let s := halve 0xffff0000#32 16 s
  let s := halve 0xff000000#32 8 s
  let s := halve 0xf0000000#32 4 s
  let s := halve 0xc0000000#32 2 s
  let s := halve 0x80000000#32 1 s
  s.2

/-- `tlsf_fls` of every branch (tlsf.cc 64-68, 78-82, 95-99, 118-122, 136-140, 183). -/
def flsOf : Compiler → BitVec 32 → R Int
  | .gnu, w | .snc, w => fls w
  | .msvc, w => .ok (scanReverse w)
  | .msvcPpc, w => .ok (32 - (lzcnt w : Int) - 1)
  | .armcc, w | .ghs, w => .ok ((if w ≠ 0#32 then 32 - (lzcnt w : Int) else 0) - 1)
  | .generic, w => .ok (flsGeneric w - 1)

/-- `tlsf_ffs` of every branch (tlsf.cc 51-56, 60, 84-88, 101-106, 111-116, 129-134, 181). -/
def ffsOf : Compiler → BitVec 32 → R Int
  | .gnu, w => .ok ((builtinFfs w : Int) - 1)
  | .snc, w => do
    let c ← builtinClz (reverse w)
    .ok (32 - (c : Int) - 1)
  | .msvc, w => .ok (scanForward w)
  | .msvcPpc, w | .armcc, w | .ghs, w => .ok (32 - (lzcnt (reverse w) : Int) - 1)
  | .generic, w => .ok (flsGeneric (reverse w) - 1)

/-- `tlsf_fls_sizet` (tlsf.cc 189-202) with `tlsf_fls` of the branch. -/
def flsSizetOf (c : Compiler) (size : BitVec 64) : R Int :=
  let high : BitVec 32 := (size >>> 32).setWidth 32
  if high ≠ 0#32 then do
    let b ← flsOf c high
    pure (32 + b)
  else flsOf c (size.setWidth 32)

end Verif.Tlsf
