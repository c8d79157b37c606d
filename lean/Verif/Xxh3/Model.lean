import Verif.Common

/-!
Model of the 64 bit variant of XXH3 behind `cc::make_hash_xxh3` (/repo/src/clean-core/hash.xxh3.cc; detail/xxHash/xxh3.hh, xxhash.hh).

Memory is a list of bytes: a block from its first to its last byte, and reading or writing outside it is undefined behaviour. Pointers into a block are offsets. The machine is a parameter: byte order, 128 bit
multiplication and the vector instructions (scalar, SSE2, AVX2, AVX512; NEON and VSX are not modelled) and whether `XXH_ASSERT` is active. Alignment of the accumulators is
arranged by `XXH_ALIGN` and not modelled; prefetching has no effect on values and is left out. Lengths are natural numbers, below `2^64` in the theorems.
-/
namespace Verif.Xxh3

abbrev Byte := BitVec 8
abbrev U32 := BitVec 32
abbrev U64 := BitVec 64
abbrev Mem := List Byte

/-- `XXH_VECTOR` (xxh3.hh:166-182). -/
inductive Vec where
  | scalar | sse2 | avx2 | avx512
deriving DecidableEq, Repr

/-- What is chosen at compile time. -/
structure Cfg where
  vec : Vec
  /-- `XXH_CPU_LITTLE_ENDIAN` (xxhash.hh:969-1015) -/
  little : Bool
  /-- `__uint128_t` or `_umul128` is there (xxh3.hh:522) -/
  native : Bool
  /-- `DEBUGLEVEL >= 1` (xxhash.hh:890-899) -/
  debug : Bool
deriving DecidableEq, Repr

/-- `XXH_ASSERT` (xxhash.hh:894-899). -/
def xassert (cfg : Cfg) (c : Bool) : R Unit := if cfg.debug then ccAssert c else .ok ()

/-! ### memory -/

def rd8 (m : Mem) (i : Nat) : R Byte :=
  match m[i]? with
  | some b => .ok b
  | none => .error .ub

/-- `XXH_swap32` (xxhash.hh:1032-1041). -/
def swap32 (x : U32) : U32 := (x.extractLsb' 0 8 ++ x.extractLsb' 8 8 ++ x.extractLsb' 16 8 ++ x.extractLsb' 24 8 : BitVec 32)

/-- `XXH_swap64` (xxhash.hh:1567-1578). -/
def swap64 (x : U64) : U64 :=
  (x.extractLsb' 0 8 ++ x.extractLsb' 8 8 ++ x.extractLsb' 16 8 ++ x.extractLsb' 24 8 ++ x.extractLsb' 32 8 ++ x.extractLsb' 40 8
    ++ x.extractLsb' 48 8 ++ x.extractLsb' 56 8 : BitVec 64)

/-- `XXH_read32` (xxhash.hh:919-965): in the byte order of the machine. -/
def read32 (cfg : Cfg) (m : Mem) (i : Nat) : R U32 := do
  let b0 ← rd8 m i
  let b1 ← rd8 m (i + 1)
  let b2 ← rd8 m (i + 2)
  let b3 ← rd8 m (i + 3)
  .ok (if cfg.little then (b3 ++ b2 ++ b1 ++ b0 : BitVec 32) else (b0 ++ b1 ++ b2 ++ b3 : BitVec 32))

/-- `XXH_readLE32` (xxhash.hh:1073). -/
def readLE32 (cfg : Cfg) (m : Mem) (i : Nat) : R U32 := do
  let v ← read32 cfg m i
  .ok (if cfg.little then v else swap32 v)

/-- `XXH_read64` (xxhash.hh:1521-1563). -/
def read64 (cfg : Cfg) (m : Mem) (i : Nat) : R U64 := do
  let b0 ← rd8 m i
  let b1 ← rd8 m (i + 1)
  let b2 ← rd8 m (i + 2)
  let b3 ← rd8 m (i + 3)
  let b4 ← rd8 m (i + 4)
  let b5 ← rd8 m (i + 5)
  let b6 ← rd8 m (i + 6)
  let b7 ← rd8 m (i + 7)
  .ok (if cfg.little then (b7 ++ b6 ++ b5 ++ b4 ++ b3 ++ b2 ++ b1 ++ b0 : BitVec 64)
    else (b0 ++ b1 ++ b2 ++ b3 ++ b4 ++ b5 ++ b6 ++ b7 : BitVec 64))

/-- `XXH_readLE64` (xxhash.hh:1599). -/
def readLE64 (cfg : Cfg) (m : Mem) (i : Nat) : R U64 := do
  let v ← read64 cfg m i
  .ok (if cfg.little then v else swap64 v)

/-- `memcpy` into a block. -/
def copyTo (m : Mem) (i : Nat) (src : Mem) : R Mem :=
  if i + src.length ≤ m.length then .ok (m.take i ++ src ++ m.drop (i + src.length)) else .error .ub

/-- `memcpy` out of a block. -/
def slice (m : Mem) (i n : Nat) : R Mem := if i + n ≤ m.length then .ok ((m.drop i).take n) else .error .ub

/-- The bytes of a 64 bit number from the lowest to the highest. -/
def bytesOf (v : U64) : Mem := (List.range 8).map fun k => v.extractLsb' (8 * k) 8

/-- `XXH_writeLE64` (xxh3.hh:1475-1480). -/
def writeLE64 (cfg : Cfg) (m : Mem) (i : Nat) (v : U64) : R Mem :=
  let v := if cfg.little then v else swap64 v
  copyTo m i (if cfg.little then bytesOf v else (bytesOf v).reverse)

/-! ### constants (xxhash.hh:1100-1104, 1615-1619; xxh3.hh:449-468, 524 of xxhash.hh) -/

def PRIME32_1 : U32 := 0x9E3779B1#32
def PRIME32_2 : U32 := 0x85EBCA77#32
def PRIME32_3 : U32 := 0xC2B2AE3D#32
def PRIME64_1 : U64 := 0x9E3779B185EBCA87#64
def PRIME64_2 : U64 := 0xC2B2AE3D27D4EB4F#64
def PRIME64_3 : U64 := 0x165667B19E3779F9#64
def PRIME64_4 : U64 := 0x85EBCA77C2B2AE63#64
def PRIME64_5 : U64 := 0x27D4EB2F165667C5#64

def SECRET_SIZE_MIN : Nat := 136
def SECRET_DEFAULT_SIZE : Nat := 192
def STRIPE_LEN : Nat := 64
def SECRET_CONSUME_RATE : Nat := 8

/-- `kSecret` (xxh3.hh:456-468). -/
def kSecret : Mem :=
  [0xb8#8, 0xfe#8, 0x6c#8, 0x39#8, 0x23#8, 0xa4#8, 0x4b#8, 0xbe#8, 0x7c#8, 0x01#8, 0x81#8, 0x2c#8, 0xf7#8, 0x21#8, 0xad#8, 0x1c#8, 0xde#8, 0xd4#8, 0x6d#8, 0xe9#8, 0x83#8, 0x90#8, 0x97#8, 0xdb#8,
   0x72#8, 0x40#8, 0xa4#8, 0xa4#8, 0xb7#8, 0xb3#8, 0x67#8, 0x1f#8, 0xcb#8, 0x79#8, 0xe6#8, 0x4e#8, 0xcc#8, 0xc0#8, 0xe5#8, 0x78#8, 0x82#8, 0x5a#8, 0xd0#8, 0x7d#8, 0xcc#8, 0xff#8, 0x72#8, 0x21#8,
   0xb8#8, 0x08#8, 0x46#8, 0x74#8, 0xf7#8, 0x43#8, 0x24#8, 0x8e#8, 0xe0#8, 0x35#8, 0x90#8, 0xe6#8, 0x81#8, 0x3a#8, 0x26#8, 0x4c#8, 0x3c#8, 0x28#8, 0x52#8, 0xbb#8, 0x91#8, 0xc3#8, 0x00#8, 0xcb#8,
   0x88#8, 0xd0#8, 0x65#8, 0x8b#8, 0x1b#8, 0x53#8, 0x2e#8, 0xa3#8, 0x71#8, 0x64#8, 0x48#8, 0x97#8, 0xa2#8, 0x0d#8, 0xf9#8, 0x4e#8, 0x38#8, 0x19#8, 0xef#8, 0x46#8, 0xa9#8, 0xde#8, 0xac#8, 0xd8#8,
   0xa8#8, 0xfa#8, 0x76#8, 0x3f#8, 0xe3#8, 0x9c#8, 0x34#8, 0x3f#8, 0xf9#8, 0xdc#8, 0xbb#8, 0xc7#8, 0xc7#8, 0x0b#8, 0x4f#8, 0x1d#8, 0x8a#8, 0x51#8, 0xe0#8, 0x4b#8, 0xcd#8, 0xb4#8, 0x59#8, 0x31#8,
   0xc8#8, 0x9f#8, 0x7e#8, 0xc9#8, 0xd9#8, 0x78#8, 0x73#8, 0x64#8, 0xea#8, 0xc5#8, 0xac#8, 0x83#8, 0x34#8, 0xd3#8, 0xeb#8, 0xc3#8, 0xc5#8, 0x81#8, 0xa0#8, 0xff#8, 0xfa#8, 0x13#8, 0x63#8, 0xeb#8,
   0x17#8, 0x0d#8, 0xdd#8, 0x51#8, 0xb7#8, 0xf0#8, 0xda#8, 0x49#8, 0xd3#8, 0x16#8, 0x55#8, 0x26#8, 0x29#8, 0xd4#8, 0x68#8, 0x9e#8, 0x2b#8, 0x16#8, 0xbe#8, 0x58#8, 0x7d#8, 0x47#8, 0xa1#8, 0xfc#8,
   0x8f#8, 0xf8#8, 0xb8#8, 0xd1#8, 0x7a#8, 0xd0#8, 0x31#8, 0xce#8, 0x45#8, 0xcb#8, 0x3a#8, 0x8f#8, 0x95#8, 0x16#8, 0x04#8, 0x28#8, 0xaf#8, 0xd7#8, 0xfb#8, 0xca#8, 0xbb#8, 0x4b#8, 0x40#8, 0x7e#8]

/-! ### arithmetic -/

/-- `XXH_mult32to64` (xxh3.hh:496). -/
def mult32to64 (x y : U64) : U64 := (x.setWidth 32).setWidth 64 * (y.setWidth 32).setWidth 64

/-- `XXH_mult64to128` (xxh3.hh:504-609): the low and the high half. -/
def mult64to128 (cfg : Cfg) (lhs rhs : U64) : U64 × U64 :=
  if cfg.native then
    let product : BitVec 128 := lhs.setWidth 128 * rhs.setWidth 128
    (product.setWidth 64, (product >>> 64).setWidth 64)
  else
    let lo_lo := mult32to64 (lhs &&& 0xFFFFFFFF#64) (rhs &&& 0xFFFFFFFF#64)
    let hi_lo := mult32to64 (lhs >>> 32) (rhs &&& 0xFFFFFFFF#64)
    let lo_hi := mult32to64 (lhs &&& 0xFFFFFFFF#64) (rhs >>> 32)
    let hi_hi := mult32to64 (lhs >>> 32) (rhs >>> 32)
    let cross := (lo_lo >>> 32) + (hi_lo &&& 0xFFFFFFFF#64) + lo_hi
    let upper := (hi_lo >>> 32) + (cross >>> 32) + hi_hi
    let lower := (cross <<< 32) ||| (lo_lo &&& 0xFFFFFFFF#64)
    (lower, upper)

/-- `XXH3_mul128_fold64` (xxh3.hh:616-620). -/
def mul128_fold64 (cfg : Cfg) (lhs rhs : U64) : U64 :=
  let product := mult64to128 cfg lhs rhs
  product.1 ^^^ product.2

/-- `XXH_xorshift64` (xxh3.hh:623-627). -/
def xorshift64 (v : U64) (shift : Nat) : U64 := v ^^^ (v >>> shift)

/-- `XXH_rotl64` (xxhash.hh:1029). -/
def rotl64 (x : U64) (r : Nat) : U64 := (x <<< r) ||| (x >>> (64 - r))

/-- `XXH3_avalanche` (xxh3.hh:634-640). -/
def avalanche (h : U64) : U64 := xorshift64 (xorshift64 h 37 * 0x165667919E3779F9#64) 32

/-! ### short keys -/

/-- `XXH3_len_1to3_64b` (xxh3.hh:676-696). -/
def len_1to3 (cfg : Cfg) (input : Mem) (len : Nat) (secret : Mem) (seed : U64) : R U64 := do
  xassert cfg (decide (1 ≤ len ∧ len ≤ 3))
  let c1 ← rd8 input 0
  let c2 ← rd8 input (len >>> 1)
  let c3 ← rd8 input (len - 1)
  let combined : U32 := (c1.setWidth 32 <<< 16) ||| (c2.setWidth 32 <<< 24) ||| (c3.setWidth 32 <<< 0) ||| (BitVec.ofNat 32 len <<< 8)
  let s0 ← readLE32 cfg secret 0
  let s1 ← readLE32 cfg secret 4
  let bitflip : U64 := (s0 ^^^ s1).setWidth 64 + seed
  let keyed := combined.setWidth 64 ^^^ bitflip
  let mixed := keyed * PRIME64_1
  .ok (avalanche mixed)

/-- `XXH3_len_4to8_64b` (xxh3.hh:698-717). -/
def len_4to8 (cfg : Cfg) (input : Mem) (len : Nat) (secret : Mem) (seed : U64) : R U64 := do
  xassert cfg (decide (4 ≤ len ∧ len < 8))
  let seed := seed ^^^ ((swap32 (seed.setWidth 32)).setWidth 64 <<< 32)
  let input1 ← readLE32 cfg input 0
  let input2 ← readLE32 cfg input (len - 4)
  let s0 ← readLE64 cfg secret 8
  let s1 ← readLE64 cfg secret 16
  let bitflip := (s0 ^^^ s1) - seed
  let input64 : U64 := input2.setWidth 64 + (input1.setWidth 64 <<< 32)
  let x := input64 ^^^ bitflip
  let x := x ^^^ (rotl64 x 49 ^^^ rotl64 x 24)
  let x := x * 0x9FB21C651E98DF25#64
  let x := x ^^^ ((x >>> 35) + BitVec.ofNat 64 len)
  let x := x * 0x9FB21C651E98DF25#64
  .ok (xorshift64 x 28)

/-- `XXH3_len_9to16_64b` (xxh3.hh:719-732). -/
def len_9to16 (cfg : Cfg) (input : Mem) (len : Nat) (secret : Mem) (seed : U64) : R U64 := do
  xassert cfg (decide (8 ≤ len ∧ len ≤ 16))
  let s0 ← readLE64 cfg secret 24
  let s1 ← readLE64 cfg secret 32
  let bitflip1 := (s0 ^^^ s1) + seed
  let s2 ← readLE64 cfg secret 40
  let s3 ← readLE64 cfg secret 48
  let bitflip2 := (s2 ^^^ s3) - seed
  let i0 ← readLE64 cfg input 0
  let input_lo := i0 ^^^ bitflip1
  let i1 ← readLE64 cfg input (len - 8)
  let input_hi := i1 ^^^ bitflip2
  let acc := BitVec.ofNat 64 len + swap64 input_lo + input_hi + mul128_fold64 cfg input_lo input_hi
  .ok (avalanche acc)

/-- `XXH3_len_0to16_64b` (xxh3.hh:734-746). -/
def len_0to16 (cfg : Cfg) (input : Mem) (len : Nat) (secret : Mem) (seed : U64) : R U64 := do
  xassert cfg (decide (len ≤ 16))
  if len > 8 then len_9to16 cfg input len secret seed
  else if len ≥ 4 then len_4to8 cfg input len secret seed
  else if len ≠ 0 then len_1to3 cfg input len secret seed
  else do
    let s0 ← readLE64 cfg secret 56
    let s1 ← readLE64 cfg secret 64
    .ok (avalanche ((PRIME64_1 + seed) ^^^ (s0 ^^^ s1)))

/-- `XXH3_mix16B` (xxh3.hh:774-801) at offset `i` of the input and `s` of the secret. -/
def mix16B (cfg : Cfg) (input : Mem) (i : Nat) (secret : Mem) (s : Nat) (seed : U64) : R U64 := do
  let input_lo ← readLE64 cfg input i
  let input_hi ← readLE64 cfg input (i + 8)
  let s0 ← readLE64 cfg secret s
  let s1 ← readLE64 cfg secret (s + 8)
  .ok (mul128_fold64 cfg (input_lo ^^^ (s0 + seed)) (input_hi ^^^ (s1 - seed)))

/-- Two calls of `XXH3_mix16B` added to `acc` (the lines of xxh3.hh:818-830). -/
def mixTwo (cfg : Cfg) (input : Mem) (i j : Nat) (secret : Mem) (s t : Nat) (seed acc : U64) : R U64 := do
  let a ← mix16B cfg input i secret s seed
  let acc := acc + a
  let b ← mix16B cfg input j secret t seed
  .ok (acc + b)

/-- `XXH3_len_17to128_64b` (xxh3.hh:804-832); the nested conditions are written one after the other, innermost first. -/
def len_17to128 (cfg : Cfg) (input : Mem) (len : Nat) (secret : Mem) (secretSize : Nat) (seed : U64) : R U64 := do
  xassert cfg (decide (SECRET_SIZE_MIN ≤ secretSize))
  xassert cfg (decide (16 < len ∧ len ≤ 128))
  let acc := BitVec.ofNat 64 len * PRIME64_1
  let acc ← if len > 96 then mixTwo cfg input 48 (len - 64) secret 96 112 seed acc else .ok acc
  let acc ← if len > 64 then mixTwo cfg input 32 (len - 48) secret 64 80 seed acc else .ok acc
  let acc ← if len > 32 then mixTwo cfg input 16 (len - 32) secret 32 48 seed acc else .ok acc
  let acc ← mixTwo cfg input 0 (len - 16) secret 0 16 seed acc
  .ok (avalanche acc)

/-- The loops of `XXH3_len_129to240_64b` (xxh3.hh:850-853, 876-879): `n` rounds from `i` on, the secret at `16 * (i - d) + o`. -/
def mixLoop (cfg : Cfg) (input secret : Mem) (d o : Nat) (seed : U64) : Nat → Nat → U64 → R U64
  | _, 0, acc => .ok acc
  | i, n + 1, acc => do
    let x ← mix16B cfg input (16 * i) secret (16 * (i - d) + o) seed
    mixLoop cfg input secret d o seed (i + 1) n (acc + x)

/-- `XXH3_len_129to240_64b` (xxh3.hh:836-884). -/
def len_129to240 (cfg : Cfg) (input : Mem) (len : Nat) (secret : Mem) (secretSize : Nat) (seed : U64) : R U64 := do
  xassert cfg (decide (SECRET_SIZE_MIN ≤ secretSize))
  xassert cfg (decide (128 < len ∧ len ≤ 240))
  let acc := BitVec.ofNat 64 len * PRIME64_1
  let nbRounds := len / 16
  let acc ← mixLoop cfg input secret 0 0 seed 0 8 acc
  let acc := avalanche acc
  xassert cfg (decide (8 ≤ nbRounds))
  let acc ← mixLoop cfg input secret 8 3 seed 8 (nbRounds - 8) acc
  let x ← mix16B cfg input (len - 16) secret (SECRET_SIZE_MIN - 17) seed
  .ok (avalanche (acc + x))

/-! ### vector registers: their 32 bit lanes from the lowest on -/

abbrev Reg := List U32

/-- `_mm_loadu_si128` and its wider forms: `n` lanes. The machines with these registers are little endian. -/
def loadu (m : Mem) (i : Nat) : Nat → R Reg
  | 0 => .ok []
  | n + 1 => do
    let b0 ← rd8 m i
    let b1 ← rd8 m (i + 1)
    let b2 ← rd8 m (i + 2)
    let b3 ← rd8 m (i + 3)
    let r ← loadu m (i + 4) n
    .ok ((b3 ++ b2 ++ b1 ++ b0 : BitVec 32) :: r)

/-- The lanes of 64 bit numbers, as they lie in memory. -/
def split : List U64 → Reg
  | [] => []
  | x :: xs => x.setWidth 32 :: (x >>> 32).setWidth 32 :: split xs

def join : Reg → List U64
  | a :: b :: r => (b ++ a : BitVec 64) :: join r
  | _ => []

/-- `_mm_xor_si128` -/
def xorR (x y : Reg) : Reg := List.zipWith (· ^^^ ·) x y

/-- `_mm_add_epi64` -/
def add64 (x y : Reg) : Reg := split (List.zipWith (· + ·) (join x) (join y))

/-- `_mm_mul_epu32`: the lower halves of the 64 bit lanes. -/
def mulEpu32 (x y : Reg) : Reg := split (List.zipWith (fun a b => (a.setWidth 32).setWidth 64 * (b.setWidth 32).setWidth 64) (join x) (join y))

/-- `_mm_srli_epi64` -/
def srli64 (x : Reg) (n : Nat) : Reg := split ((join x).map fun (a : U64) => a >>> n)

/-- `_mm_slli_epi64` -/
def slli64 (x : Reg) (n : Nat) : Reg := split ((join x).map fun (a : U64) => a <<< n)

/-- `_mm_shuffle_epi32(x, _MM_SHUFFLE(d3, d2, d1, d0))`: in each group of four lanes, lane `k` of the result is lane `dk`. -/
def shuffle (d3 d2 d1 d0 : Fin 4) : Reg → Reg
  | a :: b :: c :: d :: r => let v := [a, b, c, d]; v.get d0 :: v.get d1 :: v.get d2 :: v.get d3 :: shuffle d3 d2 d1 d0 r
  | _ => []

/-! ### long keys -/

/-- The eight accumulators. -/
abbrev Acc := List U64

/-- `XXH3_accWidth_e` (xxh3.hh:897-901). -/
inductive Width where
  | bits64 | bits128
deriving DecidableEq, Repr

def getA (acc : Acc) (k : Nat) : R U64 :=
  match acc[k]? with
  | some x => .ok x
  | none => .error .ub

/-- `xacc[k] += v` -/
def addA (acc : Acc) (k : Nat) (v : U64) : R Acc := do
  let x ← getA acc k
  .ok (acc.set k (x + v))

/-- The scalar loop of `XXH3_accumulate_512` (xxh3.hh:1123-1146), `n` steps from `k` on. -/
def accScalar (cfg : Cfg) (wd : Width) (input : Mem) (i : Nat) (secret : Mem) (s : Nat) : Nat → Nat → Acc → R Acc
  | _, 0, acc => .ok acc
  | k, n + 1, acc => do
    let data_val ← readLE64 cfg input (i + 8 * k)
    let key ← readLE64 cfg secret (s + k * 8)
    let data_key := data_val ^^^ key
    let acc ← match wd with
      | .bits64 => addA acc k data_val
      | .bits128 => addA acc (k ^^^ 1) data_val
    let acc ← addA acc k (mult32to64 (data_key &&& 0xFFFFFFFF#64) (data_key >>> 32))
    accScalar cfg wd input i secret s (k + 1) n acc

/-- The register of `w` accumulators at index `r`. -/
def loadA (acc : Acc) (w r : Nat) : R Reg :=
  if (r + 1) * w ≤ acc.length then .ok (split ((acc.drop (r * w)).take w)) else .error .ub

def storeA (acc : Acc) (w r : Nat) (x : Reg) : Acc := acc.take (r * w) ++ join x ++ acc.drop ((r + 1) * w)

/-- The loops of `XXH3_accumulate_512` with registers of `w` 64 bit lanes (AVX512 xxh3.hh:927-959, AVX2 961-1003, SSE2 1004-1046), `n` registers from `r` on. -/
def accSimd (wd : Width) (w : Nat) (input : Mem) (i : Nat) (secret : Mem) (s : Nat) : Nat → Nat → Acc → R Acc
  | _, 0, acc => .ok acc
  | r, n + 1, acc => do
    let data_vec ← loadu input (i + 8 * w * r) (2 * w)
    let key_vec ← loadu secret (s + 8 * w * r) (2 * w)
    let data_key := xorR data_vec key_vec
    let data_key_lo := shuffle 0 3 0 1 data_key
    let product := mulEpu32 data_key data_key_lo
    let x ← loadA acc w r
    let sum := match wd with
      | .bits128 => add64 x (shuffle 1 0 3 2 data_vec)
      | .bits64 => add64 x data_vec
    accSimd wd w input i secret s (r + 1) n (storeA acc w r (add64 product sum))

/-- `XXH3_accumulate_512` (xxh3.hh:925-1147). -/
def accumulate_512 (cfg : Cfg) (wd : Width) (acc : Acc) (input : Mem) (i : Nat) (secret : Mem) (s : Nat) : R Acc :=
  match cfg.vec with
  | .scalar => accScalar cfg wd input i secret s 0 8 acc
  | .sse2 => accSimd wd 2 input i secret s 0 4 acc
  | .avx2 => accSimd wd 4 input i secret s 0 2 acc
  | .avx512 => accSimd wd 8 input i secret s 0 1 acc

/-- The scalar loop of `XXH3_scrambleAcc` (xxh3.hh:1337-1351). -/
def scrScalar (cfg : Cfg) (secret : Mem) (s : Nat) : Nat → Nat → Acc → R Acc
  | _, 0, acc => .ok acc
  | k, n + 1, acc => do
    let key64 ← readLE64 cfg secret (s + 8 * k)
    let a ← getA acc k
    let a := xorshift64 a 47
    let a := a ^^^ key64
    let a := a * PRIME32_1.setWidth 64
    scrScalar cfg secret s (k + 1) n (acc.set k a)

/-- The loops of `XXH3_scrambleAcc` with registers of `w` 64 bit lanes (AVX512 xxh3.hh:1171-1193, AVX2 1194-1222, SSE2 1223-1252). -/
def scrSimd (w : Nat) (secret : Mem) (s : Nat) : Nat → Nat → Acc → R Acc
  | _, 0, acc => .ok acc
  | r, n + 1, acc => do
    let acc_vec ← loadA acc w r
    let shifted := srli64 acc_vec 47
    let data_vec := xorR acc_vec shifted
    let key_vec ← loadu secret (s + 8 * w * r) (2 * w)
    let data_key := xorR data_vec key_vec
    let data_key_hi := shuffle 0 3 0 1 data_key
    let prime32 := List.replicate (2 * w) PRIME32_1
    let prod_lo := mulEpu32 data_key prime32
    let prod_hi := mulEpu32 data_key_hi prime32
    scrSimd w secret s (r + 1) n (storeA acc w r (add64 prod_lo (slli64 prod_hi 32)))

/-- `XXH3_scrambleAcc` (xxh3.hh:1169-1354). -/
def scrambleAcc (cfg : Cfg) (acc : Acc) (secret : Mem) (s : Nat) : R Acc :=
  match cfg.vec with
  | .scalar => scrScalar cfg secret s 0 8 acc
  | .sse2 => scrSimd 2 secret s 0 4 acc
  | .avx2 => scrSimd 4 secret s 0 2 acc
  | .avx512 => scrSimd 8 secret s 0 1 acc

/-- `XXH3_accumulate` (xxh3.hh:1371-1387): stripes `k` to `k + n - 1`. -/
def accumulate (cfg : Cfg) (wd : Width) (input : Mem) (i : Nat) (secret : Mem) (s : Nat) : Nat → Nat → Acc → R Acc
  | _, 0, acc => .ok acc
  | k, n + 1, acc => do
    let acc ← accumulate_512 cfg wd acc input (i + k * STRIPE_LEN) secret (s + k * SECRET_CONSUME_RATE)
    accumulate cfg wd input i secret s (k + 1) n acc

/-- The loop over full blocks (xxh3.hh:1400-1404). -/
def blockLoop (cfg : Cfg) (wd : Width) (input secret : Mem) (secretSize nb_rounds block_len : Nat) : Nat → Nat → Acc → R Acc
  | _, 0, acc => .ok acc
  | b, n + 1, acc => do
    let acc ← accumulate cfg wd input (b * block_len) secret 0 0 nb_rounds acc
    let acc ← scrambleAcc cfg acc secret (secretSize - STRIPE_LEN)
    blockLoop cfg wd input secret secretSize nb_rounds block_len (b + 1) n acc

/-- `XXH3_hashLong_internal_loop` (xxh3.hh:1389-1422). -/
def hashLong_internal_loop (cfg : Cfg) (wd : Width) (acc : Acc) (input : Mem) (len : Nat) (secret : Mem) (secretSize : Nat) : R Acc := do
  let nb_rounds := (secretSize - STRIPE_LEN) / SECRET_CONSUME_RATE
  let block_len := STRIPE_LEN * nb_rounds
  let nb_blocks := len / block_len
  xassert cfg (decide (SECRET_SIZE_MIN ≤ secretSize))
  let acc ← blockLoop cfg wd input secret secretSize nb_rounds block_len 0 nb_blocks acc
  xassert cfg (decide (STRIPE_LEN < len))
  let nbStripes := (len - block_len * nb_blocks) / STRIPE_LEN
  xassert cfg (decide (nbStripes ≤ secretSize / SECRET_CONSUME_RATE))
  let acc ← accumulate cfg wd input (nb_blocks * block_len) secret 0 0 nbStripes acc
  if len &&& (STRIPE_LEN - 1) ≠ 0 then
    accumulate_512 cfg wd acc input (len - STRIPE_LEN) secret (secretSize - STRIPE_LEN - 7)
  else .ok acc

/-- `XXH3_mix2Accs` (xxh3.hh:1424-1427). -/
def mix2Accs (cfg : Cfg) (acc : Acc) (a : Nat) (secret : Mem) (s : Nat) : R U64 := do
  let a0 ← getA acc a
  let s0 ← readLE64 cfg secret s
  let a1 ← getA acc (a + 1)
  let s1 ← readLE64 cfg secret (s + 8)
  .ok (mul128_fold64 cfg (a0 ^^^ s0) (a1 ^^^ s1))

/-- The loop of `XXH3_mergeAccs` (xxh3.hh:1434-1451). -/
def mergeLoop (cfg : Cfg) (acc : Acc) (secret : Mem) (s : Nat) : Nat → Nat → U64 → R U64
  | _, 0, r => .ok r
  | k, n + 1, r => do
    let x ← mix2Accs cfg acc (2 * k) secret (s + 16 * k)
    mergeLoop cfg acc secret s (k + 1) n (r + x)

/-- `XXH3_mergeAccs` (xxh3.hh:1429-1454). -/
def mergeAccs (cfg : Cfg) (acc : Acc) (secret : Mem) (s : Nat) (start : U64) : R U64 := do
  let r ← mergeLoop cfg acc secret s 0 4 start
  .ok (avalanche r)

/-- `XXH3_INIT_ACC` (xxh3.hh:1456-1459). -/
def INIT_ACC : Acc :=
  [PRIME32_3.setWidth 64, PRIME64_1, PRIME64_2, PRIME64_3, PRIME64_4, PRIME32_2.setWidth 64, PRIME64_5, PRIME32_1.setWidth 64]

/-- `XXH3_hashLong_64b_internal` (xxh3.hh:1461-1473). -/
def hashLong_internal (cfg : Cfg) (input : Mem) (len : Nat) (secret : Mem) (secretSize : Nat) : R U64 := do
  let acc ← hashLong_internal_loop cfg .bits64 INIT_ACC input len secret secretSize
  xassert cfg (decide (64 + 11 ≤ secretSize))
  mergeAccs cfg acc secret 11 (BitVec.ofNat 64 len * PRIME64_1)

/-- The loop of `XXH3_initCustomSecret` (xxh3.hh:1532-1545). -/
def secretLoop (cfg : Cfg) (seed : U64) : Nat → Nat → Mem → R Mem
  | _, 0, m => .ok m
  | i, n + 1, m => do
    let a ← readLE64 cfg kSecret (16 * i)
    let lo := a + seed
    let b ← readLE64 cfg kSecret (16 * i + 8)
    let hi := b - seed
    let m ← writeLE64 cfg m (16 * i) lo
    let m ← writeLE64 cfg m (16 * i + 8) hi
    secretLoop cfg seed (i + 1) n m

/-- `XXH3_initCustomSecret` (xxh3.hh:1485-1546), writing to `m`. -/
def initCustomSecret (cfg : Cfg) (m : Mem) (seed : U64) : R Mem := secretLoop cfg seed 0 (SECRET_DEFAULT_SIZE / 16) m

/-- `XXH3_hashLong_64b_withSeed` (xxh3.hh:1553-1585). The contents of the new array do not matter, zeros stand for them. -/
def hashLong_withSeed (cfg : Cfg) (input : Mem) (len : Nat) (seed : U64) : R U64 :=
  if seed = 0#64 then hashLong_internal cfg input len kSecret SECRET_DEFAULT_SIZE
  else do
    let secret ← initCustomSecret cfg (List.replicate SECRET_DEFAULT_SIZE 0#8) seed
    hashLong_internal cfg input len secret SECRET_DEFAULT_SIZE

/-- `XXH3_64bits_withSecret` (xxh3.hh:1600-1616). -/
def withSecret (cfg : Cfg) (input : Mem) (len : Nat) (secret : Mem) (secretSize : Nat) : R U64 := do
  xassert cfg (decide (SECRET_SIZE_MIN ≤ secretSize))
  if len ≤ 16 then len_0to16 cfg input len secret 0#64
  else if len ≤ 128 then len_17to128 cfg input len secret secretSize 0#64
  else if len ≤ 240 then len_129to240 cfg input len secret secretSize 0#64
  else hashLong_internal cfg input len secret secretSize

/-- `XXH3_64bits` (xxh3.hh:1589-1598). -/
def hash64 (cfg : Cfg) (input : Mem) (len : Nat) : R U64 :=
  if len ≤ 16 then len_0to16 cfg input len kSecret 0#64
  else if len ≤ 128 then len_17to128 cfg input len kSecret SECRET_DEFAULT_SIZE 0#64
  else if len ≤ 240 then len_129to240 cfg input len kSecret SECRET_DEFAULT_SIZE 0#64
  else hashLong_internal cfg input len kSecret SECRET_DEFAULT_SIZE

/-- `XXH3_64bits_withSeed` (xxh3.hh:1618-1627). -/
def withSeed (cfg : Cfg) (input : Mem) (len : Nat) (seed : U64) : R U64 :=
  if len ≤ 16 then len_0to16 cfg input len kSecret seed
  else if len ≤ 128 then len_17to128 cfg input len kSecret SECRET_DEFAULT_SIZE seed
  else if len ≤ 240 then len_129to240 cfg input len kSecret SECRET_DEFAULT_SIZE seed
  else hashLong_withSeed cfg input len seed

/-- `cc::make_hash_xxh3` (hash.xxh3.cc:5). -/
def make_hash_xxh3 (cfg : Cfg) (data : Mem) (seed : U64) : R U64 := withSeed cfg data data.length seed

end Verif.Xxh3
