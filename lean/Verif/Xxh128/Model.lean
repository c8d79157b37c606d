import Verif.Xxh3.Stream
import Verif.Xxh64.Model

/-!
Model of the 128 bit variant of XXH3, XXH128 (/repo/src/clean-core/detail/xxHash/xxh3.hh:1916-2368): at once, streaming, comparing hashes and their canonical representation.

Memory, machines and the parts shared with the 64 bit variant are those of Verif/Xxh3. A new parameter of the machine is the size of pointers, by which `XXH3_len_9to16_128b` chooses between two formulas.
The checks for null pointers are not modelled, except those in the streaming functions.
-/
namespace Verif.Xxh128
open Xxh3

/-- What is chosen at compile time. -/
structure Cfg extends Xxh3.Cfg where
  /-- `sizeof(void*) < sizeof(xxh_u64)` (xxh3.hh:1999) -/
  ptr32 : Bool
deriving DecidableEq, Repr

/-- `XXH128_hash_t` (xxhash.hh:636-639). -/
structure Hash where
  low64 : U64
  high64 : U64
deriving DecidableEq, Repr

/-- `XXH_rotl32` (xxhash.hh:1028). -/
def rotl32 (x : U32) (r : Nat) : U32 := (x <<< r) ||| (x >>> (32 - r))

/-- `XXH_mult64to128` (xxh3.hh:504-609). -/
def mul128 (cfg : Cfg) (lhs rhs : U64) : Hash :=
  let p := mult64to128 cfg.toCfg lhs rhs
  ⟨p.1, p.2⟩

/-- `XXH3_len_1to3_128b` (xxh3.hh:1916-1945). -/
def len_1to3 (cfg : Cfg) (input : Mem) (len : Nat) (secret : Mem) (seed : U64) : R Hash := do
  xassert cfg.toCfg (decide (1 ≤ len ∧ len ≤ 3))
  let c1 ← rd8 input 0
  let c2 ← rd8 input (len >>> 1)
  let c3 ← rd8 input (len - 1)
  let combinedl : U32 := (c1.setWidth 32 <<< 16) ||| (c2.setWidth 32 <<< 24) ||| (c3.setWidth 32 <<< 0) ||| (BitVec.ofNat 32 len <<< 8)
  let combinedh := rotl32 (swap32 combinedl) 13
  let s0 ← readLE32 cfg.toCfg secret 0
  let s1 ← readLE32 cfg.toCfg secret 4
  let bitflipl : U64 := (s0 ^^^ s1).setWidth 64 + seed
  let s2 ← readLE32 cfg.toCfg secret 8
  let s3 ← readLE32 cfg.toCfg secret 12
  let bitfliph : U64 := (s2 ^^^ s3).setWidth 64 - seed
  let keyed_lo := combinedl.setWidth 64 ^^^ bitflipl
  let keyed_hi := combinedh.setWidth 64 ^^^ bitfliph
  let mixedl := keyed_lo * PRIME64_1
  let mixedh := keyed_hi * PRIME64_5
  .ok ⟨avalanche mixedl, avalanche mixedh⟩

/-- `XXH3_len_4to8_128b` (xxh3.hh:1947-1973). -/
def len_4to8 (cfg : Cfg) (input : Mem) (len : Nat) (secret : Mem) (seed : U64) : R Hash := do
  xassert cfg.toCfg (decide (4 ≤ len ∧ len ≤ 8))
  let seed := seed ^^^ ((swap32 (seed.setWidth 32)).setWidth 64 <<< 32)
  let input_lo ← readLE32 cfg.toCfg input 0
  let input_hi ← readLE32 cfg.toCfg input (len - 4)
  let input_64 : U64 := input_lo.setWidth 64 + (input_hi.setWidth 64 <<< 32)
  let s0 ← readLE64 cfg.toCfg secret 16
  let s1 ← readLE64 cfg.toCfg secret 24
  let bitflip := (s0 ^^^ s1) + seed
  let keyed := input_64 ^^^ bitflip
  let m := mul128 cfg keyed (PRIME64_1 + (BitVec.ofNat 64 len <<< 2))
  let high := m.high64 + (m.low64 <<< 1)
  let low := m.low64 ^^^ (high >>> 3)
  let low := xorshift64 low 35
  let low := low * 0x9FB21C651E98DF25#64
  let low := xorshift64 low 28
  let high := avalanche high
  .ok ⟨low, high⟩

/-- `XXH3_len_9to16_128b` (xxh3.hh:1975-2045). -/
def len_9to16 (cfg : Cfg) (input : Mem) (len : Nat) (secret : Mem) (seed : U64) : R Hash := do
  xassert cfg.toCfg (decide (9 ≤ len ∧ len ≤ 16))
  let s0 ← readLE64 cfg.toCfg secret 32
  let s1 ← readLE64 cfg.toCfg secret 40
  let bitflipl := (s0 ^^^ s1) - seed
  let s2 ← readLE64 cfg.toCfg secret 48
  let s3 ← readLE64 cfg.toCfg secret 56
  let bitfliph := (s2 ^^^ s3) + seed
  let input_lo ← readLE64 cfg.toCfg input 0
  let input_hi ← readLE64 cfg.toCfg input (len - 8)
  let m := mul128 cfg (input_lo ^^^ input_hi ^^^ bitflipl) PRIME64_1
  let low := m.low64 + (BitVec.ofNat 64 (len - 1) <<< 54)
  let input_hi := input_hi ^^^ bitfliph
  let high :=
    if cfg.ptr32 then m.high64 + ((input_hi &&& 0xFFFFFFFF00000000#64) + mult32to64 ((input_hi.setWidth 32).setWidth 64) (PRIME32_2.setWidth 64))
    else m.high64 + (input_hi + mult32to64 ((input_hi.setWidth 32).setWidth 64) ((PRIME32_2 - 1#32).setWidth 64))
  let low := low ^^^ swap64 high
  let h := mul128 cfg low PRIME64_2
  let hh := h.high64 + high * PRIME64_2
  .ok ⟨avalanche h.low64, avalanche hh⟩

/-- `XXH3_len_0to16_128b` (xxh3.hh:2050-2070). -/
def len_0to16 (cfg : Cfg) (input : Mem) (len : Nat) (secret : Mem) (seed : U64) : R Hash := do
  xassert cfg.toCfg (decide (len ≤ 16))
  if len > 8 then len_9to16 cfg input len secret seed
  else if len ≥ 4 then len_4to8 cfg input len secret seed
  else if len ≠ 0 then len_1to3 cfg input len secret seed
  else do
    let s0 ← readLE64 cfg.toCfg secret 64
    let s1 ← readLE64 cfg.toCfg secret 72
    let bitflipl := s0 ^^^ s1
    let s2 ← readLE64 cfg.toCfg secret 80
    let s3 ← readLE64 cfg.toCfg secret 88
    let bitfliph := s2 ^^^ s3
    .ok ⟨avalanche ((PRIME64_1 + seed) ^^^ bitflipl), avalanche ((PRIME64_2 - seed) ^^^ bitfliph)⟩

/-- `XXH128_mix32B` (xxh3.hh:2075-2082) with the offsets of the two parts of the input and of the secret. -/
def mix32B (cfg : Cfg) (acc : Hash) (input : Mem) (i1 i2 : Nat) (secret : Mem) (s : Nat) (seed : U64) : R Hash := do
  let x ← mix16B cfg.toCfg input i1 secret s seed
  let low := acc.low64 + x
  let a ← readLE64 cfg.toCfg input i2
  let b ← readLE64 cfg.toCfg input (i2 + 8)
  let low := low ^^^ (a + b)
  let y ← mix16B cfg.toCfg input i2 secret (s + 16) seed
  let high := acc.high64 + y
  let c ← readLE64 cfg.toCfg input i1
  let d ← readLE64 cfg.toCfg input (i1 + 8)
  let high := high ^^^ (c + d)
  .ok ⟨low, high⟩

/-- The end of both functions for medium lengths (xxh3.hh:2109-2116, 2150-2157). -/
def finish (acc : Hash) (len : Nat) (seed : U64) : Hash :=
  let low := acc.low64 + acc.high64
  let high := acc.low64 * PRIME64_1 + acc.high64 * PRIME64_4 + (BitVec.ofNat 64 len - seed) * PRIME64_2
  ⟨avalanche low, 0#64 - avalanche high⟩

/-- `XXH3_len_17to128_128b` (xxh3.hh:2085-2118); the nested conditions are written one after the other, innermost first. -/
def len_17to128 (cfg : Cfg) (input : Mem) (len : Nat) (secret : Mem) (secretSize : Nat) (seed : U64) : R Hash := do
  xassert cfg.toCfg (decide (SECRET_SIZE_MIN ≤ secretSize))
  xassert cfg.toCfg (decide (16 < len ∧ len ≤ 128))
  let acc : Hash := ⟨BitVec.ofNat 64 len * PRIME64_1, 0#64⟩
  let acc ← if len > 96 then mix32B cfg acc input 48 (len - 64) secret 96 seed else .ok acc
  let acc ← if len > 64 then mix32B cfg acc input 32 (len - 48) secret 64 seed else .ok acc
  let acc ← if len > 32 then mix32B cfg acc input 16 (len - 32) secret 32 seed else .ok acc
  let acc ← mix32B cfg acc input 0 (len - 16) secret 0 seed
  .ok (finish acc len seed)

/-- The loops of `XXH3_len_129to240_128b` (xxh3.hh:2132-2135, 2139-2142): `n` rounds from `i` on, the secret at `32 * (i - d) + o`. -/
def mixLoop (cfg : Cfg) (input secret : Mem) (d o : Nat) (seed : U64) : Nat → Nat → Hash → R Hash
  | _, 0, acc => .ok acc
  | i, n + 1, acc => do
    let acc ← mix32B cfg acc input (32 * i) (32 * i + 16) secret (32 * (i - d) + o) seed
    mixLoop cfg input secret d o seed (i + 1) n acc

/-- `XXH3_len_129to240_128b` (xxh3.hh:2120-2159). -/
def len_129to240 (cfg : Cfg) (input : Mem) (len : Nat) (secret : Mem) (secretSize : Nat) (seed : U64) : R Hash := do
  xassert cfg.toCfg (decide (SECRET_SIZE_MIN ≤ secretSize))
  xassert cfg.toCfg (decide (128 < len ∧ len ≤ 240))
  let nbRounds := len / 32
  let acc : Hash := ⟨BitVec.ofNat 64 len * PRIME64_1, 0#64⟩
  let acc ← mixLoop cfg input secret 0 0 seed 0 4 acc
  let acc : Hash := ⟨avalanche acc.low64, avalanche acc.high64⟩
  xassert cfg.toCfg (decide (4 ≤ nbRounds))
  let acc ← mixLoop cfg input secret 4 3 seed 4 (nbRounds - 4) acc
  let acc ← mix32B cfg acc input (len - 16) (len - 32) secret (SECRET_SIZE_MIN - 17 - 16) (0#64 - seed)
  .ok (finish acc len seed)

/-- `XXH3_hashLong_128b_internal` (xxh3.hh:2161-2177). -/
def hashLong_internal (cfg : Cfg) (input : Mem) (len : Nat) (secret : Mem) (secretSize : Nat) : R Hash := do
  let acc ← hashLong_internal_loop cfg.toCfg .bits128 INIT_ACC input len secret secretSize
  xassert cfg.toCfg (decide (64 + 11 ≤ secretSize))
  let low ← mergeAccs cfg.toCfg acc secret 11 (BitVec.ofNat 64 len * PRIME64_1)
  let high ← mergeAccs cfg.toCfg acc secret (secretSize - 64 - 11) (~~~ (BitVec.ofNat 64 len * PRIME64_2))
  .ok ⟨low, high⟩

/-- `XXH3_hashLong_128b_withSeed` (xxh3.hh:2201-2208). The contents of the new array do not matter, zeros stand for them. -/
def hashLong_withSeed (cfg : Cfg) (input : Mem) (len : Nat) (seed : U64) : R Hash :=
  if seed = 0#64 then hashLong_internal cfg input len kSecret SECRET_DEFAULT_SIZE
  else do
    let secret ← initCustomSecret cfg.toCfg (List.replicate SECRET_DEFAULT_SIZE 0#8) seed
    hashLong_internal cfg input len secret SECRET_DEFAULT_SIZE

/-- `XXH3_128bits` (xxh3.hh:2211-2220). -/
def hash128 (cfg : Cfg) (input : Mem) (len : Nat) : R Hash :=
  if len ≤ 16 then len_0to16 cfg input len kSecret 0#64
  else if len ≤ 128 then len_17to128 cfg input len kSecret SECRET_DEFAULT_SIZE 0#64
  else if len ≤ 240 then len_129to240 cfg input len kSecret SECRET_DEFAULT_SIZE 0#64
  else hashLong_internal cfg input len kSecret SECRET_DEFAULT_SIZE

/-- `XXH3_128bits_withSecret` (xxh3.hh:2222-2238). -/
def withSecret (cfg : Cfg) (input : Mem) (len : Nat) (secret : Mem) (secretSize : Nat) : R Hash := do
  xassert cfg.toCfg (decide (SECRET_SIZE_MIN ≤ secretSize))
  if len ≤ 16 then len_0to16 cfg input len secret 0#64
  else if len ≤ 128 then len_17to128 cfg input len secret secretSize 0#64
  else if len ≤ 240 then len_129to240 cfg input len secret secretSize 0#64
  else hashLong_internal cfg input len secret secretSize

/-- `XXH3_128bits_withSeed` (xxh3.hh:2240-2249). -/
def withSeed (cfg : Cfg) (input : Mem) (len : Nat) (seed : U64) : R Hash :=
  if len ≤ 16 then len_0to16 cfg input len kSecret seed
  else if len ≤ 128 then len_17to128 cfg input len kSecret SECRET_DEFAULT_SIZE seed
  else if len ≤ 240 then len_129to240 cfg input len kSecret SECRET_DEFAULT_SIZE seed
  else hashLong_withSeed cfg input len seed

/-- `XXH128` (xxh3.hh:2251) of a block of memory. -/
def XXH128 (cfg : Cfg) (data : Mem) (seed : U64) : R Hash := withSeed cfg data data.length seed

/-! ### streaming -/

/-- `XXH3_128bits_digest` (xxh3.hh:2301-2322). -/
def digest (cfg : Cfg) (s : State) (secret : Mem) : R Hash :=
  if 240 < s.totalLen.toNat then do
    let acc ← digest_long cfg.toCfg .bits128 s secret
    xassert cfg.toCfg (decide (64 + 11 ≤ s.secretLimit + STRIPE_LEN))
    let low ← mergeAccs cfg.toCfg acc secret 11 (s.totalLen * PRIME64_1)
    let high ← mergeAccs cfg.toCfg acc secret (s.secretLimit + STRIPE_LEN - 64 - 11) (~~~ (s.totalLen * PRIME64_2))
    .ok ⟨low, high⟩
  else if s.seed ≠ 0#64 then withSeed cfg s.buffer s.totalLen.toNat s.seed
  else withSecret cfg s.buffer s.totalLen.toNat secret (s.secretLimit + STRIPE_LEN)

/-- What the program sees: `XXH_OK` or `XXH_ERROR`, a hash, or nothing. -/
inductive Obs where
  | status (ok : Bool)
  | hash (h : Hash)
  | none
deriving DecidableEq, Repr

/-- One call of the 128 bit functions. -/
def step (cfg : Cfg) (h : Heap) : Op → R (Heap × Obs)
  /- `XXH3_128bits_reset` (xxh3.hh:2266-2272): `XXH3_128bits_reset_internal` (2261-2264) is that of the 64 bit variant -/
  | .reset i => do
    let s ← reset_internal cfg.toCfg 0#64 .default SECRET_DEFAULT_SIZE
    .ok (put h i (some s), .status true)
  /- `XXH3_128bits_reset_withSeed` (xxh3.hh:2286-2294) -/
  | .resetSeed i seed => do
    let s ← reset_internal cfg.toCfg seed .default SECRET_DEFAULT_SIZE
    let c ← initCustomSecret cfg.toCfg s.customSecret seed
    .ok (put h i (some { s with customSecret := c, secret := .custom i }), .status true)
  /- `XXH3_128bits_reset_withSecret` (xxh3.hh:2274-2284) -/
  | .resetSecret i secret => do
    let s ← reset_internal cfg.toCfg 0#64 (.user secret) secret.length
    .ok (put h i (some s), .status (decide (SECRET_SIZE_MIN ≤ secret.length)))
  /- `XXH3_128bits_update` (xxh3.hh:2296-2299) -/
  | .update i input => do
    let s ← look h i
    let secret ← deref h s.secret
    let s ← update cfg.toCfg .bits128 s secret input
    .ok (put h i (some s), .status true)
  /- xxh3.hh:1790-1795 -/
  | .updateNull _ => .ok (h, .status false)
  | .digest i => do
    let s ← look h i
    let secret ← deref h s.secret
    let v ← digest cfg s secret
    .ok (h, .hash v)
  /- `XXH3_copyState` (xxh3.hh:1707) -/
  | .copy d i => do
    if d = i then .error .ub
    else
      let s ← look h i
      .ok (put h d (some s), .none)
  /- `XXH3_freeState` (xxh3.hh:1701-1705) -/
  | .free i => .ok (put h i none, .status true)

def run (cfg : Cfg) (h : Heap) : List Op → R (Heap × List Obs)
  | [] => .ok (h, [])
  | op :: ops => do
    let (h, o) ← step cfg h op
    let (h, os) ← run cfg h ops
    .ok (h, o :: os)

/-! ### utilities -/

/-- The bytes of a hash in the memory of the machine: first the low half. -/
def bytes (cfg : Cfg) (h : Hash) : Mem :=
  let store (v : U64) : Mem := if cfg.little then bytesOf v else (bytesOf v).reverse
  store h.low64 ++ store h.high64

/-- `XXH128_isEqual` (xxh3.hh:2329-2333): `memcmp` of the two hashes. -/
def isEqual (cfg : Cfg) (h1 h2 : Hash) : Bool := decide (bytes cfg h1 = bytes cfg h2)

/-- A C++ condition as a number. -/
def toInt (b : Bool) : Int := if b then 1 else 0

/-- `XXH128_cmp` (xxh3.hh:2339-2348). -/
def cmp (h1 h2 : Hash) : Int :=
  let hcmp := toInt (decide (h2.high64 < h1.high64)) - toInt (decide (h1.high64 < h2.high64))
  if hcmp ≠ 0 then hcmp
  else toInt (decide (h2.low64 < h1.low64)) - toInt (decide (h1.low64 < h2.low64))

/-- `XXH128_canonicalFromHash` (xxh3.hh:2352-2362) into the 16 bytes at `dst`. -/
def canonicalFromHash (cfg : Cfg) (dst : Mem) (h : Hash) : R Mem := do
  let high := if cfg.little then swap64 h.high64 else h.high64
  let low := if cfg.little then swap64 h.low64 else h.low64
  let store (v : U64) : Mem := if cfg.little then bytesOf v else (bytesOf v).reverse
  let dst ← copyTo dst 0 (store high)
  copyTo dst 8 (store low)

/-- `XXH_readBE64` (xxhash.hh:1601). -/
def readBE64 (cfg : Cfg) (m : Mem) (i : Nat) : R U64 := do
  let v ← read64 cfg.toCfg m i
  .ok (if cfg.little then swap64 v else v)

/-- `XXH128_hashFromCanonical` (xxh3.hh:2364-2370). -/
def hashFromCanonical (cfg : Cfg) (src : Mem) : R Hash := do
  let high ← readBE64 cfg src 0
  let low ← readBE64 cfg src 8
  .ok ⟨low, high⟩

end Verif.Xxh128
