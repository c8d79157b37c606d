import Verif.Xxh3.Model

/-!
Model of the streaming functions of XXH3 (/repo/src/clean-core/detail/xxHash/xxh3.hh:1709-1900, state in xxhash.hh:560-580), 64 bit variant.

A state is identified by a number, its address. The memory a user's secret points to is taken to stay alive and unchanged. `XXH_ACCEPT_NULL_INPUT_POINTER` is not defined. Lengths are those of
data in memory, so `bufferedSize + len` does not wrap around; the total length does.
-/
namespace Verif.Xxh3

/-- `const unsigned char* secret` (xxhash.hh:579): the default secret, the array in the state at an address, or memory of the user. -/
inductive Ptr where
  | default
  | custom (id : Nat)
  | user (m : Mem)
deriving DecidableEq, Repr

/-- `XXH3_state_s` (xxhash.hh:562-580). -/
structure State where
  acc : Acc
  customSecret : Mem
  buffer : Mem
  bufferedSize : Nat
  nbStripesPerBlock : Nat
  nbStripesSoFar : Nat
  secretLimit : Nat
  totalLen : U64
  seed : U64
  secret : Ptr
deriving DecidableEq, Repr

/-- `XXH3_INTERNALBUFFER_SIZE` (xxhash.hh:561). -/
def BUFFER_SIZE : Nat := 256

/-- `XXH3_64bits_reset_internal` (xxh3.hh:1709-1727). `size` is a `size_t`, `secretLimit` has 32 bits. -/
def reset_internal (cfg : Cfg) (seed : U64) (secret : Ptr) (size : Nat) : R State := do
  xassert cfg (decide (SECRET_SIZE_MIN ≤ size))
  let secretLimit := (size + 2 ^ 64 - STRIPE_LEN) % 2 ^ 64 % 2 ^ 32
  .ok { acc := [PRIME32_3.setWidth 64, PRIME64_1, PRIME64_2, PRIME64_3, PRIME64_4, PRIME32_2.setWidth 64, PRIME64_5, PRIME32_1.setWidth 64],
        customSecret := List.replicate SECRET_DEFAULT_SIZE 0#8, buffer := List.replicate BUFFER_SIZE 0#8, bufferedSize := 0,
        nbStripesPerBlock := secretLimit / SECRET_CONSUME_RATE, nbStripesSoFar := 0, secretLimit := secretLimit, totalLen := 0#64, seed := seed, secret := secret }

/-- `XXH3_64bits_reset` (xxh3.hh:1729-1735). -/
def reset (cfg : Cfg) : R State := reset_internal cfg 0#64 .default SECRET_DEFAULT_SIZE

/-- `XXH3_64bits_reset_withSecret` (xxh3.hh:1737-1747) with the whole of `secret`; the second component says whether it returns `XXH_OK`. -/
def reset_withSecret (cfg : Cfg) (secret : Mem) : R (State × Bool) := do
  let s ← reset_internal cfg 0#64 (.user secret) secret.length
  if secret.length < SECRET_SIZE_MIN then .ok (s, false) else .ok (s, true)

/-- `XXH3_64bits_reset_withSeed` (xxh3.hh:1749-1757) on the state at address `id`. -/
def reset_withSeed (cfg : Cfg) (id : Nat) (seed : U64) : R State := do
  let s ← reset_internal cfg seed .default SECRET_DEFAULT_SIZE
  let c ← initCustomSecret cfg s.customSecret seed
  .ok { s with customSecret := c, secret := .custom id }

/-- `XXH3_consumeStripes` (xxh3.hh:1759-1783). -/
def consumeStripes (cfg : Cfg) (wd : Width) (acc : Acc) (soFar perBlock : Nat) (input : Mem) (i total : Nat) (secret : Mem) (secretLimit : Nat) : R (Acc × Nat) := do
  xassert cfg (decide (soFar < perBlock))
  if perBlock - soFar ≤ total then
    let nbStripes := perBlock - soFar
    let acc ← accumulate cfg wd input i secret (soFar * SECRET_CONSUME_RATE) 0 nbStripes acc
    let acc ← scrambleAcc cfg acc secret secretLimit
    let acc ← accumulate cfg wd input (i + nbStripes * STRIPE_LEN) secret 0 0 (total - nbStripes) acc
    .ok (acc, total - nbStripes)
  else
    let acc ← accumulate cfg wd input i secret (soFar * SECRET_CONSUME_RATE) 0 total acc
    .ok (acc, soFar + total)

/-- The loop over full buffer quantities (xxh3.hh:1828-1837), at most `fuel` rounds; returns the position in the input too. -/
def directLoop (cfg : Cfg) (wd : Width) (perBlock : Nat) (input secret : Mem) (secretLimit : Nat) : Nat → Nat → Acc → Nat → R (Acc × Nat × Nat)
  | 0, i, acc, soFar => .ok (acc, soFar, i)
  | fuel + 1, i, acc, soFar =>
    if i + BUFFER_SIZE ≤ input.length then do
      let (acc, soFar) ← consumeStripes cfg wd acc soFar perBlock input i (BUFFER_SIZE / STRIPE_LEN) secret secretLimit
      directLoop cfg wd perBlock input secret secretLimit fuel (i + BUFFER_SIZE) acc soFar
    else .ok (acc, soFar, i)

/-- `XXH3_update` (xxh3.hh:1788-1847) for a state with this secret; `input.length` rounds of the loop are enough. -/
def update (cfg : Cfg) (wd : Width) (s : State) (secret input : Mem) : R State := do
  let s := { s with totalLen := s.totalLen + BitVec.ofNat 64 input.length }
  if s.bufferedSize + input.length ≤ BUFFER_SIZE then
    let b ← copyTo s.buffer s.bufferedSize input
    .ok { s with buffer := b, bufferedSize := s.bufferedSize + input.length }
  else
    let (s, i) ← (if s.bufferedSize ≠ 0 then do
        let loadSize := BUFFER_SIZE - s.bufferedSize
        let d ← slice input 0 loadSize
        let b ← copyTo s.buffer s.bufferedSize d
        let (acc, soFar) ← consumeStripes cfg wd s.acc s.nbStripesSoFar s.nbStripesPerBlock b 0 (BUFFER_SIZE / STRIPE_LEN) secret s.secretLimit
        .ok ({ s with acc := acc, nbStripesSoFar := soFar, buffer := b, bufferedSize := 0 }, loadSize)
      else .ok (s, 0) : R (State × Nat))
    let (acc, soFar, i) ← directLoop cfg wd s.nbStripesPerBlock input secret s.secretLimit input.length i s.acc s.nbStripesSoFar
    let s := { s with acc := acc, nbStripesSoFar := soFar }
    if i < input.length then
      let d ← slice input i (input.length - i)
      let b ← copyTo s.buffer 0 d
      .ok { s with buffer := b, bufferedSize := input.length - i }
    else .ok s

/-- `XXH3_digest_long` (xxh3.hh:1855-1883). -/
def digest_long (cfg : Cfg) (wd : Width) (s : State) (secret : Mem) : R Acc :=
  if STRIPE_LEN ≤ s.bufferedSize then do
    let totalNbStripes := s.bufferedSize / STRIPE_LEN
    let (acc, _) ← consumeStripes cfg wd s.acc s.nbStripesSoFar s.nbStripesPerBlock s.buffer 0 totalNbStripes secret s.secretLimit
    if s.bufferedSize % STRIPE_LEN ≠ 0 then accumulate_512 cfg wd acc s.buffer (s.bufferedSize - STRIPE_LEN) secret (s.secretLimit - 7)
    else .ok acc
  else if s.bufferedSize ≠ 0 then do
    let catchupSize := STRIPE_LEN - s.bufferedSize
    let a ← slice s.buffer (BUFFER_SIZE - catchupSize) catchupSize
    let b ← slice s.buffer 0 s.bufferedSize
    accumulate_512 cfg wd s.acc (a ++ b) 0 secret (s.secretLimit - 7)
  else .ok s.acc

/-- `XXH3_64bits_digest` (xxh3.hh:1885-1898). -/
def digest (cfg : Cfg) (s : State) (secret : Mem) : R U64 :=
  if 240 < s.totalLen.toNat then do
    let acc ← digest_long cfg .bits64 s secret
    mergeAccs cfg acc secret 11 (s.totalLen * PRIME64_1)
  else if s.seed ≠ 0#64 then withSeed cfg s.buffer s.totalLen.toNat s.seed
  else withSecret cfg s.buffer s.totalLen.toNat secret (s.secretLimit + STRIPE_LEN)

/-! ### Programs with several states -/

/-- The states at each address, `none` where there is none or it was not reset yet. -/
abbrev Heap := Nat → Option State

def look (h : Heap) (i : Nat) : R State :=
  match h i with
  | some s => .ok s
  | none => .error .ub

/-- What a pointer points to. -/
def deref (h : Heap) : Ptr → R Mem
  | .default => .ok kSecret
  | .custom i => do
    let s ← look h i
    .ok s.customSecret
  | .user m => .ok m

def put (h : Heap) (i : Nat) (s : Option State) : Heap := fun j => if j = i then s else h j

inductive Op where
  | reset (i : Nat)
  | resetSeed (i : Nat) (seed : U64)
  | resetSecret (i : Nat) (secret : Mem)
  | update (i : Nat) (input : Mem)
  /-- an update with a null pointer -/
  | updateNull (i : Nat)
  | digest (i : Nat)
  | copy (dst src : Nat)
  | free (i : Nat)
deriving DecidableEq, Repr

/-- What the program sees: `XXH_OK` or `XXH_ERROR`, a hash, or nothing. -/
inductive Obs where
  | status (ok : Bool)
  | hash (h : U64)
  | none
deriving DecidableEq, Repr

/-- One call. -/
def step (cfg : Cfg) (h : Heap) : Op → R (Heap × Obs)
  | .reset i => do
    let s ← reset cfg
    .ok (put h i (some s), .status true)
  | .resetSeed i seed => do
    let s ← reset_withSeed cfg i seed
    .ok (put h i (some s), .status true)
  | .resetSecret i secret => do
    let (s, ok) ← reset_withSecret cfg secret
    .ok (put h i (some s), .status ok)
  /- `XXH3_64bits_update` (xxh3.hh:1849-1852) -/
  | .update i input => do
    let s ← look h i
    let secret ← deref h s.secret
    let s ← update cfg .bits64 s secret input
    .ok (put h i (some s), .status true)
  /- xxh3.hh:1790-1795 -/
  | .updateNull _ => .ok (h, .status false)
  | .digest i => do
    let s ← look h i
    let secret ← deref h s.secret
    let v ← digest cfg s secret
    .ok (h, .hash v)
  /- `XXH3_copyState` (xxh3.hh:1707): a `memcpy`, which may not overlap -/
  | .copy d i => do
    if d = i then .error .ub
    else
      let s ← look h i
      .ok (put h d (some s), .none)
  /- `XXH3_freeState` (xxh3.hh:1701-1705) -/
  | .free i => .ok (put h i none, .status true)

def run (cfg : Cfg) (h : Heap) : List Op → R (Heap × List Obs)
  | [] => .ok (h, [])
  | op :: ops => do
    let (h, o) ← step cfg h op
    let (h, os) ← run cfg h ops
    .ok (h, o :: os)

end Verif.Xxh3
