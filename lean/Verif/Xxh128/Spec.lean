import Verif.Xxh128.Model
import Verif.Xxh3.StreamSpec
import Verif.Xxh64.Spec

/-!
What XXH128 computes, in the style of Verif/Xxh3/Spec.lean: one formula per range of lengths, without machines, pointers and loops over memory. A hash is a pair of numbers of 64 bits, or one of 128 bits (`num`).
-/
namespace Verif.Xxh128.Spec
open Xxh3 Xxh3.Spec

/-- The 128 bit number. -/
def num (h : Hash) : Nat := h.high64.toNat * 2 ^ 64 + h.low64.toNat

/-- A 128 bit number as a hash. -/
def ofNum (n : Nat) : Hash := ⟨BitVec.ofNat 64 n, BitVec.ofNat 64 (n / 2 ^ 64)⟩

def both (f : U64 → U64) (h : Hash) : Hash := ⟨f h.low64, f h.high64⟩

def empty (sec : Mem) (seed : U64) : Hash := both avalanche ⟨(PRIME64_1 + seed) ^^^ (le64 sec 64 ^^^ le64 sec 72), (PRIME64_2 - seed) ^^^ (le64 sec 80 ^^^ le64 sec 88)⟩

/-- One to three bytes: last byte, length, first byte, middle byte; for the high half in the other order and rotated. -/
def upTo3 (sec : Mem) (seed : U64) (m : Mem) (len : Nat) : Hash :=
  let l : U32 := (at' m (len / 2) ++ at' m 0 ++ BitVec.ofNat 8 len ++ at' m (len - 1) : BitVec 32)
  let h : U32 := (at' m (len - 1) ++ BitVec.ofNat 8 len ++ at' m 0 ++ at' m (len / 2) : BitVec 32).rotateLeft 13
  both avalanche ⟨(l.setWidth 64 ^^^ ((le32 sec 0 ^^^ le32 sec 4).setWidth 64 + seed)) * PRIME64_1,
    (h.setWidth 64 ^^^ ((le32 sec 8 ^^^ le32 sec 12).setWidth 64 - seed)) * PRIME64_5⟩

/-- Four to eight bytes: the first four bytes, then the last four. -/
def upTo8 (sec : Mem) (seed : U64) (m : Mem) (len : Nat) : Hash :=
  let seed : U64 := seed ^^^ ((swap32 (seed.setWidth 32)).setWidth 64 <<< 32)
  let x : U64 := (le32 m (len - 4) ++ le32 m 0 : BitVec 64) ^^^ ((le64 sec 16 ^^^ le64 sec 24) + seed)
  let p := ofNum (x.toNat * (PRIME64_1.toNat + 4 * len))
  let high := p.high64 + p.low64 * 2#64
  let low := xorshift64 (p.low64 ^^^ (high >>> 3)) 35
  ⟨xorshift64 (low * mul4to8) 28, avalanche high⟩

/-- Nine to sixteen bytes: the first eight and the last eight; a 128 bit number, multiplied. -/
def upTo16 (sec : Mem) (seed : U64) (m : Mem) (len : Nat) : Hash :=
  let hi := le64 m (len - 8) ^^^ ((le64 sec 48 ^^^ le64 sec 56) + seed)
  let x := le64 m 0 ^^^ le64 m (len - 8) ^^^ ((le64 sec 32 ^^^ le64 sec 40) - seed)
  let p := ofNum (x.toNat * PRIME64_1.toNat)
  let high := p.high64 + BitVec.ofNat 64 (hi.toNat / 2 ^ 32 * 2 ^ 32 + hi.toNat % 2 ^ 32 * PRIME32_2.toNat)
  let low := (p.low64 + BitVec.ofNat 64 ((len - 1) * 2 ^ 54)) ^^^ swap64 high
  both avalanche (ofNum (num ⟨low, high⟩ * PRIME64_2.toNat))

/-- Sixteen bytes at `i` and sixteen at `j` with 32 of the secret at `s`. -/
def mix32 (sec : Mem) (seed : U64) (m : Mem) (acc : Hash) (i j s : Nat) : Hash :=
  ⟨(acc.low64 + mix sec seed m i s) ^^^ (le64 m j + le64 m (j + 8)), (acc.high64 + mix sec seed m j (s + 16)) ^^^ (le64 m i + le64 m (i + 8))⟩

def start (len : Nat) : Hash := ⟨BitVec.ofNat 64 len * PRIME64_1, 0#64⟩

def finish (acc : Hash) (len : Nat) (seed : U64) : Hash :=
  ⟨avalanche (acc.low64 + acc.high64), - avalanche (acc.low64 * PRIME64_1 + acc.high64 * PRIME64_4 + (BitVec.ofNat 64 len - seed) * PRIME64_2)⟩

/-- Up to 128 bytes: pairs of pieces from the front and from the back, from the middle outwards. -/
def upTo128 (sec : Mem) (seed : U64) (m : Mem) (len : Nat) : Hash :=
  finish ((List.range ((len - 1) / 32 + 1)).reverse.foldl (fun acc k => mix32 sec seed m acc (16 * k) (len - 16 * (k + 1)) (32 * k)) (start len)) len seed

/-- Up to 240 bytes: all pieces of 32 bytes, then the last 32 bytes with the negative seed. -/
def upTo240 (sec : Mem) (seed : U64) (m : Mem) (len : Nat) : Hash :=
  let a := (List.range 4).foldl (fun acc k => mix32 sec seed m acc (32 * k) (32 * k + 16) (32 * k)) (start len)
  let a := (List.range (len / 32 - 4)).foldl (fun acc k => mix32 sec seed m acc (32 * (k + 4)) (32 * (k + 4) + 16) (32 * k + 3)) (both avalanche a)
  finish (mix32 sec (- seed) m a (len - 16) (len - 32) 103) len seed

def short (sec : Mem) (seed : U64) (m : Mem) (len : Nat) : Hash :=
  if len = 0 then empty sec seed
  else if len ≤ 3 then upTo3 sec seed m len
  else if len ≤ 8 then upTo8 sec seed m len
  else if len ≤ 16 then upTo16 sec seed m len
  else if len ≤ 128 then upTo128 sec seed m len
  else upTo240 sec seed m len

/-- More than 240 bytes: the accumulators are merged twice, with the beginning and with the end of the secret. -/
def long (sec : Mem) (size : Nat) (m : Mem) (len : Nat) : Hash :=
  let acc := longAcc .bits128 sec size m len
  ⟨merge sec acc 11 (BitVec.ofNat 64 len * PRIME64_1), merge sec acc (size - 75) (~~~ (BitVec.ofNat 64 len * PRIME64_2))⟩

/-- XXH128 with a seed. -/
def xxh128 (seed : U64) (m : Mem) : Hash :=
  if m.length ≤ 240 then short kSecret seed m m.length else long (seeded seed) 192 m m.length

/-- XXH128 with a secret of one's own. -/
def xxh128Secret (sec : Mem) (m : Mem) : Hash :=
  if m.length ≤ 240 then short sec 0#64 m m.length else long sec sec.length m m.length

/-! ### streaming: sessions and their effects are those of Verif/Xxh3/StreamSpec.lean -/

/-- The hash of a message at once. -/
def hashOf : Key → Mem → Hash
  | .plain, m => xxh128 0#64 m
  | .seed s, m => xxh128 s m
  | .secret k, m => xxh128Secret k m

/-- What the call should return. -/
def obs (v : View) : Op → Obs
  | .updateNull _ => .status false
  | .digest i => match v i with | some s => .hash (hashOf s.key s.msg) | none => .none
  | .copy _ _ => .none
  | _ => .status true

def observations (v : View) : List Op → List Obs
  | [] => []
  | op :: ops => obs v op :: observations (next v op) ops

end Verif.Xxh128.Spec
