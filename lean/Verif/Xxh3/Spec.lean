import Verif.Xxh3.Model

/-!
What XXH3 computes, without machines, pointers and loops: numbers are read from the message in little endian order, and one formula per range of lengths says which parts of the message and of the secret are combined.
The constants and the final mixing functions (`avalanche`, `xorshift64`, `rotl64`, `swap32`, `swap64`) are those of Model.lean; they are one line each.
-/
namespace Verif.Xxh3.Spec

/-- Byte `i` of a message. -/
def at' (m : Mem) (i : Nat) : Byte := m.getD i 0#8

/-- The 32 bit number whose lowest byte is byte `i`. -/
def le32 (m : Mem) (i : Nat) : U32 := (at' m (i + 3) ++ at' m (i + 2) ++ at' m (i + 1) ++ at' m i : BitVec 32)

/-- The 64 bit number whose lowest byte is byte `i`. -/
def le64 (m : Mem) (i : Nat) : U64 :=
  (at' m (i + 7) ++ at' m (i + 6) ++ at' m (i + 5) ++ at' m (i + 4) ++ at' m (i + 3) ++ at' m (i + 2) ++ at' m (i + 1) ++ at' m i : BitVec 64)

/-- The bytes of a number, lowest first. -/
def toBytes (v : U64) : Mem := (List.range 8).map fun k => BitVec.ofNat 8 (v.toNat / 256 ^ k)

/-- The two halves of the product, combined. -/
def fold (a b : U64) : U64 := BitVec.ofNat 64 (a.toNat * b.toNat) ^^^ BitVec.ofNat 64 (a.toNat * b.toNat / 2 ^ 64)

def sum (n : Nat) (f : Nat → U64) : U64 := (List.range n).foldl (fun a i => a + f i) 0#64

/-- Sixteen bytes of the message at `i` with sixteen of the secret at `s`. -/
def mix (sec : Mem) (seed : U64) (m : Mem) (i s : Nat) : U64 :=
  fold (le64 m i ^^^ (le64 sec s + seed)) (le64 m (i + 8) ^^^ (le64 sec (s + 8) - seed))

def empty (sec : Mem) (seed : U64) : U64 := avalanche ((PRIME64_1 + seed) ^^^ (le64 sec 56 ^^^ le64 sec 64))

/-- One to three bytes: last byte, length, first byte, middle byte. -/
def upTo3 (sec : Mem) (seed : U64) (m : Mem) (len : Nat) : U64 :=
  let combined : U32 := (at' m (len / 2) ++ at' m 0 ++ BitVec.ofNat 8 len ++ at' m (len - 1) : BitVec 32)
  avalanche ((combined.setWidth 64 ^^^ ((le32 sec 0 ^^^ le32 sec 4).setWidth 64 + seed)) * PRIME64_1)

def mul4to8 : U64 := 0x9FB21C651E98DF25#64

/-- Four to eight bytes: the last four bytes, then the first four. -/
def upTo8 (sec : Mem) (seed : U64) (m : Mem) (len : Nat) : U64 :=
  let seed : U64 := seed ^^^ ((swap32 (seed.setWidth 32)).setWidth 64 <<< 32)
  let x : U64 := (le32 m 0 ++ le32 m (len - 4) : BitVec 64) ^^^ ((le64 sec 8 ^^^ le64 sec 16) - seed)
  let x := (x ^^^ (rotl64 x 49 ^^^ rotl64 x 24)) * mul4to8
  let x := (x ^^^ ((x >>> 35) + BitVec.ofNat 64 len)) * mul4to8
  xorshift64 x 28

/-- Nine to sixteen bytes: the first eight and the last eight. -/
def upTo16 (sec : Mem) (seed : U64) (m : Mem) (len : Nat) : U64 :=
  let lo := le64 m 0 ^^^ ((le64 sec 24 ^^^ le64 sec 32) + seed)
  let hi := le64 m (len - 8) ^^^ ((le64 sec 40 ^^^ le64 sec 48) - seed)
  avalanche (BitVec.ofNat 64 len + swap64 lo + hi + fold lo hi)

/-- Up to 128 bytes: pairs of pieces from the front and from the back, until they cover the message. -/
def upTo128 (sec : Mem) (seed : U64) (m : Mem) (len : Nat) : U64 :=
  avalanche (BitVec.ofNat 64 len * PRIME64_1 +
    sum ((len - 1) / 32 + 1) fun k => mix sec seed m (16 * k) (32 * k) + mix sec seed m (len - 16 * (k + 1)) (32 * k + 16))

/-- Up to 240 bytes: all pieces of 16 bytes and the last 16 bytes. -/
def upTo240 (sec : Mem) (seed : U64) (m : Mem) (len : Nat) : U64 :=
  avalanche (avalanche (BitVec.ofNat 64 len * PRIME64_1 + sum 8 fun k => mix sec seed m (16 * k) (16 * k)) +
    (sum (len / 16 - 8) fun k => mix sec seed m (16 * (k + 8)) (16 * k + 3)) + mix sec seed m (len - 16) 119)

/-- Eight numbers. -/
def lanes (f : Nat → U64) : Acc := [f 0, f 1, f 2, f 3, f 4, f 5, f 6, f 7]

/-- A stripe of 64 bytes at `i`, with 64 bytes of the secret at `s`. In the 128 bit variant neighbours get each other's data. -/
def absorb (wd : Width) (sec : Mem) (acc : Acc) (m : Mem) (i s : Nat) : Acc :=
  lanes fun k =>
    let key := le64 m (i + 8 * k) ^^^ le64 sec (s + 8 * k)
    let own := match wd with | .bits64 => k | .bits128 => k ^^^ 1
    acc.getD k 0#64 + le64 m (i + 8 * own) + BitVec.ofNat 64 ((key.toNat % 2 ^ 32) * (key.toNat / 2 ^ 32))

def scramble (sec : Mem) (acc : Acc) (s : Nat) : Acc :=
  lanes fun k => (xorshift64 (acc.getD k 0#64) 47 ^^^ le64 sec (s + 8 * k)) * 0x9E3779B1#64

/-- Stripes until the secret is used up. -/
def rounds (size : Nat) : Nat := (size - 64) / 8

/-- The accumulators after `n` stripes of the message; they are scrambled whenever the secret is used up. -/
def stripes (wd : Width) (sec : Mem) (size : Nat) (m : Mem) : Nat → Acc
  | 0 => INIT_ACC
  | n + 1 =>
    let a := absorb wd sec (stripes wd sec size m n) m (64 * n) (8 * (n % rounds size))
    if (n + 1) % rounds size = 0 then scramble sec a (size - 64) else a

/-- All full stripes; if bytes are left over, the last 64 bytes once more. -/
def longAcc (wd : Width) (sec : Mem) (size : Nat) (m : Mem) (len : Nat) : Acc :=
  let a := stripes wd sec size m (len / 64)
  if len % 64 = 0 then a else absorb wd sec a m (len - 64) (size - 71)

def merge (sec : Mem) (acc : Acc) (s : Nat) (start : U64) : U64 :=
  avalanche (start + sum 4 fun k => fold (acc.getD (2 * k) 0#64 ^^^ le64 sec (s + 16 * k)) (acc.getD (2 * k + 1) 0#64 ^^^ le64 sec (s + 16 * k + 8)))

def long (sec : Mem) (size : Nat) (m : Mem) (len : Nat) : U64 :=
  merge sec (longAcc .bits64 sec size m len) 11 (BitVec.ofNat 64 len * PRIME64_1)

/-- The secret for long messages: the seed is added to and subtracted from the numbers of the default secret in turn. -/
def seeded (seed : U64) : Mem := (List.range 24).flatMap fun k => toBytes (if k % 2 = 0 then le64 kSecret (8 * k) + seed else le64 kSecret (8 * k) - seed)

def short (sec : Mem) (seed : U64) (m : Mem) (len : Nat) : U64 :=
  if len = 0 then empty sec seed
  else if len ≤ 3 then upTo3 sec seed m len
  else if len ≤ 8 then upTo8 sec seed m len
  else if len ≤ 16 then upTo16 sec seed m len
  else if len ≤ 128 then upTo128 sec seed m len
  else upTo240 sec seed m len

/-- XXH3 with a seed. -/
def xxh3 (seed : U64) (m : Mem) : U64 :=
  if m.length ≤ 240 then short kSecret seed m m.length else long (seeded seed) 192 m m.length

/-- XXH3 with a secret of one's own. -/
def xxh3Secret (sec : Mem) (m : Mem) : U64 :=
  if m.length ≤ 240 then short sec 0#64 m m.length else long sec sec.length m m.length

end Verif.Xxh3.Spec
