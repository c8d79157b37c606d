import Verif.Xxh64.Model
import Verif.Xxh3.StreamSpec

/-!
What XXH32 and XXH64 compute, as in the published description of the algorithm: the message is cut into stripes for four accumulators; what remains is taken in words and then in bytes.
Only the constants, the rotations and `avalanche` are those of Model.lean.
-/
namespace Verif.Xxh64.Spec
open Verif.Xxh3 (Byte U32 U64 Mem rotl64 PRIME32_1 PRIME32_2 PRIME32_3 PRIME64_1 PRIME64_2 PRIME64_3 PRIME64_4 PRIME64_5)
open Verif.Xxh3.Spec (at' le32 le64)

/-- One accumulator after `n` stripes of `w` words each: it takes word `lane` of every stripe. -/
def lane32 (m : Mem) (lane : Nat) (start : U32) : Nat → U32
  | 0 => start
  | n + 1 => rotl32 (lane32 m lane start n + le32 m (16 * n + 4 * lane) * PRIME32_2) 13 * PRIME32_1

def word32 (h x : U32) : U32 := rotl32 (h + x * PRIME32_3) 17 * PRIME32_4
def byte32 (h : U32) (x : Byte) : U32 := rotl32 (h + x.setWidth 32 * PRIME32_5) 11 * PRIME32_1

/-- What remains: words of four bytes, then bytes. -/
def rest32 (h : U32) : Mem → U32
  | a :: b :: c :: d :: r => rest32 (word32 h (d ++ c ++ b ++ a : BitVec 32)) r
  | a :: r => rest32 (byte32 h a) r
  | [] => h

/-- The accumulators combined; below 16 bytes there are none. -/
def front32 (seed : U32) (m : Mem) : U32 :=
  let n := m.length / 16
  if m.length < 16 then seed + PRIME32_5
  else rotl32 (lane32 m 0 (seed + PRIME32_1 + PRIME32_2) n) 1 + rotl32 (lane32 m 1 (seed + PRIME32_2) n) 7 + rotl32 (lane32 m 2 seed n) 12 + rotl32 (lane32 m 3 (seed - PRIME32_1) n) 18

def value32 (seed : U32) (m : Mem) : U32 := avalanche32 (rest32 (front32 seed m + BitVec.ofNat 32 m.length) (m.drop (16 * (m.length / 16))))

def lane64 (m : Mem) (lane : Nat) (start : U64) : Nat → U64
  | 0 => start
  | n + 1 => rotl64 (lane64 m lane start n + le64 m (32 * n + 8 * lane) * PRIME64_2) 31 * PRIME64_1

def scramble64 (x : U64) : U64 := rotl64 (x * PRIME64_2) 31 * PRIME64_1

def word64 (h x : U64) : U64 := rotl64 (h ^^^ scramble64 x) 27 * PRIME64_1 + PRIME64_4
def half64 (h : U64) (x : U32) : U64 := rotl64 (h ^^^ (x.setWidth 64 * PRIME64_1)) 23 * PRIME64_2 + PRIME64_3
def byte64 (h : U64) (x : Byte) : U64 := rotl64 (h ^^^ (x.setWidth 64 * PRIME64_5)) 11 * PRIME64_1

/-- What remains: words of eight bytes, then one of four, then bytes. -/
def rest64 (h : U64) : Mem → U64
  | a :: b :: c :: d :: e :: f :: g :: i :: r => rest64 (word64 h (i ++ g ++ f ++ e ++ d ++ c ++ b ++ a : BitVec 64)) r
  | a :: b :: c :: d :: r => rest64 (half64 h (d ++ c ++ b ++ a : BitVec 32)) r
  | a :: r => rest64 (byte64 h a) r
  | [] => h

def front64 (seed : U64) (m : Mem) : U64 :=
  let n := m.length / 32
  if m.length < 32 then seed + PRIME64_5
  else
    let a := lane64 m 0 (seed + PRIME64_1 + PRIME64_2) n
    let b := lane64 m 1 (seed + PRIME64_2) n
    let c := lane64 m 2 seed n
    let d := lane64 m 3 (seed - PRIME64_1) n
    [a, b, c, d].foldl (fun h x => (h ^^^ scramble64 x) * PRIME64_1 + PRIME64_4) (rotl64 a 1 + rotl64 b 7 + rotl64 c 12 + rotl64 d 18)

def value64 (seed : U64) (m : Mem) : U64 := avalanche64 (rest64 (front64 seed m + BitVec.ofNat 64 m.length) (m.drop (32 * (m.length / 32))))

/-! ### Streaming -/

/-- The data since the last reset. -/
structure Sess32 where
  seed : U32
  msg : Mem

structure Sess64 where
  seed : U64
  msg : Mem

structure View where
  s32 : Nat → Option Sess32
  s64 : Nat → Option Sess64

/-- The effect of a call on the sessions. -/
def next (v : View) : Op → View
  | .reset32 i s => { v with s32 := fun j => if j = i then some ⟨s, []⟩ else v.s32 j }
  | .update32 i b => { v with s32 := fun j => if j = i then (v.s32 i).map (fun s => ⟨s.seed, s.msg ++ b.mem⟩) else v.s32 j }
  | .copy32 d i => { v with s32 := fun j => if j = d then v.s32 i else v.s32 j }
  | .free32 i => { v with s32 := fun j => if j = i then none else v.s32 j }
  | .reset64 i s => { v with s64 := fun j => if j = i then some ⟨s, []⟩ else v.s64 j }
  | .update64 i b => { v with s64 := fun j => if j = i then (v.s64 i).map (fun s => ⟨s.seed, s.msg ++ b.mem⟩) else v.s64 j }
  | .copy64 d i => { v with s64 := fun j => if j = d then v.s64 i else v.s64 j }
  | .free64 i => { v with s64 := fun j => if j = i then none else v.s64 j }
  | .digest32 _ => v
  | .digest64 _ => v
  | .updateNull32 _ => v
  | .updateNull64 _ => v

/-- What the call should return. -/
def obs (v : View) : Op → Obs
  | .digest32 i => match v.s32 i with | some s => .hash32 (value32 s.seed s.msg) | none => .none
  | .digest64 i => match v.s64 i with | some s => .hash64 (value64 s.seed s.msg) | none => .none
  | .updateNull32 _ => .status false
  | .updateNull64 _ => .status false
  | .copy32 _ _ => .none
  | .copy64 _ _ => .none
  | _ => .status true

def observations (v : View) : List Op → List Obs
  | [] => []
  | op :: ops => obs v op :: observations (next v op) ops

/-- What is asked of a caller: states are reset before they are used and not copied onto themselves; for the 64 bit variant there are fewer than `2^64` bytes. -/
def legal (v : View) : Op → Prop
  | .update32 i _ => ∃ s, v.s32 i = some s
  | .digest32 i => ∃ s, v.s32 i = some s
  | .copy32 d i => d ≠ i ∧ ∃ s, v.s32 i = some s
  | .update64 i b => ∃ s, v.s64 i = some s ∧ s.msg.length + b.mem.length < 2 ^ 64
  | .digest64 i => ∃ s, v.s64 i = some s
  | .copy64 d i => d ≠ i ∧ ∃ s, v.s64 i = some s
  | _ => True

def history (v : View) : List Op → Prop
  | [] => True
  | op :: ops => legal v op ∧ history (next v op) ops

/-- The digits of a number, highest first. -/
def bigEndian (n : Nat) : Nat → Mem
  | 0 => []
  | k + 1 => BitVec.ofNat 8 (n / 256 ^ k) :: bigEndian n k

end Verif.Xxh64.Spec
