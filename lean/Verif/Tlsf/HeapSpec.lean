import Verif.Tlsf.MapSpec
/-!
# What a TLSF heap should look like

This file speaks about memory only: a function from addresses of words (multiples of 8) to their values.
-/
namespace Verif.Tlsf.Spec

/-- The byte at an address (little endian). -/
def byteAt (m : Nat → Nat) (a : Nat) : Nat := m (a / 8 * 8) / 256 ^ (a % 8) % 256

/-- A block found in memory: the address of its header, the size of its payload, whether it is free. The payload begins 16 bytes behind the address. -/
structure Chunk where
  addr : Nat
  size : Nat
  free : Bool
deriving DecidableEq, Repr

/-- Reading the headers from `a` on finds the blocks `cs`, one behind the other without gaps, up to a header of size 0 at `e`.
The size word is at `a + 8`; its two lowest bits are flags, and bit 0 says that the block is free. -/
inductive Tiled (m : Nat → Nat) : Nat → Nat → List Chunk → Prop
  | last (a : Nat) : m (a + 8) / 4 = 0 → Tiled m a a []
  | block (a e : Nat) (c : Chunk) (cs : List Chunk) : c.addr = a → c.size = m (a + 8) / 4 * 4 → c.size ≠ 0 →
      c.free = decide (m (a + 8) % 2 = 1) → Tiled m (a + 8 + c.size) e cs → Tiled m a e (c :: cs)

/-- No free block is followed by a free block. -/
def Coalesced : List Chunk → Prop
  | [] => True
  | [_] => True
  | c :: d :: t => (c.free = true → d.free = false) ∧ Coalesced (d :: t)

/-- Following the links at offset 16 from `a` visits `l` and ends at the null block. -/
def ListAt (m : Nat → Nat) (null : Nat) : Nat → List Nat → Prop
  | a, [] => a = null
  | a, x :: t => a = x ∧ x ≠ null ∧ ListAt m null (m (x + 16)) t

/-- What the user knows about a block handed out: where it is, how much was asked for, the alignment asked for, and the bytes written to it. -/
structure Live where
  ptr : Nat
  size : Nat
  align : Nat
  data : Nat → Option Nat

/-- Two blocks handed out have no byte in common. -/
def Apart (x y : Live) : Prop := x.ptr + x.size ≤ y.ptr ∨ y.ptr + y.size ≤ x.ptr

/-- Memory given to the heap: address and number of bytes. Its first block has its size word in the first word; 16 bytes are lost
(and what is missing to a multiple of 8), and behind the last block is a header of size 0. -/
def firstBlock (p : Nat × Nat) : Nat := p.1 - 8
def capacity (p : Nat × Nat) : Nat := (p.2 - 16) / 8 * 8
def lastBlock (p : Nat × Nat) : Nat := p.1 + capacity p

/-- What has to hold of a heap: `m` is the memory, `fl`, `sl` and `heads` are the bitmaps and the lists, `pools` the memory given to it and
`live` the blocks handed out. -/
structure Sound (null : Nat) (m : Nat → Nat) (fl : BitVec 32) (sl : Nat → BitVec 32) (heads : Nat → Nat → Nat) (pools : List (Nat × Nat))
    (live : List Live) (blocks : List ((Nat × Nat) × List Chunk)) : Prop where
  /-- the blocks tile the pools, and no two free ones are neighbours -/
  poolsEq : blocks.map Prod.fst = pools
  tiled : ∀ p ∈ blocks, Tiled m (firstBlock p.1) (lastBlock p.1) p.2
  coalesced : ∀ p ∈ blocks, Coalesced p.2
  /-- the free lists hold exactly the free blocks, each in the list of its class -/
  lists : ∀ i j, i < 25 → j < 32 → ∃ l, ListAt m null (heads i j) l ∧ l.Nodup ∧
    ∀ x, x ∈ l ↔ ∃ p ∈ blocks, ∃ c ∈ p.2, c.addr = x ∧ c.free = true ∧ InClass i j c.size
  /-- the bitmaps tell which lists are not empty -/
  second : ∀ i j, i < 25 → j < 32 → ((sl i).getLsbD j = true ↔ heads i j ≠ null)
  first : ∀ i, fl.getLsbD i = true ↔ i < 25 ∧ sl i ≠ 0#32
  /-- the blocks in use are those handed out; they are large enough -/
  fits : ∀ v ∈ live, ∃ p ∈ blocks, ∃ c ∈ p.2, c.free = false ∧ v.ptr = c.addr + 16 ∧ v.size ≤ c.size
  inUse : ∀ p ∈ blocks, ∀ c ∈ p.2, c.free = false → ∃ v ∈ live, v.ptr = c.addr + 16
  /-- they are aligned as asked for, and at least for words -/
  aligned : ∀ v ∈ live, v.ptr % 8 = 0 ∧ v.ptr % v.align = 0
  apart : live.Pairwise Apart
  /-- they hold what was written to them -/
  contents : ∀ v ∈ live, ∀ i x, v.data i = some x → i < v.size ∧ byteAt m (v.ptr + i) = x

end Verif.Tlsf.Spec
