import Verif.Bits.Model

/-!
Model of `cc::sha1_builder` and `make_hash_sha1` (/repo/src/clean-core/hash.sha1.hh, hash.sha1.cc).

Words are bit vectors; memory is little endian (as on every platform the library supports), so reading a word from bytes and then
calling `byteswap` is modelled literally. The casts between `std::byte*` and `uint32_t*`/`uint64_t*` are taken at face value.
-/
namespace Verif.Sha1

open Verif.Bits (byteswap byteOf)

abbrev Byte := BitVec 8
abbrev Word := BitVec 32

/-- `digest[5]` (hash.sha1.hh:122). -/
structure Digest where
  d0 : Word
  d1 : Word
  d2 : Word
  d3 : Word
  d4 : Word
deriving DecidableEq, Repr

/-- The members of `sha1_builder` (hash.sha1.hh:122-128); `buf` is `buffer_block`. -/
structure Builder where
  digest : Digest
  total : BitVec 64
  buf : List Byte
  size : Nat
deriving DecidableEq, Repr

/-- `reset` and the constructor (hash.sha1.hh:36-51); the contents of `buffer_block` stay. -/
def reset (b : Builder) : Builder :=
  { digest := ⟨0x67452301#32, 0xefcdab89#32, 0x98badcfe#32, 0x10325476#32, 0xc3d2e1f0#32⟩, total := 0#64, buf := b.buf, size := 0 }

/-- `rol` (hash.sha1.hh:130). -/
def rol (value : Word) (bits : Nat) : Word := (value <<< bits) ||| (value >>> (32 - bits))

/-- `uint32_t block[16]` (hash.sha1.hh:182). -/
abbrev Block := Nat → Word

/-- `blk` (hash.sha1.hh:131-134). -/
def blk (block : Block) (i : Nat) : Word :=
  rol (block ((i + 13) &&& 15) ^^^ block ((i + 8) &&& 15) ^^^ block ((i + 2) &&& 15) ^^^ block i) 1

/-- The local variables of `transform` (hash.sha1.hh:187-191). -/
inductive Reg
  | a | b | c | d | e
deriving DecidableEq, Repr

/-- Their values. -/
abbrev Regs := Reg → Word

/-- Assignment to a variable. -/
def setReg (r : Regs) (x : Reg) (v : Word) : Regs := fun y => if y = x then v else r y

/-- Assignment to `block[i]`. -/
def setBlock (b : Block) (i : Nat) (v : Word) : Block := fun j => if j = i then v else b j

/-- `R0` (hash.sha1.hh:140-144); `w` and `z` are references, the others are passed by value. -/
def R0 (r : Regs) (block : Block) (v w x y z : Reg) (i : Nat) : Regs × Block :=
  let r' := setReg r z (r z + (((r w &&& (r x ^^^ r y)) ^^^ r y) + block i + 0x5a827999#32 + rol (r v) 5))
  (setReg r' w (rol (r' w) 30), block)

/-- `R1` (hash.sha1.hh:146-151). -/
def R1 (r : Regs) (block : Block) (v w x y z : Reg) (i : Nat) : Regs × Block :=
  let block := setBlock block i (blk block i)
  let r' := setReg r z (r z + (((r w &&& (r x ^^^ r y)) ^^^ r y) + block i + 0x5a827999#32 + rol (r v) 5))
  (setReg r' w (rol (r' w) 30), block)

/-- `R2` (hash.sha1.hh:153-158). -/
def R2 (r : Regs) (block : Block) (v w x y z : Reg) (i : Nat) : Regs × Block :=
  let block := setBlock block i (blk block i)
  let r' := setReg r z (r z + ((r w ^^^ r x ^^^ r y) + block i + 0x6ed9eba1#32 + rol (r v) 5))
  (setReg r' w (rol (r' w) 30), block)

/-- `R3` (hash.sha1.hh:160-165). -/
def R3 (r : Regs) (block : Block) (v w x y z : Reg) (i : Nat) : Regs × Block :=
  let block := setBlock block i (blk block i)
  let r' := setReg r z (r z + ((((r w ||| r x) &&& r y) ||| (r w &&& r x)) + block i + 0x8f1bbcdc#32 + rol (r v) 5))
  (setReg r' w (rol (r' w) 30), block)

/-- `R4` (hash.sha1.hh:167-172). -/
def R4 (r : Regs) (block : Block) (v w x y z : Reg) (i : Nat) : Regs × Block :=
  let block := setBlock block i (blk block i)
  let r' := setReg r z (r z + ((r w ^^^ r x ^^^ r y) + block i + 0xca62c1d6#32 + rol (r v) 5))
  (setReg r' w (rol (r' w) 30), block)

/-- Names of the five functions. -/
inductive Kind
  | R0 | R1 | R2 | R3 | R4
deriving DecidableEq, Repr

/-- One call in `transform`. -/
def exec (s : Regs × Block) (c : Kind × Reg × Reg × Reg × Reg × Reg × Nat) : Regs × Block :=
  match c with
  | (.R0, v, w, x, y, z, i) => R0 s.1 s.2 v w x y z i
  | (.R1, v, w, x, y, z, i) => R1 s.1 s.2 v w x y z i
  | (.R2, v, w, x, y, z, i) => R2 s.1 s.2 v w x y z i
  | (.R3, v, w, x, y, z, i) => R3 s.1 s.2 v w x y z i
  | (.R4, v, w, x, y, z, i) => R4 s.1 s.2 v w x y z i

/-- The 80 calls in the order of the source (hash.sha1.hh:194-273). -/
def calls : List (Kind × Reg × Reg × Reg × Reg × Reg × Nat) :=
  [
    (.R0, .a, .b, .c, .d, .e, 0), (.R0, .e, .a, .b, .c, .d, 1), (.R0, .d, .e, .a, .b, .c, 2), (.R0, .c, .d, .e, .a, .b, 3),
    (.R0, .b, .c, .d, .e, .a, 4), (.R0, .a, .b, .c, .d, .e, 5), (.R0, .e, .a, .b, .c, .d, 6), (.R0, .d, .e, .a, .b, .c, 7),
    (.R0, .c, .d, .e, .a, .b, 8), (.R0, .b, .c, .d, .e, .a, 9), (.R0, .a, .b, .c, .d, .e, 10), (.R0, .e, .a, .b, .c, .d, 11),
    (.R0, .d, .e, .a, .b, .c, 12), (.R0, .c, .d, .e, .a, .b, 13), (.R0, .b, .c, .d, .e, .a, 14), (.R0, .a, .b, .c, .d, .e, 15),
    (.R1, .e, .a, .b, .c, .d, 0), (.R1, .d, .e, .a, .b, .c, 1), (.R1, .c, .d, .e, .a, .b, 2), (.R1, .b, .c, .d, .e, .a, 3),
    (.R2, .a, .b, .c, .d, .e, 4), (.R2, .e, .a, .b, .c, .d, 5), (.R2, .d, .e, .a, .b, .c, 6), (.R2, .c, .d, .e, .a, .b, 7),
    (.R2, .b, .c, .d, .e, .a, 8), (.R2, .a, .b, .c, .d, .e, 9), (.R2, .e, .a, .b, .c, .d, 10), (.R2, .d, .e, .a, .b, .c, 11),
    (.R2, .c, .d, .e, .a, .b, 12), (.R2, .b, .c, .d, .e, .a, 13), (.R2, .a, .b, .c, .d, .e, 14), (.R2, .e, .a, .b, .c, .d, 15),
    (.R2, .d, .e, .a, .b, .c, 0), (.R2, .c, .d, .e, .a, .b, 1), (.R2, .b, .c, .d, .e, .a, 2), (.R2, .a, .b, .c, .d, .e, 3),
    (.R2, .e, .a, .b, .c, .d, 4), (.R2, .d, .e, .a, .b, .c, 5), (.R2, .c, .d, .e, .a, .b, 6), (.R2, .b, .c, .d, .e, .a, 7),
    (.R3, .a, .b, .c, .d, .e, 8), (.R3, .e, .a, .b, .c, .d, 9), (.R3, .d, .e, .a, .b, .c, 10), (.R3, .c, .d, .e, .a, .b, 11),
    (.R3, .b, .c, .d, .e, .a, 12), (.R3, .a, .b, .c, .d, .e, 13), (.R3, .e, .a, .b, .c, .d, 14), (.R3, .d, .e, .a, .b, .c, 15),
    (.R3, .c, .d, .e, .a, .b, 0), (.R3, .b, .c, .d, .e, .a, 1), (.R3, .a, .b, .c, .d, .e, 2), (.R3, .e, .a, .b, .c, .d, 3),
    (.R3, .d, .e, .a, .b, .c, 4), (.R3, .c, .d, .e, .a, .b, 5), (.R3, .b, .c, .d, .e, .a, 6), (.R3, .a, .b, .c, .d, .e, 7),
    (.R3, .e, .a, .b, .c, .d, 8), (.R3, .d, .e, .a, .b, .c, 9), (.R3, .c, .d, .e, .a, .b, 10), (.R3, .b, .c, .d, .e, .a, 11),
    (.R4, .a, .b, .c, .d, .e, 12), (.R4, .e, .a, .b, .c, .d, 13), (.R4, .d, .e, .a, .b, .c, 14), (.R4, .c, .d, .e, .a, .b, 15),
    (.R4, .b, .c, .d, .e, .a, 0), (.R4, .a, .b, .c, .d, .e, 1), (.R4, .e, .a, .b, .c, .d, 2), (.R4, .d, .e, .a, .b, .c, 3),
    (.R4, .c, .d, .e, .a, .b, 4), (.R4, .b, .c, .d, .e, .a, 5), (.R4, .a, .b, .c, .d, .e, 6), (.R4, .e, .a, .b, .c, .d, 7),
    (.R4, .d, .e, .a, .b, .c, 8), (.R4, .c, .d, .e, .a, .b, 9), (.R4, .b, .c, .d, .e, .a, 10), (.R4, .a, .b, .c, .d, .e, 11),
    (.R4, .e, .a, .b, .c, .d, 12), (.R4, .d, .e, .a, .b, .c, 13), (.R4, .c, .d, .e, .a, .b, 14), (.R4, .b, .c, .d, .e, .a, 15)
  ]

/-- A `uint32_t` read from memory at byte `i` (little endian). -/
def load32 (bs : List Byte) (i : Nat) : Word :=
  (bs.getD i 0).setWidth 32 ||| (bs.getD (i + 1) 0).setWidth 32 <<< 8 ||| (bs.getD (i + 2) 0).setWidth 32 <<< 16 |||
    (bs.getD (i + 3) 0).setWidth 32 <<< 24

/-- `transform` (hash.sha1.hh:178-281) on the 64 bytes at offset `off` of the buffer. -/
def transform (d : Digest) (buf : List Byte) (off : Nat) : R Digest :=
  let bs := (buf.drop off).take 64
  if bs.length = 64 then
    let block : Block := fun i => byteswap (load32 bs (4 * i))
    let r : Regs := fun x => match x with | .a => d.d0 | .b => d.d1 | .c => d.d2 | .d => d.d3 | .e => d.d4
    let r := (calls.foldl exec (r, block)).1
    .ok ⟨d.d0 + r .a, d.d1 + r .b, d.d2 + r .c, d.d3 + r .d, d.d4 + r .e⟩
  else .error .ub

/-- `std::memcpy(buf + off, data, n)` with the `n` bytes of `data`. -/
def copyInto (buf : List Byte) (off : Nat) (data : List Byte) : R (List Byte) :=
  if off + data.length ≤ buf.length then .ok (buf.take off ++ data ++ buf.drop (off + data.length)) else .error .ub

/-- The loop of `add` (hash.sha1.hh:58-76); `n` bounds the iterations, running out of it stands for a loop that does not end. -/
def addLoop (b : Builder) (data : List Byte) : Nat → R Builder
  | 0 => .error .ub
  | n + 1 =>
    let bytesForBlock := (64 + 2 ^ 64 - b.size) % 2 ^ 64
    if bytesForBlock > data.length then do
      let buf ← copyInto b.buf b.size data
      ccAssert (b.size + data.length < 64)
      .ok { digest := b.digest, total := b.total, buf := buf, size := b.size + data.length }
    else do
      let buf ← copyInto b.buf b.size (data.take bytesForBlock)
      let d ← transform b.digest buf 0
      addLoop { digest := d, total := b.total, buf := buf, size := 0 } (data.drop bytesForBlock) n

/-- `add` (hash.sha1.hh:54-77). -/
def add (b : Builder) (data : List Byte) : R Builder :=
  addLoop { digest := b.digest, total := b.total + BitVec.ofNat 64 data.length, buf := b.buf, size := b.size } data (data.length + 2)

/-- The padding loop of `finalize` (hash.sha1.hh:92-93). -/
def padLoop (buf : List Byte) (size : Nat) : Nat → R (List Byte × Nat)
  | 0 => .error .ub
  | n + 1 =>
    if size % 64 ≠ 56 then do
      let buf ← copyInto buf size [0x00#8]
      padLoop buf (size + 1) n
    else .ok (buf, size)

/-- The second block, if any (hash.sha1.hh:103-104). -/
def secondBlock (d : Digest) (buf : List Byte) (size : Nat) : R Digest := if size = 128 then transform d buf 64 else .ok d

/-- The bytes of a word in memory (little endian). -/
def bytes32 (w : Word) : List Byte := [byteOf w 0, byteOf w 1, byteOf w 2, byteOf w 3]

/-- `finalize` (hash.sha1.hh:82-116): the result and the builder left behind. -/
def finalize (b : Builder) : R (List Byte × Builder) := do
  let totalBits := b.total * 8#64
  let buf ← copyInto b.buf b.size [0x80#8]
  let (buf, size) ← padLoop buf (b.size + 1) 65
  let buf ← copyInto buf size ((List.range 8).map (byteOf (byteswap totalBits)))
  let size := size + 8
  ccAssert (size = 64 || size = 128)
  let d ← transform b.digest buf 0
  let d ← secondBlock d buf size
  let d : Digest := ⟨byteswap d.d0, byteswap d.d1, byteswap d.d2, byteswap d.d3, byteswap d.d4⟩
  .ok (bytes32 d.d0 ++ bytes32 d.d1 ++ bytes32 d.d2 ++ bytes32 d.d3 ++ bytes32 d.d4,
    { digest := d, total := b.total, buf := buf, size := size })

/-- Several calls of `add`. -/
def addAll (b : Builder) : List (List Byte) → R Builder
  | [] => .ok b
  | c :: cs => do
    let b ← add b c
    addAll b cs

/-- `make_hash_sha1` (hash.sha1.cc:3-10); `b0` is the fresh object with uninitialised members. -/
def makeHashSha1 (b0 : Builder) (data : List Byte) : R (List Byte) := do
  let b ← add (reset (reset b0)) data
  let (h, _) ← finalize b
  .ok h

/-- `"0123456789abcdef"`. -/
def hex : List Char := "0123456789abcdef".toList

/-- The loop of `make_hash_sha1_string` (hash.sha1.cc:16-25); the result string is built from left to right. -/
def hexString : List Byte → R (List Char)
  | [] => .ok []
  | h :: hs => do
    match hex[(h >>> 4).toNat]?, hex[(h &&& 0xf#8).toNat]? with
    | some x, some y => do
      let rest ← hexString hs
      .ok (x :: y :: rest)
    | _, _ => .error .ub

/-- `make_hash_sha1_string` (hash.sha1.cc:14-26). -/
def makeHashSha1String (b0 : Builder) (data : List Byte) : R (List Char) := do
  let h ← makeHashSha1 b0 data
  hexString h

end Verif.Sha1
