/-!
SHA-1 as in FIPS 180-4 (sections 4.1.1, 4.2.1, 5.1.1, 5.2.1, 5.3.1, 6.1), for messages that are sequences of bytes.
-/
namespace Verif.Sha1.Spec

abbrev Byte := BitVec 8
abbrev Word := BitVec 32

/-- The five working variables / hash words. -/
structure Hash where
  a : Word
  b : Word
  c : Word
  d : Word
  e : Word
deriving DecidableEq, Repr

/-- The functions f_t (4.1.1): Ch, Parity, Maj, Parity. -/
def f (t : Nat) (x y z : Word) : Word :=
  if t < 20 then (x &&& y) ^^^ (~~~x &&& z)
  else if t < 40 then x ^^^ y ^^^ z
  else if t < 60 then (x &&& y) ^^^ (x &&& z) ^^^ (y &&& z)
  else x ^^^ y ^^^ z

/-- The constants K_t (4.2.1). -/
def K (t : Nat) : Word :=
  if t < 20 then 0x5a827999#32 else if t < 40 then 0x6ed9eba1#32 else if t < 60 then 0x8f1bbcdc#32 else 0xca62c1d6#32

/-- The initial hash value (5.3.1). -/
def H0 : Hash := ⟨0x67452301#32, 0xefcdab89#32, 0x98badcfe#32, 0x10325476#32, 0xc3d2e1f0#32⟩

/-- The message schedule (6.1.2 step 1): the first 16 + n words. -/
def schedule (m : List Word) : Nat → List Word
  | 0 => m
  | n + 1 =>
    let l := schedule m n
    l ++ [(l.getD (n + 13) 0 ^^^ l.getD (n + 8) 0 ^^^ l.getD (n + 2) 0 ^^^ l.getD n 0).rotateLeft 1]

/-- One step of the compression (6.1.2 step 3). -/
def round (w : List Word) (t : Nat) (h : Hash) : Hash :=
  { a := h.a.rotateLeft 5 + f t h.b h.c h.d + h.e + K t + w.getD t 0, b := h.a, c := h.b.rotateLeft 30, d := h.c, e := h.d }

/-- The first n steps. -/
def rounds (w : List Word) (h : Hash) : Nat → Hash
  | 0 => h
  | n + 1 => round w n (rounds w h n)

/-- Processing one block of 16 words (6.1.2). -/
def compress (h : Hash) (m : List Word) : Hash :=
  let r := rounds (schedule m 64) h 80
  ⟨h.a + r.a, h.b + r.b, h.c + r.c, h.d + r.d, h.e + r.e⟩

/-- 16 big endian words from 64 bytes (5.2.1). -/
def words (bs : List Byte) : List Word :=
  (List.range 16).map fun i => bs.getD (4 * i) 0 ++ bs.getD (4 * i + 1) 0 ++ bs.getD (4 * i + 2) 0 ++ bs.getD (4 * i + 3) 0

/-- Processing the first n blocks of 64 bytes. -/
def process (h : Hash) (bs : List Byte) : Nat → Hash
  | 0 => h
  | n + 1 => process (compress h (words (bs.take 64))) (bs.drop 64) n

/-- The number of zero bytes in the padding (5.1.1): the smallest number that makes the length 56 modulo 64. -/
def zeros (len : Nat) : Nat := (119 - len % 64) % 64

/-- Padding (5.1.1): bit 1, zeros, the length in bits as a 64 bit big endian number. -/
def pad (m : List Byte) : List Byte :=
  m ++ [0x80#8] ++ List.replicate (zeros m.length) 0x00#8 ++
    (List.range 8).map fun i => BitVec.ofNat 8 (8 * m.length / 256 ^ (7 - i))

/-- The bytes of a word, most significant first. -/
def bytes (w : Word) : List Byte := [w.extractLsb' 24 8, w.extractLsb' 16 8, w.extractLsb' 8 8, w.extractLsb' 0 8]

/-- SHA-1 of a message. -/
def sha1 (m : List Byte) : List Byte :=
  let p := pad m
  let h := process H0 p (p.length / 64)
  bytes h.a ++ bytes h.b ++ bytes h.c ++ bytes h.d ++ bytes h.e

end Verif.Sha1.Spec
