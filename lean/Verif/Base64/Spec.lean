/-
RFC 4648 base64 on bit strings. Nothing here refers to the model of the code.
-/
namespace Verif.Base64

/-- A byte or character. -/
abbrev Byte := BitVec 8

/-- The base64 alphabet of RFC 4648, table 1. -/
def alphabet : List Byte :=
  "ABCDEFGHIJKLMNOPQRSTUVWXYZabcdefghijklmnopqrstuvwxyz0123456789+/".toList.map
    (fun c => BitVec.ofNat 8 c.toNat)

/-- The bits of a `k`-bit number, most significant first. -/
def bitsOf (n : Nat) : Nat → List Bool
  | 0 => []
  | k + 1 => (n / 2 ^ k % 2 == 1) :: bitsOf n k

/-- The number with the given bits, most significant first. -/
def bitsVal (l : List Bool) : Nat := l.foldl (fun acc b => 2 * acc + b.toNat) 0

/-- Split a bit string in groups of six bits, the last one filled up with zero bits. -/
def groups6 : List Bool → List (List Bool)
  | b1 :: b2 :: b3 :: b4 :: b5 :: b6 :: rest => [b1, b2, b3, b4, b5, b6] :: groups6 rest
  | [] => []
  | rest => [rest ++ List.replicate (6 - rest.length) false]

/-- The complete groups of eight bits; left over bits are dropped. -/
def groups8 : List Bool → List (List Bool)
  | b1 :: b2 :: b3 :: b4 :: b5 :: b6 :: b7 :: b8 :: rest =>
    [b1, b2, b3, b4, b5, b6, b7, b8] :: groups8 rest
  | _ => []

/-- RFC 4648 encoding of a byte string. -/
def rfcEncode (bs : List Byte) : List Byte :=
  (groups6 (bs.flatMap (fun b => bitsOf b.toNat 8))).map (fun g => alphabet.getD (bitsVal g) 0) ++
    List.replicate ((3 - bs.length % 3) % 3) 61#8

/-- RFC 4648 decoding of a string of alphabet characters. -/
def rfcDecode (cs : List Byte) : List Byte :=
  (groups8 (cs.flatMap (fun c => bitsOf (alphabet.idxOf c) 6))).map (fun g => BitVec.ofNat 8 (bitsVal g))

/-- The longest prefix of alphabet characters. -/
def alphabetPrefix (cs : List Byte) : List Byte := cs.takeWhile (fun c => alphabet.contains c)

end Verif.Base64
