import Verif.Common

/-
Model of /repo/src/clean-core/base64.cc.

`char`/`unsigned char`/`std::byte` are `BitVec 8`; intermediate values are `int`s, here natural
numbers (all non-negative), and are truncated when stored in an `unsigned char`.
The local arrays are not initialised in the code; their initial contents are a parameter `junk`.
`isalnum` is that of the "C" locale. The result containers are lists.
-/
namespace Verif.Base64

/-- `base64_chars` (base64.cc:9-11). -/
def base64Chars : List (BitVec 8) :=
  ("ABCDEFGHIJKLMNOPQRSTUVWXYZ" ++
   "abcdefghijklmnopqrstuvwxyz" ++
   "0123456789+/").toList.map (fun c => BitVec.ofNat 8 c.toNat)

/-- `base64_chars[k]` (string_view::operator[] with its bounds contract). -/
def charAt (k : Nat) : R (BitVec 8) :=
  match base64Chars[k]? with
  | some c => .ok c
  | none => .error .assert

/-- The loop of `find_base64_char` (base64.cc:15-17) from index `i` on. -/
def findLoop (c : BitVec 8) (i : Nat) : List (BitVec 8) → R Nat
  | [] => .error .assert
  | x :: xs => if x = c then .ok i else findLoop c (i + 1) xs

/-- `find_base64_char` (base64.cc:13-20). -/
def findBase64Char (c : BitVec 8) : R Nat := findLoop c 0 base64Chars

/-- `isalnum` in the "C" locale. -/
def isAlnum (c : BitVec 8) : Bool :=
  (48 ≤ c.toNat && c.toNat ≤ 57) || (65 ≤ c.toNat && c.toNat ≤ 90) || (97 ≤ c.toNat && c.toNat ≤ 122)

/-- `is_base64` (base64.cc:22). -/
def isBase64 (c : BitVec 8) : Bool := isAlnum c || c == 43#8 || c == 47#8

/-- Store an `int` in an `unsigned char`. -/
def uchar (n : Nat) : BitVec 8 := BitVec.ofNat 8 n

/-- base64.cc:37-40 and 53-56: three bytes to four 6-bit values. -/
def split4 (c0 c1 c2 : BitVec 8) : List (BitVec 8) :=
  [uchar ((c0.toNat &&& 0xfc) >>> 2),
   uchar (((c0.toNat &&& 0x03) <<< 4) + ((c1.toNat &&& 0xf0) >>> 4)),
   uchar (((c1.toNat &&& 0x0f) <<< 2) + ((c2.toNat &&& 0xc0) >>> 6)),
   uchar (c2.toNat &&& 0x3f)]

/-- `for (...) ret += base64_chars[char_array_4[i]]` over the given values (base64.cc:42-43, 58-59). -/
def putChars (ret : List (BitVec 8)) : List (BitVec 8) → R (List (BitVec 8))
  | [] => .ok ret
  | v :: vs => do
    let c ← charAt v.toNat
    putChars (ret ++ [c]) vs

/-- The local variables of `base64_encode`: `i`, `char_array_3` and `ret`. -/
structure EncSt where
  i : Nat
  a0 : BitVec 8
  a1 : BitVec 8
  a2 : BitVec 8
  ret : List (BitVec 8)

/-- `char_array_3[i++] = b` (base64.cc:34); an index of 3 or more is out of bounds. -/
def EncSt.store (s : EncSt) (b : BitVec 8) : R EncSt :=
  match s.i with
  | 0 => .ok { s with a0 := b, i := 1 }
  | 1 => .ok { s with a1 := b, i := 2 }
  | 2 => .ok { s with a2 := b, i := 3 }
  | _ => .error .ub

/-- Loop body (base64.cc:34-46). -/
def encStep (s : EncSt) (b : BitVec 8) : R EncSt := do
  let s ← s.store b
  if s.i = 3 then do
    let ret ← putChars s.ret (split4 s.a0 s.a1 s.a2)
    pure { s with ret := ret, i := 0 }
  else pure s

/-- The loop `for (auto b : data)` (base64.cc:32-47). -/
def encLoop (s : EncSt) : List (BitVec 8) → R EncSt
  | [] => .ok s
  | b :: bs => do
    let s ← encStep s b
    encLoop s bs

/-- base64.cc:49-63. -/
def encTail (s : EncSt) : R (List (BitVec 8)) :=
  if s.i ≠ 0 then do
    -- for (j = i; j < 3; j++) char_array_3[j] = '\0'
    let a1 := if s.i ≤ 1 then 0#8 else s.a1
    let a2 := if s.i ≤ 2 then 0#8 else s.a2
    let ret ← putChars s.ret ((split4 s.a0 a1 a2).take (s.i + 1))
    -- while (i++ < 3) ret += '='
    pure (ret ++ List.replicate (3 - s.i) 61#8)
  else .ok s.ret

/-- `base64_encode` (base64.cc:24-66). -/
def encode (junk : BitVec 8 × BitVec 8 × BitVec 8) (data : List (BitVec 8)) : R (List (BitVec 8)) := do
  let s ← encLoop { i := 0, a0 := junk.1, a1 := junk.2.1, a2 := junk.2.2, ret := [] } data
  encTail s

/-- The local variables of `base64_decode`: `i`, `char_array_4` and `ret`. -/
structure DecSt where
  i : Nat
  c0 : BitVec 8
  c1 : BitVec 8
  c2 : BitVec 8
  c3 : BitVec 8
  ret : List (BitVec 8)

/-- `char_array_4[i++] = ch` (base64.cc:78). -/
def DecSt.store (s : DecSt) (b : BitVec 8) : R DecSt :=
  match s.i with
  | 0 => .ok { s with c0 := b, i := 1 }
  | 1 => .ok { s with c1 := b, i := 2 }
  | 2 => .ok { s with c2 := b, i := 3 }
  | 3 => .ok { s with c3 := b, i := 4 }
  | _ => .error .ub

/-- `find_base64_char(c) & 0xff` stored in an `unsigned char` (base64.cc:83, 98). -/
def lookup (c : BitVec 8) : R (BitVec 8) := do
  let k ← findBase64Char c
  pure (uchar (k &&& 0xff))

/-- base64.cc:85-87: four 6-bit values to three bytes. -/
def join3 (c0 c1 c2 c3 : BitVec 8) : List (BitVec 8) :=
  [uchar ((c0.toNat <<< 2) + ((c1.toNat &&& 0x30) >>> 4)),
   uchar (((c1.toNat &&& 0xf) <<< 4) + ((c2.toNat &&& 0x3c) >>> 2)),
   uchar (((c2.toNat &&& 0x3) <<< 6) + c3.toNat)]

/-- base64.cc:100-101: the first two bytes of a partial group. -/
def join2 (c0 c1 c2 : BitVec 8) : List (BitVec 8) :=
  [uchar ((c0.toNat <<< 2) + ((c1.toNat &&& 0x30) >>> 4)),
   uchar (((c1.toNat &&& 0xf) <<< 4) + ((c2.toNat &&& 0x3c) >>> 2))]

/-- Loop body (base64.cc:78-92). -/
def decStep (s : DecSt) (c : BitVec 8) : R DecSt := do
  let s ← s.store c
  if s.i = 4 then do
    let v0 ← lookup s.c0
    let v1 ← lookup s.c1
    let v2 ← lookup s.c2
    let v3 ← lookup s.c3
    pure { i := 0, c0 := v0, c1 := v1, c2 := v2, c3 := v3, ret := s.ret ++ join3 v0 v1 v2 v3 }
  else pure s

/-- `in_len--` on an `int`: below `INT_MIN` is signed overflow. -/
def decInt (n : Int) : R Int := if -(2 : Int) ^ 31 < n then .ok (n - 1) else .error .ub

/-- The loop (base64.cc:76-93); `rest` are the characters from `in_` on, reading past the end trips
the bounds contract of `string_view::operator[]`. -/
def decLoop (s : DecSt) (inLen : Int) : List (BitVec 8) → R DecSt
  | [] => do
    let _ ← decInt inLen
    if inLen ≠ 0 then .error .assert else .ok s
  | c :: cs => do
    let n ← decInt inLen
    if inLen ≠ 0 then
      if c ≠ 61#8 ∧ isBase64 c then do
        let s ← decStep s c
        decLoop s n cs
      else .ok s
    else .ok s

/-- base64.cc:95-105. -/
def decTail (s : DecSt) : R (List (BitVec 8)) :=
  if s.i ≠ 0 then do
    -- for (j = 0; j < i; j++) char_array_4[j] = find_base64_char(...) & 0xff
    let v0 ← if 0 < s.i then lookup s.c0 else pure s.c0
    let v1 ← if 1 < s.i then lookup s.c1 else pure s.c1
    let v2 ← if 2 < s.i then lookup s.c2 else pure s.c2
    pure (s.ret ++ (join2 v0 v1 v2).take (s.i - 1))
  else .ok s.ret

/-- `static_cast<int>(size)`: reduction modulo 2^32 to the signed range. -/
def toInt32 (n : Nat) : Int := (BitVec.ofNat 32 n).toInt

/-- `base64_decode` (base64.cc:67-108). -/
def decode (junk : BitVec 8 × BitVec 8 × BitVec 8 × BitVec 8) (s : List (BitVec 8)) :
    R (List (BitVec 8)) := do
  let st ← decLoop { i := 0, c0 := junk.1, c1 := junk.2.1, c2 := junk.2.2.1, c3 := junk.2.2.2, ret := [] }
    (toInt32 s.length) s
  decTail st

end Verif.Base64
