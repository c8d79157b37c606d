import Verif.Common

/-!
Model of the default hashes: /repo/src/clean-core/hash.hh, hash_combine.hh, stringhash.hh and the `hash` specialisations of array.hh,
vector.hh, sbo_string.hh, pair.hh, tuple.hh, optional.hh, flags.hh and unique_ptr.hh. Bytes are little-endian.
-/
namespace Verif.Hash

/-! ### hash_combine -/

/-- The multiplier of `hash_combine(a, b)` (hash_combine.hh:9). -/
def mul : BitVec 64 := 6364136223846793005#64

/-- The increment of `hash_combine(a, b)` (hash_combine.hh:9). -/
def inc : BitVec 64 := 0xda3e39cb94b95bdb#64

/-- `hash_combine()` (hash_combine.hh:7). -/
def combine0 : BitVec 64 := 0x2a5114b5c6133408#64

/-- `hash_combine(a, b)` (hash_combine.hh:9). -/
def combine (a b : BitVec 64) : BitVec 64 := a * mul + b + inc

/-- The loop `for (c : rest) h = hash_combine(h, c)`. -/
def foldFrom (h : BitVec 64) : List (BitVec 64) → BitVec 64
  | [] => h
  | c :: rest => foldFrom (combine h c) rest

/-- `hash_combine` of any number of arguments (hash_combine.hh:7-18). -/
def combineAll : List (BitVec 64) → BitVec 64
  | [] => combine0
  | [a] => a
  | [a, b] => combine a b
  | a :: b :: c :: rest => foldFrom (combine (combine a b) c) rest

/-! ### scalars and plain structs -/

/-- Little-endian value of the first eight bytes (missing ones are zero), i.e. `uint64_t h = 0; memcpy(&h, p, size)`. -/
def word (bs : List (BitVec 8)) : BitVec 64 :=
  (bs.getD 7 0#8 ++ bs.getD 6 0#8 ++ bs.getD 5 0#8 ++ bs.getD 4 0#8 ++ bs.getD 3 0#8 ++ bs.getD 2 0#8 ++ bs.getD 1 0#8 ++ bs.getD 0 0#8 : BitVec 64)

/-- The word loop and the rest of the generic `hash` (hash.hh:40-50). -/
def wordLoop (r : BitVec 64) (bs : List (BitVec 8)) : Nat → BitVec 64
  | 0 => if bs.length > 0 then combine r (word bs) else r
  | n + 1 => wordLoop (combine r (word (bs.take 8))) (bs.drop 8) n

/-- The generic `hash` of an object representation (hash.hh:21-54). The alignment of the `uint64_t` reads is not modelled. -/
def bytes (bs : List (BitVec 8)) : BitVec 64 :=
  if bs.length ≤ 8 then word bs else wordLoop 0#64 bs (bs.length / 8)

/-- `value == 0` for the bits of a float. -/
def f32IsZero (v : BitVec 32) : Bool := v &&& 0x7fffffff#32 == 0#32

/-- `value != value` for the bits of a float. -/
def f32IsNaN (v : BitVec 32) : Bool := (0x7f800000#32).ult (v &&& 0x7fffffff#32)

/-- `value == 0` for the bits of a double. -/
def f64IsZero (v : BitVec 64) : Bool := v &&& 0x7fffffffffffffff#64 == 0#64

/-- `value != value` for the bits of a double. -/
def f64IsNaN (v : BitVec 64) : Bool := (0x7ff0000000000000#64).ult (v &&& 0x7fffffffffffffff#64)

/-- `hash<float>` (hash.hh:99-117). -/
def float (v : BitVec 32) : BitVec 64 :=
  if f32IsZero v then 0#64
  else if f32IsNaN v then 0xFFFFFFFFFFFF1234#64
  else v.setWidth 64

/-- `hash<double>` (hash.hh:119-137). -/
def double (v : BitVec 64) : BitVec 64 :=
  if f64IsZero v then 0#64
  else if f64IsNaN v then 0xFFFFFFFFFFFF5678#64
  else v

/-! ### all hashable types -/

mutual
/-- The hashable types modelled. -/
inductive Ty where
  /-- integers, enums, pointers, flags: `n ≤ 8` bytes compared as a whole -/
  | scalar (n : Nat)
  /-- plain structs without padding, compared member by member -/
  | plain (n : Nat)
  | float
  | double
  | string
  | stringView
  | vector (t : Ty)
  | array (t : Ty)
  | pair (s t : Ty)
  | optional (t : Ty)
  | tuple (ts : Tys)
/-- The member types of a tuple. -/
inductive Tys where
  | nil
  | cons (t : Ty) (ts : Tys)
end

/-- A `string_view`: where it points to and the characters there (string_view.hh:361-363). -/
structure View where
  addr : BitVec 64
  chars : List (BitVec 8)
deriving DecidableEq

mutual
/-- Values of a type. -/
def Ty.Val : Ty → Type
  | .scalar n => { l : List (BitVec 8) // l.length = n }
  | .plain n => { l : List (BitVec 8) // l.length = n }
  | .float => BitVec 32
  | .double => BitVec 64
  | .string => List (BitVec 8)
  | .stringView => View
  | .vector t => List t.Val
  | .array t => List t.Val
  | .pair s t => s.Val × t.Val
  | .optional t => Option t.Val
  | .tuple ts => ts.Vals
/-- Values of a list of types. -/
def Tys.Vals : Tys → Type
  | .nil => Unit
  | .cons t ts => t.Val × ts.Vals
end

mutual
/-- `hash<T>`. Scalars and plain structs: hash.hh:21-54; strings: sbo_string.hh:788-799 (`char` is signed); vectors: vector.hh:147-157;
arrays: array.hh:274-284; pairs: pair.hh:32-39; optionals: optional.hh:373-383; tuples: tuple.hh:95-99, 128-135. There is no specialisation for
`string_view`: it is trivially copyable and has no padding, so the generic one takes its two words, pointer and size. -/
def Ty.hash : (t : Ty) → t.Val → BitVec 64
  | .scalar _, v => bytes v.val
  | .plain _, v => bytes v.val
  | .float, v => Hash.float v
  | .double, v => Hash.double v
  | .string, v => foldFrom 0#64 (v.map (·.signExtend 64))
  | .stringView, v => combine (combine 0#64 v.addr) (BitVec.ofNat 64 v.chars.length)
  | .vector t, v => foldFrom 0#64 (v.map t.hash)
  | .array t, v => foldFrom 0#64 (v.map t.hash)
  | .pair s t, v => combine (s.hash v.1) (t.hash v.2)
  | .optional t, v =>
    match v with
    | some x => t.hash x
    | none => 0x7132ae00db5bc3bb#64
  | .tuple ts, v => combineAll (ts.hashes v)
/-- The hashes of the members of a tuple. -/
def Tys.hashes : (ts : Tys) → ts.Vals → List (BitVec 64)
  | .nil, _ => []
  | .cons t ts, v => t.hash v.1 :: ts.hashes v.2
end

/-! ### stringhash -/

/-- The loop of `stringhash` (stringhash.hh:12-19) on the memory at `s`. -/
def stringhashLoop (h : BitVec 64) : List (BitVec 8) → R (BitVec 64)
  | [] => .error .ub
  | c :: s => if c ≠ 0#8 then stringhashLoop (combine h (c.signExtend 64)) s else .ok h

/-- `stringhash` (stringhash.hh:7-20). -/
def stringhash : Option (List (BitVec 8)) → R (BitVec 64)
  | none => .ok 0#64
  | some s => stringhashLoop combine0 s

/-- The loop of `stringhash_n` (stringhash.hh:27-34): `*s` is read before `n` is looked at. -/
def stringhashNLoop (h : BitVec 64) : List (BitVec 8) → Int → R (BitVec 64)
  | [], _ => .error .ub
  | c :: s, n => if c ≠ 0#8 ∧ n > 0 then stringhashNLoop (combine h (c.signExtend 64)) s (n - 1) else .ok h

/-- `stringhash_n` (stringhash.hh:22-36). -/
def stringhashN (s : Option (List (BitVec 8))) (n : Int) : R (BitVec 64) :=
  match s with
  | none => .ok 0#64
  | some s => if n ≤ 0 then .ok 0#64 else stringhashNLoop combine0 s n

end Verif.Hash
