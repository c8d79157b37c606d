import Verif.Common
/-!
# Elements seen as bytes and as elements of other types

Model of `span::as_bytes`, `as_writable_bytes`, `reinterpret_as`, `cc::as_byte_span`, `cc::from_byte_span` (`/repo/src/clean-core/span.hh` 101-117, 205-270),
`vector::reinterpret_as` (`/repo/src/clean-core/vector.hh` 116-144) and `cc::bit_cast` (`/repo/src/clean-core/bit_cast.hh`).

Memory is bytes at addresses; one block of it may be accessed.  A type is its size, its alignment and whether it is trivially copyable; a value is its bytes.
Accessing an object at an address that its alignment does not divide, or outside of the block, is undefined.  Strict aliasing is not modelled: the library relies on
compilers letting trivially copyable objects be accessed like this.  What a `static_assert` rejects is `none`.
-/
namespace Verif.Reint

abbrev Byte := BitVec 8

/-- A type: `sizeof`, `alignof` and `std::is_trivially_copyable_v`. -/
structure Ty where
  size : Nat
  align : Nat
  triv : Bool
deriving DecidableEq, Repr

/-- `std::byte`. -/
def byteTy : Ty := { size := 1, align := 1, triv := true }

/-- The memory and the bounds of the block that may be accessed. -/
structure Memory where
  byte : Nat → Byte
  lo : Nat
  hi : Nat

/-- The bytes from an address on. -/
def Memory.bytes (m : Memory) (a n : Nat) : List Byte := (List.range n).map fun i => m.byte (a + i)

/-- Reading an object. -/
def load (m : Memory) (T : Ty) (a : Nat) : R (List Byte) :=
  if a % T.align = 0 ∧ m.lo ≤ a ∧ a + T.size ≤ m.hi then .ok (m.bytes a T.size) else .error .ub

/-- Writing an object. -/
def store (m : Memory) (T : Ty) (a : Nat) (v : List Byte) : R Memory :=
  if a % T.align = 0 ∧ m.lo ≤ a ∧ a + T.size ≤ m.hi then
    .ok { m with byte := fun x => if a ≤ x ∧ x < a + T.size then v.getD (x - a) 0 else m.byte x }
  else .error .ub

/-- A span (span.hh 198-200): address and number of elements. -/
structure View where
  addr : Nat
  n : Nat
deriving DecidableEq, Repr

/-- `operator[]`, read (span.hh 60-64). -/
def get (m : Memory) (T : Ty) (v : View) (i : Nat) : R (List Byte) := do
  ccAssert (i < v.n)
  load m T (v.addr + i * T.size)

/-- `operator[]`, written to. -/
def set (m : Memory) (T : Ty) (v : View) (i : Nat) (x : List Byte) : R Memory := do
  ccAssert (i < v.n)
  store m T (v.addr + i * T.size) x

/-- `size_bytes()` (span.hh 57). -/
def sizeBytes (T : Ty) (v : View) : Nat := v.n * T.size % 2 ^ 64

/-- `as_bytes` and `as_writable_bytes` (span.hh 101-106). -/
def asBytes (T : Ty) (v : View) : View := { addr := v.addr, n := v.n * T.size % 2 ^ 64 }

/-- `reinterpret_as<U>` (span.hh 108-117). -/
def reinterpretAs (T U : Ty) (v : View) : Option (R View) :=
  if T.triv && U.triv then
    some (do
      ccAssert (sizeBytes T v % U.size = 0)
      .ok { addr := v.addr, n := v.n * T.size % 2 ^ 64 / U.size })
  else none

/-- What `as_byte_span` is called with (span.hh 209-243): a C array, a range with `data()` and `size()` or a single object. -/
inductive Source where
  | array (addr n : Nat) (T : Ty)
  | range (addr n : Nat) (T : Ty)
  | single (addr : Nat) (T : Ty)
deriving DecidableEq, Repr

/-- `as_byte_span(value)` (span.hh 205-244). -/
def asByteSpan : Source → Option (R View)
  | .array a n T => reinterpretAs T byteTy { addr := a, n := n }
  | .range a n T => if T.triv then some (.ok { addr := a, n := T.size * n % 2 ^ 64 }) else none
  | .single a T => if T.triv then some (.ok { addr := a, n := T.size }) else none

/-- `as_byte_span(value, offset, count)` (span.hh 246-252) with `subspan` (span.hh 88-92). -/
def asByteSpanSub (s : Source) (offset count : Nat) : Option (R View) :=
  (asByteSpan s).map fun r => do
    let v ← r
    ccAssert (offset ≤ v.n ∧ (offset + count) % 2 ^ 64 ≤ v.n)
    .ok { addr := v.addr + offset, n := count }

/-- `from_byte_span<T>(bytes)` (span.hh 254-270): the address of the object the result refers to. -/
def fromByteSpan (T : Ty) (v : View) : Option (R Nat) :=
  if T.triv then
    some (do
      ccAssert (v.n = T.size)
      .ok v.addr)
  else none

/-- The members of a vector (vector_base.hh 488-490); no block is address 0. -/
structure Vec where
  data : Nat
  size : Nat
  cap : Nat
deriving DecidableEq, Repr

/-- `vector<T>::reinterpret_as<U>` (vector.hh 123-141): the new vector and this one afterwards. -/
def vecReinterpret (T U : Ty) (v : Vec) : Option (Vec × Vec) :=
  if T.triv && U.triv && decide (U.align ≤ T.align) && decide (T.size % U.size = 0) then
    some ({ data := v.data, size := v.size * (T.size / U.size) % 2 ^ 64, cap := v.cap * (T.size / U.size) % 2 ^ 64 }, { data := 0, size := 0, cap := 0 })
  else none

/-- `memcpy(dst, src, n)` of values, byte by byte. -/
def memcpyLoop (src : List Byte) : (n : Nat) → List Byte → List Byte
  | 0, dst => dst
  | n + 1, dst => memcpyLoop src n (dst.set n (src.getD n 0))

/-- `bit_cast<To>(src)` (bit_cast.hh 10-19); `junk` are the bytes of the uninitialised result. -/
def bitCast (To From : Ty) (junk src : List Byte) : Option (List Byte) :=
  if To.triv && From.triv && decide (To.size = From.size) then some (memcpyLoop src To.size junk) else none

end Verif.Reint
