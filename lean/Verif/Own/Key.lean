import Verif.Own.Model
import Verif.Hash.Model

/-!
Model of what makes the owning pointers usable as keys: the comparisons, `less` and `hash` of `cc::unique_ptr` (/repo/src/clean-core/unique_ptr.hh),
`cc::poly_unique_ptr` (poly_unique_ptr.hh) and `cc::shared_ptr` (shared_ptr.hh); the comparisons of `cc::box` (experimental/box.hh); and `cc::type_id_t`
(type_id.hh).

The pointers are those of `Verif.Own.Model`, where objects are numbered. Here every object has an address, `addr o`; the address of a freed object may be used
again for another one. A pointer of a class type is its address in 64 bits; `<` on pointers compares the addresses (as all compilers do; the language leaves it
unspecified for pointers to different objects).
-/
namespace Verif.Own.Key

/-- An address. -/
abbrev Addr := BitVec 64

/-- The null pointer, or the address of the object. -/
def addrOf (addr : Nat → Addr) : Option Nat → Addr
  | none => 0#64
  | some o => addr o

/-- `get()` of the pointer at `l` (unique_ptr.hh:60, poly_unique_ptr.hh:82, shared_ptr.hh:68-71). In a shared pointer it is the address of the control
block, which begins with the value. -/
def get (addr : Nat → Addr) (w : World) (l : Loc) : R Addr := do
  let p ← w.read l
  .ok (addrOf addr p)

/-- `operator==` of two pointers (unique_ptr.hh:73, poly_unique_ptr.hh:102, shared_ptr.hh:150). -/
def eq (addr : Nat → Addr) (w : World) (l r : Loc) : R Bool := do
  let a ← get addr w l
  let b ← get addr w r
  .ok (a == b)

/-- `operator!=` of two pointers (unique_ptr.hh:74, poly_unique_ptr.hh:103, shared_ptr.hh:151). -/
def ne (addr : Nat → Addr) (w : World) (l r : Loc) : R Bool := do
  let a ← get addr w l
  let b ← get addr w r
  .ok (a != b)

/-- `operator==` of a pointer and a plain one, on either side; with 0 `operator==(nullptr, p)` (unique_ptr.hh:75,81,83, poly_unique_ptr.hh:104,107,109). -/
def eqRaw (addr : Nat → Addr) (w : World) (l : Loc) (x : Addr) : R Bool := do
  let a ← get addr w l
  .ok (a == x)

/-- `operator!=` of a pointer and a plain one, on either side (unique_ptr.hh:76,82,84, poly_unique_ptr.hh:105,108,110). -/
def neRaw (addr : Nat → Addr) (w : World) (l : Loc) (x : Addr) : R Bool := do
  let a ← get addr w l
  .ok (a != x)

/-- `less` of two pointers (unique_ptr.hh:111-114, poly_unique_ptr.hh:140-143) and `operator<` of shared pointers (shared_ptr.hh:152). -/
def less (addr : Nat → Addr) (w : World) (l r : Loc) : R Bool := do
  let a ← get addr w l
  let b ← get addr w r
  .ok (decide (a.toNat < b.toNat))

/-- `operator<=` (shared_ptr.hh:153). -/
def le (addr : Nat → Addr) (w : World) (l r : Loc) : R Bool := do
  let a ← get addr w l
  let b ← get addr w r
  .ok (decide (a.toNat ≤ b.toNat))

/-- `operator>` (shared_ptr.hh:154). -/
def gt (addr : Nat → Addr) (w : World) (l r : Loc) : R Bool := do
  let a ← get addr w l
  let b ← get addr w r
  .ok (decide (a.toNat > b.toNat))

/-- `operator>=` (shared_ptr.hh:155). -/
def ge (addr : Nat → Addr) (w : World) (l r : Loc) : R Bool := do
  let a ← get addr w l
  let b ← get addr w r
  .ok (decide (a.toNat ≥ b.toNat))

/-- The eight bytes of an address in memory, lowest first. -/
def bytesOf (a : Addr) : List (BitVec 8) :=
  [a.extractLsb' 0 8, a.extractLsb' 8 8, a.extractLsb' 16 8, a.extractLsb' 24 8, a.extractLsb' 32 8, a.extractLsb' 40 8, a.extractLsb' 48 8,
    a.extractLsb' 56 8]

/-- `hash<unique_ptr<T>>` and `hash<poly_unique_ptr<T>>`: `uint64_t(v.get())` (unique_ptr.hh:104-108, poly_unique_ptr.hh:133-137). -/
def hashUnique (addr : Nat → Addr) (w : World) (l : Loc) : R (BitVec 64) := get addr w l

/-- `hash<shared_ptr<T>>`: the generic hash of the plain pointer (shared_ptr.hh:184-188, hash.hh:21-28). -/
def hashShared (addr : Nat → Addr) (w : World) (l : Loc) : R (BitVec 64) := do
  let a ← get addr w l
  .ok (Hash.bytes (bytesOf a))

/-! ### boxes -/

/-- `operator*` of a box; without a value (moved from) the assertion fails (experimental/box.hh:69-78). -/
def boxDeref {A : Type} : Option A → R A
  | none => .error .assert
  | some v => .ok v

/-- The conversions to `T&` and `T const&` (experimental/box.hh:80-81): without a value the null pointer is dereferenced. -/
def boxConvert {A : Type} : Option A → R A
  | none => .error .ub
  | some v => .ok v

/-- The six comparisons of two boxes (experimental/box.hh:97-126), where `f` is the comparison of the values. -/
def boxCompare {A B : Type} (f : A → B → Bool) (a : Option A) (b : Option B) : R Bool := do
  let x ← boxDeref a
  let y ← boxDeref b
  .ok (f x y)

/-- A comparison of a box with a value. There is no such operator, so the box is converted (experimental/box.hh:80-81). -/
def boxCompareValue {A B : Type} (f : A → B → Bool) (a : Option A) (y : B) : R Bool := do
  let x ← boxConvert a
  .ok (f x y)

/-! ### type ids -/

/-- `type_id_t` (type_id.hh:9-29): `id`. -/
structure TypeId where
  id : Addr
deriving DecidableEq

/-- `type_id_t()` (type_id.hh:18, 23). -/
def TypeId.none : TypeId := ⟨0#64⟩

/-- `type_id<T>()` (type_id.hh:42-46); `at_ t` is the address of `type_id_impl<t>::id`. -/
def typeId {T : Type} (at_ : T → Addr) (t : T) : TypeId := ⟨at_ t⟩

/-- `explicit operator bool` (type_id.hh:20). -/
def TypeId.valid (a : TypeId) : Bool := a.id != 0#64

/-- `operator==` and `operator!=` (type_id.hh:11-12). -/
def TypeId.eq (a b : TypeId) : Bool := a.id == b.id

@[inherit_doc TypeId.eq]
def TypeId.ne (a b : TypeId) : Bool := a.id != b.id

/-- `operator<`, `<=`, `>`, `>=` (type_id.hh:13-16). -/
def TypeId.lt (a b : TypeId) : Bool := decide (a.id.toNat < b.id.toNat)

@[inherit_doc TypeId.lt]
def TypeId.le (a b : TypeId) : Bool := decide (a.id.toNat ≤ b.id.toNat)

@[inherit_doc TypeId.lt]
def TypeId.gt (a b : TypeId) : Bool := decide (a.id.toNat > b.id.toNat)

@[inherit_doc TypeId.lt]
def TypeId.ge (a b : TypeId) : Bool := decide (a.id.toNat ≥ b.id.toNat)

/-- `hash<type_id_t>` (type_id.hh:48-56): its eight bytes read as a number. -/
def TypeId.hash (a : TypeId) : BitVec 64 := Hash.word (bytesOf a.id)

end Verif.Own.Key
