import Verif.Common

/-!
Model of the conversions between capped boxes, `capped_box<T, MaxSize>` from `capped_box<U>` with `U` derived from `T`
(/repo/src/clean-core/experimental/capped_box.hh:124-164), with the sizes that `Verif/CBox` leaves out. The storage is an array of bytes. The
source has the default size `sizeof(U)` (fwd.hh:78-79), the destination has any size, and nothing relates the two (the `static_assert` of the
other constructors, capped_box.hh:60 and 73, is missing here).

Objects have no padding and their representation is their value. The bytes of the destination before the call are given (`junk`).
-/
namespace Verif.CConv

abbrev Byte := BitVec 8

/-- A class: its size, and what its move constructor and destructor do. -/
structure Cls where
  /-- a name for its destructor and its move constructor -/
  id : Nat
  size : Nat
  trivMove : Bool
  trivDtor : Bool
  /-- the new object and the old one after a move -/
  move : List Byte → List Byte × List Byte

/-- The members (capped_box.hh:17-44). `_move` and `_dtor` are functions of a class. -/
structure Box where
  data : List Byte
  dtor : Option Cls
  move : Option Cls

/-- `std::memcpy(dst, src, n)`: both arrays must have `n` bytes. -/
def memcpy (dst src : List Byte) (n : Nat) : R (List Byte) :=
  if n ≤ dst.length ∧ n ≤ src.length then .ok (src.take n ++ dst.drop n) else .error .ub

/-- The function in `_move` (capped_box.hh:221-222): the object is made in `dst`, which must have room for it. -/
def moveObject (c : Cls) (dst src : List Byte) : R (List Byte × List Byte) :=
  if c.size ≤ dst.length ∧ c.size ≤ src.length then
    .ok ((c.move (src.take c.size)).1 ++ dst.drop c.size, (c.move (src.take c.size)).2 ++ src.drop c.size)
  else .error .ub

/-- Take over the object (capped_box.hh:127-136, 153-162): `T` is the base class of the destination. -/
def takeOver (T : Cls) (b src : Box) : R (Box × Box) :=
  if T.trivMove then do
    let d ← memcpy b.data src.data b.data.length
    .ok ({ b with data := d }, src)
  else
    match src.move with
    | none => .ok ({ b with move := none }, { src with move := none })
    | some c => do
      let (d, s) ← moveObject c b.data src.data
      .ok ({ b with data := d, move := some c }, { src with data := s, move := none })

/-- Converting constructor (capped_box.hh:124-143). -/
def convert (T : Cls) (junk : List Byte) (src : Box) : R (Box × Box) := do
  let (b, src) ← takeOver T { data := junk, dtor := none, move := none } src
  .ok (if T.trivDtor then (b, src) else ({ b with dtor := src.dtor }, { src with dtor := none }))

/-- Destructor (capped_box.hh:186-191) of a box of base `T`: the destructors that ran, on which bytes. -/
def destroy (T : Cls) (b : Box) : List (Nat × List Byte) :=
  if T.trivDtor then [] else
    match b.dtor with
    | none => []
    | some c => [(c.id, b.data.take c.size)]

/-- A box of base `U` with an object of class `D` (capped_box.hh:57-64, 213-225): the static assertions 60, 219 and 224 hold. -/
def make (U D : Cls) (obj junk : List Byte) : Box :=
  { data := obj ++ junk, dtor := if U.trivDtor then none else some D, move := if U.trivMove then none else some D }

end Verif.CConv
