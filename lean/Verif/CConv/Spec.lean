import Verif.CConv.Model

/-! What a conversion should do: the object moves, and it is destroyed once, where it is then. -/
namespace Verif.CConv.Spec
open Verif.CConv

/-- `D` is derived from `U` (or the same), as far as it matters here: it is not smaller, and it has a trivial move constructor or destructor only
if `U` has. -/
structure Derived (U D : Cls) : Prop where
  size : U.size ≤ D.size
  move : D.trivMove = true → U.trivMove = true
  dtor : D.trivDtor = true → U.trivDtor = true

/-- A trivial move copies the bytes; any move makes an object of the right size. -/
structure Cls.Ok (c : Cls) : Prop where
  pos : 0 < c.size
  triv : c.trivMove = true → ∀ l, c.move l = (l, l)
  len : ∀ l, l.length = c.size → (c.move l).1.length = c.size ∧ (c.move l).2.length = c.size

/-- A box of base `U` that may hold a `D`: what the constructors check. -/
structure Holds (U D : Cls) (obj junk : List Byte) : Prop where
  derived : Derived U D
  okU : Cls.Ok U
  okD : Cls.Ok D
  len : obj.length = D.size
  room : (obj ++ junk).length = U.size
  move : U.trivMove = true → D.trivMove = true
  dtor : U.trivDtor = true → D.trivDtor = true

/-- The destination holds the object that was moved. -/
def Moved (D : Cls) (obj : List Byte) (b : Box) : Prop := b.data.take D.size = (D.move obj).1 ∧ D.size ≤ b.data.length

/-- If it has a destructor, it will run on the object in the destination. -/
def Destroyed (D T : Cls) (obj : List Byte) (b : Box) : Prop :=
  destroy T b = if D.trivDtor then [] else [(D.id, (D.move obj).1)]

end Verif.CConv.Spec
