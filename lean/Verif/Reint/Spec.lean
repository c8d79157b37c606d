import Verif.Reint.Model
/-!
# What a user expects of other views of the same elements
-/
namespace Verif.Reint

/-- A type of C++: not empty, and the size is a multiple of the alignment. -/
structure Ty.Ok (T : Ty) : Prop where
  pos : 0 < T.size
  align : 0 < T.align
  mult : T.size % T.align = 0

/-- Alignments are powers of two. -/
def Ty.Pow (T : Ty) : Prop := ∃ k, T.align = 2 ^ k

/-- The elements of the span are objects in the block. -/
structure Valid (m : Memory) (T : Ty) (v : View) : Prop where
  lo : m.lo ≤ v.addr
  hi : v.addr + v.n * T.size ≤ m.hi
  bound : m.hi < 2 ^ 64
  aligned : v.addr % T.align = 0

/-- The elements: `e i` are the bytes of element `i`. -/
def Holds (m : Memory) (T : Ty) (v : View) (e : Nat → List Byte) : Prop := ∀ i, i < v.n → get m T v i = .ok (e i) ∧ (e i).length = T.size

/-- All bytes of `n` elements in order. -/
def concat (n : Nat) (e : Nat → List Byte) : List Byte := (List.range n).flatMap e

/-- A vector owns a block with room for its capacity; the elements are the first ones in it. -/
structure VecOk (m : Memory) (T : Ty) (v : Vec) : Prop where
  cap : v.size ≤ v.cap
  lo : v.data = m.lo
  hi : v.data + v.cap * T.size = m.hi
  bound : m.hi < 2 ^ 64
  aligned : v.data % T.align = 0

/-- The elements of a vector as a span. -/
def Vec.view (v : Vec) : View := { addr := v.data, n := v.size }

end Verif.Reint
