/-!
# What the size classes mean

The free blocks are kept in 25 × 32 classes.  First level 0 holds the sizes below 256 in
steps of 8 bytes; first level `f + 1` holds the sizes from `2^(f+8)` up to `2^(f+9)`, cut
into 32 ranges of equal length.
-/
namespace Verif.Tlsf.Spec

/-- The smallest size in the class. -/
def lower (fl sl : Nat) : Nat := if fl = 0 then 8 * sl else 2 ^ (fl + 7) + sl * 2 ^ (fl + 2)

/-- The first size behind the class. -/
def upper (fl sl : Nat) : Nat := if fl = 0 then 8 * (sl + 1) else 2 ^ (fl + 7) + (sl + 1) * 2 ^ (fl + 2)

/-- The size belongs to the class. -/
def InClass (fl sl size : Nat) : Prop := lower fl sl ≤ size ∧ size < upper fl sl

/-- The second class is the first one or a later one. -/
def ClassLe (fl sl fl' sl' : Nat) : Prop := fl < fl' ∨ (fl = fl' ∧ sl ≤ sl')

end Verif.Tlsf.Spec
