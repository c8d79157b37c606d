/-
Specification vocabulary for bit utilities, in terms of single bits and natural numbers.
-/
namespace Verif.Bits

/-- `c` is the number of zero bits above the highest one bit of `v`. -/
def IsClz {w : Nat} (v : BitVec w) (c : Nat) : Prop :=
  c ≤ w ∧ (∀ i, w - c ≤ i → v.getLsbD i = false) ∧ (c < w → v.getLsbD (w - 1 - c) = true)

/-- `c` is the number of zero bits below the lowest one bit of `v`. -/
def IsCtz {w : Nat} (v : BitVec w) (c : Nat) : Prop :=
  c ≤ w ∧ (∀ i, i < c → v.getLsbD i = false) ∧ (c < w → v.getLsbD c = true)

/-- `n` is a power of two. -/
def IsPowerOfTwo (n : Nat) : Prop := ∃ k, n = 2 ^ k

/-- `r` is the least multiple of `a` that is at least `v`. -/
def IsAlignUp (v a r : Nat) : Prop := a ∣ r ∧ v ≤ r ∧ ∀ m, a ∣ m → v ≤ m → r ≤ m

/-- `r` is the greatest multiple of `a` that is at most `v`. -/
def IsAlignDown (v a r : Nat) : Prop := a ∣ r ∧ r ≤ v ∧ ∀ m, a ∣ m → m ≤ v → m ≤ r

end Verif.Bits
