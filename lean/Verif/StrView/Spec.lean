import Verif.StrView.Model
/-!
# What the operations on views mean, in terms of character sequences
-/
namespace Verif.StrView
open List

/-- The characters a view shows. -/
def View.chars (v : View) : List Chr := (v.mem.drop v.off).take v.size

/-- The view lies inside the array it points into, which is an object of fewer than `2^63` bytes. -/
structure View.Inside (v : View) : Prop where
  fits : v.off + v.size ≤ v.mem.length
  small : v.mem.length < 2 ^ 63

namespace Spec

/-- The needle stands at position `i` of the text. -/
def OccursAt (text needle : List Chr) (i : Nat) : Prop := ∃ a b, text = a ++ needle ++ b ∧ a.length = i

/-- `i` is the first position where `P` holds, `-1` if there is none. -/
def FirstIndex (P : Nat → Prop) (i : Int) : Prop :=
  (i = -1 ∧ ∀ k, ¬ P k) ∨ (∃ k : Nat, i = (k : Int) ∧ P k ∧ ∀ j, j < k → ¬ P j)

/-- `i` is the last position where `P` holds, `-1` if there is none. -/
def LastIndex (P : Nat → Prop) (i : Int) : Prop :=
  (i = -1 ∧ ∀ k, ¬ P k) ∨ (∃ k : Nat, i = (k : Int) ∧ P k ∧ ∀ j, k < j → ¬ P j)

/-- Lexicographic order: a proper prefix, or smaller at the first difference. -/
def LexLt (lt : Chr → Chr → Prop) (a b : List Chr) : Prop :=
  (∃ y t, b = a ++ y :: t) ∨ (∃ p x y s t, a = p ++ x :: s ∧ b = p ++ y :: t ∧ lt x y)

/-- The upper-case letters become lower-case ones, all other characters stay. -/
def lowerChr (c : Chr) : Chr := if 65 ≤ c.toNat ∧ c.toNat ≤ 90 then c + 32#8 else c

/-- Cuts a sequence at every character satisfying `p`. -/
def pieces (p : Chr → Bool) : List Chr → List (List Chr)
  | [] => [[]]
  | c :: t =>
    if p c then [] :: pieces p t
    else match pieces p t with
      | q :: qs => (c :: q) :: qs
      | [] => [[c]]

/-- Pieces and the separators between them, put together. -/
def weave : List (List Chr) → List Chr → List Chr
  | [], _ => []
  | [p], _ => p
  | p :: ps, [] => p ++ weave ps []
  | p :: ps, s :: ss => p ++ s :: weave ps ss

/-- `r` is `l` without its longest prefix of characters satisfying `p`. -/
def TrimmedStart (p : Chr → Bool) (l r : List Chr) : Prop :=
  ∃ a, l = a ++ r ∧ (∀ c ∈ a, p c = true) ∧ ∀ c t, r = c :: t → p c = false

/-- `r` is `l` without its longest suffix of characters satisfying `p`. -/
def TrimmedEnd (p : Chr → Bool) (l r : List Chr) : Prop :=
  ∃ a, l = r ++ a ∧ (∀ c ∈ a, p c = true) ∧ ∀ c t, r = t ++ [c] → p c = false

end Spec
end Verif.StrView
