import Mathlib.Data.Rat.Floor
import Verif.Map.Spec

/-!
What the numbers about buckets mean, in terms of the entries of the abstract map and of the bucket each key belongs to.
-/
namespace Verif.Map.AMap

variable {K V : Type _}

/-- The entries whose key belongs to bucket `i`. -/
def inBucket (f : K → Nat) (i : Nat) (s : AMap K V) : Nat := s.countP (fun p => f p.1 == i)

/-- The pairs of entries (first and second, an entry also with itself) whose keys belong to the same bucket. -/
def sharing (f : K → Nat) (s : AMap K V) : Nat := (s.map (fun p => s.inBucket f (f p.1))).sum

/-- The badness of a map of `s` with `c` buckets: over all entries, the mean number of entries in the bucket of the entry, compared
to the mean that keys spread at random would give, `1 + n / c`; as a relative excess, none if there is less than that. -/
def badness (f : K → Nat) (c : Nat) (s : AMap K V) : ℚ :=
  max 0 ((s.sharing f : ℚ) / (s.length : ℚ) / (1 + (s.length : ℚ) / (c : ℚ)) - 1)

end Verif.Map.AMap
