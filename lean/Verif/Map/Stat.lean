import Mathlib.Data.Rat.Floor
import Verif.Map.Model

/-!
Model of the functions that tell how the keys of a `cc::map` spread over its buckets (`/repo/src/clean-core/map.hh`).

Simplification: `double` arithmetic is exact (ℚ); the products and sums of chain lengths are `Nat` and do not wrap.
-/
namespace Verif.Map

variable {K V : Type _}

/-- `detail::bucket_count` (map.hh:483-487). -/
def bucketCount (m : MapSt K V) : Nat := m.entries.length

/-- `detail::bucket_idx` (map.hh:488-492). -/
def bucketIdx (H : HashEq K) (m : MapSt K V) (k : K) : R Nat := location H m.entries.length k

/-- `forward_list::size` (forward_list.hh:22-32): count the nodes one by one. -/
def chainSize : List (Node K V) → Nat
  | [] => 0
  | _ :: p => chainSize p + 1

/-- `detail::bucket_size` (map.hh:493-497). -/
def bucketSize (m : MapSt K V) (i : Nat) : R Nat := do
  let l ← bucket m.entries i
  pure (chainSize l)

/-- The loop `cost += bucket_size * bucket_size` (map.hh:468-473). -/
def chainCost : List (List (Node K V)) → ℚ → ℚ
  | [], cost => cost
  | l :: ls, cost => chainCost ls (cost + ((chainSize l * chainSize l : Nat) : ℚ))

/-- `experimental::compute_hash_badness` (map.hh:459-480). -/
def badness (m : MapSt K V) : ℚ :=
  if m.size = 0 then 0
  else
    let lambda : ℚ := (m.size : ℚ) / (m.entries.length : ℚ)
    let cost : ℚ := chainCost m.entries 0 / (m.size : ℚ)
    let overhead : ℚ := cost / (1 + lambda) - 1
    if overhead < 0 then 0 else overhead

end Verif.Map
