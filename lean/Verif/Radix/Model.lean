import Verif.Common

/-!
Model of the radix sort of `cc::atomic_linked_pool` (/repo/src/clean-core/atomic_linked_pool.cc:8-34).

Arrays of `uint32_t` are lists; `size_t` does not overflow since no count exceeds the length. Writing outside of an array is undefined.
-/
namespace Verif.Radix

/-- `(x >> shift) & 0xff` (atomic_linked_pool.cc:12, 20). -/
def digit (shift : Nat) (x : BitVec 32) : Nat := ((x >>> shift) &&& 0xff#32).toNat

/-- Array `index`; its subscripts are below 256. -/
abbrev Index := Nat → Nat

/-- Change one entry. -/
def Index.set (f : Index) (i v : Nat) : Index := fun j => if j = i then v else f j

/-- Counting loop (atomic_linked_pool.cc:11-12). -/
def countLoop (shift : Nat) : List (BitVec 32) → Index → Index
  | [], idx => idx
  | x :: xs, idx => countLoop shift xs (idx.set (digit shift x) (idx (digit shift x) + 1))

/-- Prefix sums (atomic_linked_pool.cc:13-18), `k` entries from `i` on are left. -/
def prefixLoop : (k i next : Nat) → Index → Index
  | 0, _, _, idx => idx
  | k + 1, i, next, idx => prefixLoop k (i + 1) (next + idx i) (idx.set i next)

/-- `dst[i] = x`. -/
def put (dst : List (BitVec 32)) (i : Nat) (x : BitVec 32) : R (List (BitVec 32)) := if i < dst.length then .ok (dst.set i x) else .error .ub

/-- Distribution loop (atomic_linked_pool.cc:19-20). -/
def moveLoop (shift : Nat) : List (BitVec 32) → Index → List (BitVec 32) → R (List (BitVec 32))
  | [], _, dst => .ok dst
  | x :: xs, idx, dst => do
    let dst ← put dst (idx (digit shift x)) x
    moveLoop shift xs (idx.set (digit shift x) (idx (digit shift x) + 1)) dst

/-- `radix_sort_pass` (atomic_linked_pool.cc:8-21); the result is the new content of `dst`. -/
def pass (src dst : List (BitVec 32)) (shift : Nat) : R (List (BitVec 32)) :=
  moveLoop shift src (prefixLoop 256 0 0 (countLoop shift src (fun _ => 0))) dst

/-- `radix_sort` (atomic_linked_pool.cc:28-34); the result is the new content of `a` and `temp`. -/
def radixSort (a temp : List (BitVec 32)) : R (List (BitVec 32) × List (BitVec 32)) := do
  let temp ← pass a temp (0 * 8)
  let a ← pass temp a (1 * 8)
  let temp ← pass a temp (2 * 8)
  let a ← pass temp a (3 * 8)
  .ok (a, temp)

end Verif.Radix
