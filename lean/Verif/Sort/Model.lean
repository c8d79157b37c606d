import Verif.Common

/-
Model of /repo/src/clean-core/sort.hh.

The C++ algorithms work on a "virtual range" through the functors `get`, `compare`, `swap` and
`select`. Here the range is a state `σ` with an accessor `Acc σ κ` that can fail (out of bounds).

Simplifications:
* indices are natural numbers (the wrappers all use `start = 0`); decrementing an index 0 is
  reported as a fault. `int64_t` overflow is not modelled, except in the selectors.
* loops whose exit condition is a property of the data (`while (compare(get(++first), pivot))`)
  carry a step bound; running out of steps is reported as a fault. The theorems show that the
  loops end with an `.ok`, i.e. never by the bound.
* stack exhaustion is not a fault; how deep the recursion of `sort_ex_impl` goes is the subject of
  CostProps.lean.
-/
namespace Verif.Sort

/-- The `get` and `swap` functors (sort.hh:29-31). -/
structure Acc (σ κ : Type _) where
  get : σ → Nat → R κ
  swap : σ → Nat → Nat → R σ

variable {σ κ : Type _}

/-- `detail::sort2` (sort.hh:158-165). -/
def sort2 (A : Acc σ κ) (cmp : κ → κ → Bool) (s : σ) (ia ib : Nat) : R σ := do
  let a ← A.get s ia
  let b ← A.get s ib
  if cmp b a then A.swap s ia ib else pure s

/-- `detail::sort3` (sort.hh:167-173). -/
def sort3 (A : Acc σ κ) (cmp : κ → κ → Bool) (s : σ) (ia ib ic : Nat) : R σ := do
  let s ← sort2 A cmp s ia ib
  let s ← sort2 A cmp s ib ic
  sort2 A cmp s ia ib

/-- Inner loop of the insertion sort (sort.hh:209-213): `j` moves down. -/
def insertDown (A : Acc σ κ) (cmp : κ → κ → Bool) (start : Nat) (s : σ) : Nat → R σ
  | 0 => .ok s
  | j + 1 =>
    if j + 1 > start then do
      let a ← A.get s j
      let b ← A.get s (j + 1)
      if !cmp a b then do
        let s ← A.swap s j (j + 1)
        insertDown A cmp start s j
      else pure s
    else .ok s

/-- Outer loop of the insertion sort (sort.hh:206-214), over `n` values of `i` beginning at `i`. -/
def insertLoop (A : Acc σ κ) (cmp : κ → κ → Bool) (start : Nat) (s : σ) (i : Nat) : Nat → R σ
  | 0 => .ok s
  | n + 1 => do
    let s ← insertDown A cmp start s i
    insertLoop A cmp start s (i + 1) n

/-- `detail::small_sort` (sort.hh:184-215). -/
def smallSort (A : Acc σ κ) (cmp : κ → κ → Bool) (s : σ) (start size : Nat) : R σ :=
  if size ≤ 1 then .ok s
  else if size = 2 then sort2 A cmp s start (start + 1)
  else if size = 3 then sort3 A cmp s start (start + 1) (start + 2)
  else insertLoop A cmp start s (start + 1) (size - 1)

/-- `while (compare(get(++first), pivot));` (sort.hh:231-234, 256-259). `pivot` is a reference to
the slot `start` (`auto&& pivot = get(start)`, sort.hh:225) and is read through it. -/
def scanUp (A : Acc σ κ) (cmp : κ → κ → Bool) (s : σ) (start : Nat) : Nat → Nat → R Nat
  | 0, _ => .error .ub
  | fuel + 1, first => do
    let x ← A.get s (first + 1)
    let p ← A.get s start
    if cmp x p then scanUp A cmp s start fuel (first + 1) else pure (first + 1)

/-- `while (first < last && !compare(get(--last), pivot));` (sort.hh:238-242). -/
def scanDownGuarded (A : Acc σ κ) (cmp : κ → κ → Bool) (s : σ) (start first : Nat) : Nat → R Nat
  | 0 => .ok 0
  | l + 1 =>
    if first < l + 1 then do
      let x ← A.get s l
      let p ← A.get s start
      if !cmp x p then scanDownGuarded A cmp s start first l else pure l
    else .ok (l + 1)

/-- `while (!compare(get(--last), pivot));` (sort.hh:243-247, 260-263). -/
def scanDown (A : Acc σ κ) (cmp : κ → κ → Bool) (s : σ) (start : Nat) : Nat → R Nat
  | 0 => .error .ub
  | l + 1 => do
    let x ← A.get s l
    let p ← A.get s start
    if !cmp x p then scanDown A cmp s start l else pure l

/-- The swapping loop of `partition_right` (sort.hh:253-264); `size` bounds the inner scan.
Returns the state and the final `first`. -/
def partLoop (A : Acc σ κ) (cmp : κ → κ → Bool) (start size : Nat) :
    Nat → σ → Nat → Nat → R (σ × Nat)
  | 0, s, first, last => if first < last then .error .ub else .ok (s, first)
  | fuel + 1, s, first, last =>
    if first < last then do
      let s ← A.swap s first last
      let first ← scanUp A cmp s start size first
      let last ← scanDown A cmp s start last
      partLoop A cmp start size fuel s first last
    else .ok (s, first)

/-- `detail::partition_right` (sort.hh:221-272); the output flag `was_already_partitioned` is never
read by the caller and left out. Returns the state and the pivot position. -/
def partitionRight (A : Acc σ κ) (cmp : κ → κ → Bool) (s : σ) (start size : Nat) :
    R (σ × Nat) := do
  let first ← scanUp A cmp s start size start
  let last ←
    if first - 1 = start then scanDownGuarded A cmp s start first (start + size)
    else scanDown A cmp s start (start + size)
  let (s, first) ← partLoop A cmp start size size s first last
  let pivotPos := first - 1
  let s ← A.swap s pivotPos start
  pure (s, pivotPos)

/-- Pivot selection of `sort_ex_impl` (sort.hh:289-304): median of 3 or pseudomedian of 9. -/
def choosePivot (A : Acc σ κ) (cmp : κ → κ → Bool) (s : σ) (start size : Nat) : R σ :=
  let end_ := start + size
  let half := size / 2
  if size > 128 then do
    let s ← sort3 A cmp s start (start + half) (end_ - 1)
    let s ← sort3 A cmp s (start + 1) (start + (half - 1)) (end_ - 2)
    let s ← sort3 A cmp s (start + 2) (start + (half + 1)) (end_ - 3)
    let s ← sort3 A cmp s (start + (half - 1)) (start + half) (start + (half + 1))
    A.swap s start (start + half)
  else sort3 A cmp s (start + half) start (end_ - 1)

/-- `detail::sort_ex_impl` (sort.hh:274-322) and `sort_ex` (sort.hh:373-376). `fuel` bounds the
recursion depth. -/
def sortEx (A : Acc σ κ) (cmp : κ → κ → Bool) (select : Nat → Nat → R Bool) :
    Nat → σ → Nat → Nat → R σ
  | 0, _, _, _ => .error .ub
  | fuel + 1, s, start, size =>
    if size ≤ 16 then smallSort A cmp s start size
    else do
      let s ← choosePivot A cmp s start size
      let (s, pivotPos) ← partitionRight A cmp s start size
      let startL := start
      let sizeL := pivotPos - startL
      let startR := pivotPos + 1
      let sizeR := start + size - startR
      let selL ← select startL sizeL
      let s ← if selL then sortEx A cmp select fuel s startL sizeL else pure s
      let selR ← select startR sizeR
      if selR then sortEx A cmp select fuel s startR sizeR else pure s

/-- `cc::swap(values[a], values[b])` on one array (`values_swap`, sort.hh:348-354). -/
def swapAt {α : Type _} (l : List α) (i j : Nat) : R (List α) :=
  match l[i]?, l[j]? with
  | some x, some y => .ok ((l.set i y).set j x)
  | _, _ => .error .ub

/-- `values_key_access` (sort.hh:340-347) and `values_swap`; `values_access` is `key = id`. -/
def listAcc {α : Type _} (key : α → κ) : Acc (List α) κ where
  get l i := match l[i]? with
    | some x => .ok (key x)
    | none => .error .ub
  swap := swapAt

/-- `cc::constant_function<true>` as a selector. -/
def selectAll : Nat → Nat → R Bool := fun _ _ => .ok true

/-- `sort_by` (sort.hh:426-435); `sort` is `key = id` (sort.hh:415-425), `sort_descending` is
`cmp = greater` (sort.hh:436-446). -/
def sortBy {α : Type _} (key : α → κ) (cmp : κ → κ → Bool) (l : List α) : R (List α) :=
  sortEx (listAcc key) cmp selectAll (l.length + 1) l 0 l.length

/-- Conversion `int64_t(x)` of a `size_t`. -/
def toInt64 (x : BitVec 64) : Int := x.toInt

/-- `int64_t` addition; overflow is undefined behaviour. -/
def addInt64 (a b : Int) : R Int :=
  if -(2 : Int) ^ 63 ≤ a + b ∧ a + b < 2 ^ 63 then .ok (a + b) else .error .ub

/-- `index_in_range{int64_t(idx)}` (sort.hh:356-361). -/
def indexInRange (idx : BitVec 64) (start size : Nat) : R Bool :=
  if (start : Int) ≤ toInt64 idx then do
    let e ← addInt64 start size
    pure (decide (toInt64 idx < e))
  else .ok false

/-- `overlaps_range{int64_t(idx), int64_t(count)}` (sort.hh:362-368). -/
def overlapsRange (idx count : BitVec 64) (start size : Nat) : R Bool := do
  let e ← addInt64 (toInt64 idx) (toInt64 count)
  if (start : Int) ≤ e then
    let e2 ← addInt64 start size
    pure (decide (toInt64 idx ≤ e2))
  else pure false

/-- `quickselect_by` (sort.hh:492-502); `quickselect` is `key = id` (sort.hh:481-491). -/
def quickselectBy {α : Type _} (key : α → κ) (cmp : κ → κ → Bool) (l : List α) (idx : BitVec 64) :
    R (List α) :=
  sortEx (listAcc key) cmp (indexInRange idx) (l.length + 1) l 0 l.length

/-- `quickselect_range_by` (sort.hh:515-525); `quickselect_range` is `key = id`
(sort.hh:504-514). -/
def quickselectRangeBy {α : Type _} (key : α → κ) (cmp : κ → κ → Bool) (l : List α)
    (idx count : BitVec 64) : R (List α) :=
  sortEx (listAcc key) cmp (overlapsRange idx count) (l.length + 1) l 0 l.length

/-- The swap functor of `sort_multi` on the value arrays (sort.hh:463): all of them, in order. -/
def swapAll {β : Type _} : List (List β) → Nat → Nat → R (List (List β))
  | [], _, _ => .ok []
  | v :: vs, i, j => do
    let v ← swapAt v i j
    let vs ← swapAll vs i j
    pure (v :: vs)

/-- The functors of `sort_multi` (sort.hh:457-465). The value arrays all have one Lean element type
`β` (a sum type if they differ). -/
def multiAcc {β : Type _} : Acc (List κ × List (List β)) κ where
  get s i := match s.1[i]? with
    | some x => .ok x
    | none => .error .ub
  swap s i j := do
    let ks ← swapAt s.1 i j
    let vs ← swapAll s.2 i j
    pure (ks, vs)

/-- `sort_multi` (sort.hh:448-465). -/
def sortMulti {β : Type _} (cmp : κ → κ → Bool) (keys : List κ) (values : List (List β)) :
    R (List κ × List (List β)) := do
  ccAssert (values.all (fun v => v.length == keys.length))
  sortEx multiAcc cmp selectAll (keys.length + 1) (keys, values) 0 keys.length

/-- One row of a list of arrays; reading past the end of an array is a fault. -/
def rowAt {β : Type _} : List (List β) → Nat → R (List β)
  | [], _ => .ok []
  | v :: vs, i => match v[i]? with
    | some x => do
      let r ← rowAt vs i
      pure (x :: r)
    | none => .error .ub

/-- The functors of `sort_multi_by` (sort.hh:473-478): the key is computed from the whole row. -/
def multiByAcc {β : Type _} (key : List β → κ) : Acc (List (List β)) κ where
  get s i := do
    let r ← rowAt s i
    pure (key r)
  swap := swapAll

/-- `sort_multi_by` (sort.hh:466-479). The comma expression at sort.hh:471 makes `size` the size of
the last array. -/
def sortMultiBy {β : Type _} (key : List β → κ) (cmp : κ → κ → Bool) (values : List (List β)) :
    R (List (List β)) := do
  let size := (values.getLast?.map List.length).getD 0
  ccAssert (values.all (fun v => v.length == size))
  sortEx (multiByAcc key) cmp selectAll (size + 1) values 0 size

/-- `while (first < end && !is_right(first)) first++;` (sort.hh:387-388); `n = end - first`. -/
def scanLeft (A : Acc σ Bool) (s : σ) (first : Nat) : Nat → R Nat
  | 0 => .ok first
  | n + 1 => do
    let r ← A.get s first
    if !r then scanLeft A s (first + 1) n else pure first

/-- `while (last > start && is_right(last)) last--;` (sort.hh:389-390). -/
def scanRight (A : Acc σ Bool) (s : σ) (start : Nat) : Nat → R Nat
  | 0 => .ok 0
  | l + 1 =>
    if l + 1 > start then do
      let r ← A.get s (l + 1)
      if r then scanRight A s start l else pure (l + 1)
    else .ok (l + 1)

/-- The loop of `partition_ex` (sort.hh:385-398); `A.get` is `is_right`. -/
def partitionLoop (A : Acc σ Bool) (start end_ : Nat) : Nat → σ → Nat → Nat → R (σ × Nat)
  | 0, _, _, _ => .error .ub
  | fuel + 1, s, first, last => do
    let first ← scanLeft A s first (end_ - first)
    let last ← scanRight A s start last
    if first ≥ last then pure (s, first)
    else do
      let s ← A.swap s first last
      partitionLoop A start end_ fuel s (first + 1) (last - 1)

/-- `partition_ex` (sort.hh:378-401). For `start = size = 0` the C++ `last` is -1, here 0; both
leave every loop at once. -/
def partitionEx (A : Acc σ Bool) (s : σ) (start size : Nat) : R (σ × Nat) :=
  partitionLoop A start (start + size) (size + 1) s start (start + size - 1)

/-- `partition_by` (sort.hh:403-411). -/
def partitionBy {α : Type _} (isRight : α → Bool) (l : List α) : R (List α × Nat) :=
  partitionEx (listAcc isRight) l 0 l.length

/-- The loop of `is_sorted_ex` (sort.hh:531-533) over `n` values of `i`. -/
def isSortedLoop {α : Type _} (key : α → κ) (cmp : κ → κ → Bool) (l : List α) : Nat → Nat → R Bool
  | _, 0 => .ok true
  | i, n + 1 => do
    let x ← (listAcc key).get l i
    let y ← (listAcc key).get l (i - 1)
    if cmp x y then pure false else isSortedLoop key cmp l (i + 1) n

/-- `is_sorted`, `is_sorted_by` (sort.hh:527-549). -/
def isSortedBy {α : Type _} (key : α → κ) (cmp : κ → κ → Bool) (l : List α) : R Bool :=
  isSortedLoop key cmp l 1 (l.length - 1)

/-- The loop of `is_strictly_sorted_ex` (sort.hh:555-557) over `n` values of `i`. -/
def isStrictlySortedLoop {α : Type _} (key : α → κ) (cmp : κ → κ → Bool) (l : List α) :
    Nat → Nat → R Bool
  | _, 0 => .ok true
  | i, n + 1 => do
    let x ← (listAcc key).get l (i - 1)
    let y ← (listAcc key).get l i
    if !cmp x y then pure false else isStrictlySortedLoop key cmp l (i + 1) n

/-- `is_strictly_sorted`, `is_strictly_sorted_by` (sort.hh:551-573). -/
def isStrictlySortedBy {α : Type _} (key : α → κ) (cmp : κ → κ → Bool) (l : List α) : R Bool :=
  isStrictlySortedLoop key cmp l 1 (l.length - 1)

end Verif.Sort
