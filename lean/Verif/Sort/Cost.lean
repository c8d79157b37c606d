import Verif.Sort.Model

/-
The algorithms of Model.lean with a count of the calls of the user's functor: `compare` for the
sorting functions and for `is_sorted`, `is_right` for `partition`. Each function is the function of
the same name without the final `C` in Model.lean, line by line, and returns the number of calls
beside the result. `CostLemmas.lean` proves that dropping the count gives back the function of
Model.lean, so that the counts are counts of the model whose results C08 to C13 describe.
-/
namespace Verif.Sort

variable {σ κ : Type _}

/-- `detail::sort2` (sort.hh:158-165): one call of `compare`. -/
def sort2C (A : Acc σ κ) (cmp : κ → κ → Bool) (s : σ) (ia ib : Nat) : R (σ × Nat) := do
  let a ← A.get s ia
  let b ← A.get s ib
  if cmp b a then do
    let s ← A.swap s ia ib
    pure (s, 1)
  else pure (s, 1)

/-- `detail::sort3` (sort.hh:167-173). -/
def sort3C (A : Acc σ κ) (cmp : κ → κ → Bool) (s : σ) (ia ib ic : Nat) : R (σ × Nat) := do
  let (s, c1) ← sort2C A cmp s ia ib
  let (s, c2) ← sort2C A cmp s ib ic
  let (s, c3) ← sort2C A cmp s ia ib
  pure (s, c1 + c2 + c3)

/-- Inner loop of the insertion sort (sort.hh:209-213): one call in each round. -/
def insertDownC (A : Acc σ κ) (cmp : κ → κ → Bool) (start : Nat) (s : σ) : Nat → R (σ × Nat)
  | 0 => .ok (s, 0)
  | j + 1 =>
    if j + 1 > start then do
      let a ← A.get s j
      let b ← A.get s (j + 1)
      if !cmp a b then do
        let s ← A.swap s j (j + 1)
        let (s, c) ← insertDownC A cmp start s j
        pure (s, c + 1)
      else pure (s, 1)
    else .ok (s, 0)

/-- Outer loop of the insertion sort (sort.hh:206-214). -/
def insertLoopC (A : Acc σ κ) (cmp : κ → κ → Bool) (start : Nat) (s : σ) (i : Nat) :
    Nat → R (σ × Nat)
  | 0 => .ok (s, 0)
  | n + 1 => do
    let (s, c1) ← insertDownC A cmp start s i
    let (s, c2) ← insertLoopC A cmp start s (i + 1) n
    pure (s, c1 + c2)

/-- `detail::small_sort` (sort.hh:184-215). -/
def smallSortC (A : Acc σ κ) (cmp : κ → κ → Bool) (s : σ) (start size : Nat) : R (σ × Nat) :=
  if size ≤ 1 then .ok (s, 0)
  else if size = 2 then sort2C A cmp s start (start + 1)
  else if size = 3 then sort3C A cmp s start (start + 1) (start + 2)
  else insertLoopC A cmp start s (start + 1) (size - 1)

/-- `while (compare(get(++first), pivot));` (sort.hh:231-234, 256-259). -/
def scanUpC (A : Acc σ κ) (cmp : κ → κ → Bool) (s : σ) (start : Nat) : Nat → Nat → R (Nat × Nat)
  | 0, _ => .error .ub
  | fuel + 1, first => do
    let x ← A.get s (first + 1)
    let p ← A.get s start
    if cmp x p then do
      let (f, c) ← scanUpC A cmp s start fuel (first + 1)
      pure (f, c + 1)
    else pure (first + 1, 1)

/-- `while (first < last && !compare(get(--last), pivot));` (sort.hh:238-242). -/
def scanDownGuardedC (A : Acc σ κ) (cmp : κ → κ → Bool) (s : σ) (start first : Nat) :
    Nat → R (Nat × Nat)
  | 0 => .ok (0, 0)
  | l + 1 =>
    if first < l + 1 then do
      let x ← A.get s l
      let p ← A.get s start
      if !cmp x p then do
        let (f, c) ← scanDownGuardedC A cmp s start first l
        pure (f, c + 1)
      else pure (l, 1)
    else .ok (l + 1, 0)

/-- `while (!compare(get(--last), pivot));` (sort.hh:243-247, 260-263). -/
def scanDownC (A : Acc σ κ) (cmp : κ → κ → Bool) (s : σ) (start : Nat) : Nat → R (Nat × Nat)
  | 0 => .error .ub
  | l + 1 => do
    let x ← A.get s l
    let p ← A.get s start
    if !cmp x p then do
      let (f, c) ← scanDownC A cmp s start l
      pure (f, c + 1)
    else pure (l, 1)

/-- The swapping loop of `partition_right` (sort.hh:253-264). -/
def partLoopC (A : Acc σ κ) (cmp : κ → κ → Bool) (start size : Nat) :
    Nat → σ → Nat → Nat → R ((σ × Nat) × Nat)
  | 0, s, first, last => if first < last then .error .ub else .ok ((s, first), 0)
  | fuel + 1, s, first, last =>
    if first < last then do
      let s ← A.swap s first last
      let (first, c1) ← scanUpC A cmp s start size first
      let (last, c2) ← scanDownC A cmp s start last
      let (r, c3) ← partLoopC A cmp start size fuel s first last
      pure (r, c1 + c2 + c3)
    else .ok ((s, first), 0)

/-- `detail::partition_right` (sort.hh:221-272). -/
def partitionRightC (A : Acc σ κ) (cmp : κ → κ → Bool) (s : σ) (start size : Nat) :
    R ((σ × Nat) × Nat) := do
  let (first, c1) ← scanUpC A cmp s start size start
  let (last, c2) ←
    if first - 1 = start then scanDownGuardedC A cmp s start first (start + size)
    else scanDownC A cmp s start (start + size)
  let ((s, first), c3) ← partLoopC A cmp start size size s first last
  let pivotPos := first - 1
  let s ← A.swap s pivotPos start
  pure ((s, pivotPos), c1 + c2 + c3)

/-- Pivot selection of `sort_ex_impl` (sort.hh:289-304). -/
def choosePivotC (A : Acc σ κ) (cmp : κ → κ → Bool) (s : σ) (start size : Nat) : R (σ × Nat) :=
  let end_ := start + size
  let half := size / 2
  if size > 128 then do
    let (s, c1) ← sort3C A cmp s start (start + half) (end_ - 1)
    let (s, c2) ← sort3C A cmp s (start + 1) (start + (half - 1)) (end_ - 2)
    let (s, c3) ← sort3C A cmp s (start + 2) (start + (half + 1)) (end_ - 3)
    let (s, c4) ← sort3C A cmp s (start + (half - 1)) (start + half) (start + (half + 1))
    let s ← A.swap s start (start + half)
    pure (s, c1 + c2 + c3 + c4)
  else sort3C A cmp s (start + half) start (end_ - 1)

/-- `detail::sort_ex_impl` (sort.hh:274-322) and `sort_ex` (sort.hh:373-376); `fuel` is the greatest
allowed recursion depth, as in `sortEx`. -/
def sortExC (A : Acc σ κ) (cmp : κ → κ → Bool) (select : Nat → Nat → R Bool) :
    Nat → σ → Nat → Nat → R (σ × Nat)
  | 0, _, _, _ => .error .ub
  | fuel + 1, s, start, size =>
    if size ≤ 16 then smallSortC A cmp s start size
    else do
      let (s, c1) ← choosePivotC A cmp s start size
      let ((s, pivotPos), c2) ← partitionRightC A cmp s start size
      let startL := start
      let sizeL := pivotPos - startL
      let startR := pivotPos + 1
      let sizeR := start + size - startR
      let selL ← select startL sizeL
      let (s, c3) ← if selL then sortExC A cmp select fuel s startL sizeL else pure (s, 0)
      let selR ← select startR sizeR
      let (s, c4) ← if selR then sortExC A cmp select fuel s startR sizeR else pure (s, 0)
      pure (s, c1 + c2 + c3 + c4)

/-- `sort_by` (sort.hh:426-435) and `sort`, with the number of comparisons. -/
def sortByC {α : Type _} (key : α → κ) (cmp : κ → κ → Bool) (l : List α) : R (List α × Nat) :=
  sortExC (listAcc key) cmp selectAll (l.length + 1) l 0 l.length

/-- `quickselect_by` (sort.hh:492-502) and `quickselect`, with the number of comparisons. -/
def quickselectByC {α : Type _} (key : α → κ) (cmp : κ → κ → Bool) (l : List α) (idx : BitVec 64) :
    R (List α × Nat) :=
  sortExC (listAcc key) cmp (indexInRange idx) (l.length + 1) l 0 l.length

/-- `while (first < end && !is_right(first)) first++;` (sort.hh:387-388); the number of calls of
`is_right` beside the result. -/
def scanLeftC (A : Acc σ Bool) (s : σ) : Nat → Nat → R (Nat × Nat)
  | first, 0 => .ok (first, 0)
  | first, n + 1 => do
    let r ← A.get s first
    if !r then do
      let (f, c) ← scanLeftC A s (first + 1) n
      pure (f, c + 1)
    else pure (first, 1)

/-- `while (last > start && is_right(last)) last--;` (sort.hh:389-390). -/
def scanRightC (A : Acc σ Bool) (s : σ) (start : Nat) : Nat → R (Nat × Nat)
  | 0 => .ok (0, 0)
  | l + 1 =>
    if l + 1 > start then do
      let r ← A.get s (l + 1)
      if r then do
        let (f, c) ← scanRightC A s start l
        pure (f, c + 1)
      else pure (l + 1, 1)
    else .ok (l + 1, 0)

/-- The loop of `partition_ex` (sort.hh:385-398). -/
def partitionLoopC (A : Acc σ Bool) (start end_ : Nat) :
    Nat → σ → Nat → Nat → R ((σ × Nat) × Nat)
  | 0, _, _, _ => .error .ub
  | fuel + 1, s, first, last => do
    let (first, c1) ← scanLeftC A s first (end_ - first)
    let (last, c2) ← scanRightC A s start last
    if first ≥ last then pure ((s, first), c1 + c2)
    else do
      let s ← A.swap s first last
      let (r, c3) ← partitionLoopC A start end_ fuel s (first + 1) (last - 1)
      pure (r, c1 + c2 + c3)

/-- `partition_by` (sort.hh:378-411), with the number of calls of `is_right`. -/
def partitionByC {α : Type _} (isRight : α → Bool) (l : List α) : R ((List α × Nat) × Nat) :=
  partitionLoopC (listAcc isRight) 0 (0 + l.length) (l.length + 1) l 0 (0 + l.length - 1)

/-- The loop of `is_sorted_ex` (sort.hh:531-533), with the number of comparisons. -/
def isSortedLoopC {α : Type _} (key : α → κ) (cmp : κ → κ → Bool) (l : List α) :
    Nat → Nat → R (Bool × Nat)
  | _, 0 => .ok (true, 0)
  | i, n + 1 => do
    let x ← (listAcc key).get l i
    let y ← (listAcc key).get l (i - 1)
    if cmp x y then pure (false, 1)
    else do
      let (b, c) ← isSortedLoopC key cmp l (i + 1) n
      pure (b, c + 1)

/-- `is_sorted`, `is_sorted_by` (sort.hh:527-549). -/
def isSortedByC {α : Type _} (key : α → κ) (cmp : κ → κ → Bool) (l : List α) : R (Bool × Nat) :=
  isSortedLoopC key cmp l 1 (l.length - 1)

end Verif.Sort
