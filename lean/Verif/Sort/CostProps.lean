import Verif.Sort.CostEqual
import Verif.Sort.Props

/-!
Property C104: how many calls of the user's functor the sort family makes, and how deep its
recursion goes. The counts are those of `Cost.lean`, which computes the same results as the model of
C08 to C12 (`C104_counts`).
-/
namespace Verif.Sort

variable {α κ : Type}

/-- **C104**: the counted functions compute the results of the model of C08, C09, C11 and C12. -/
theorem C104_counts (key : α → κ) (cmp : κ → κ → Bool) (isRight : α → Bool) (l : List α)
    (idx : BitVec 64) :
    (sortByC key cmp l).map Prod.fst = sortBy key cmp l ∧
    (quickselectByC key cmp l idx).map Prod.fst = quickselectBy key cmp l idx ∧
    (partitionByC isRight l).map Prod.fst = partitionBy isRight l ∧
    (isSortedByC key cmp l).map Prod.fst = isSortedBy key cmp l :=
  ⟨sortExC_erase .., sortExC_erase .., partitionLoopC_erase .., isSortedLoopC_erase ..⟩

/-- **C104** (partial): with a strict weak order `sort` needs at most `n² + 13 n` comparisons.
Missing: the documented `O(n log n)`, which is false of the code (`C104_sort_not_nlogn`). -/
theorem C104_sort_partial (key : α → κ) (cmp : κ → κ → Bool) (W : StrictWeak cmp) (l : List α) :
    ∃ l' c, sortByC key cmp l = .ok (l', c) ∧ c ≤ l.length * l.length + 13 * l.length := by
  cases l with
  | nil => exact ⟨[], 0, by simp [sortByC, sortExC, smallSortC], by simp⟩
  | cons d l =>
    obtain ⟨l', c, e, -, k⟩ := sortExC_cost (list_view key (d :: l).length d) W (select := selectAll)
      (fun _ _ _ => ⟨true, rfl⟩) ((d :: l).length + 1) (start := 0) (size := (d :: l).length)
      (by omega) (by omega) (s := d :: l) rfl
    exact ⟨l', c, e, k⟩

/-- **C104** (partial): the same bound for `quickselect`. Missing: the documented `O(n)`, which is
false of the code (`C104_quickselect_not_linear`). -/
theorem C104_quickselect_partial (key : α → κ) (cmp : κ → κ → Bool) (W : StrictWeak cmp)
    (l : List α) (idx : BitVec 64) (hl : l.length < 2 ^ 63) :
    ∃ l' c, quickselectByC key cmp l idx = .ok (l', c) ∧
      c ≤ l.length * l.length + 13 * l.length := by
  cases l with
  | nil => exact ⟨[], 0, by simp [quickselectByC, sortExC, smallSortC], by simp⟩
  | cons d l =>
    obtain ⟨l', c, e, -, k⟩ := sortExC_cost (list_view key (d :: l).length d) W
      (select := indexInRange idx) (fun _ _ hs => indexInRange_total idx hl hs)
      ((d :: l).length + 1) (start := 0) (size := (d :: l).length)
      (by omega) (by omega) (s := d :: l) rfl
    exact ⟨l', c, e, k⟩

/-- **C104**: `partition_by` asks `is_right` at most `n + 2` times. -/
theorem C104_partition (isRight : α → Bool) (l : List α) :
    ∃ r c, partitionByC isRight l = .ok (r, c) ∧ c ≤ l.length + 2 := by
  cases l with
  | nil => exact ⟨([], 0), 0, by simp [partitionByC, partitionLoopC, scanLeftC, scanRightC], by simp⟩
  | cons d l =>
    obtain ⟨l', p, c, e, k⟩ := partitionLoopC_cost (list_view isRight (d :: l).length d)
      ((d :: l).length + 1) (s := d :: l) rfl (first := 0) (last := (d :: l).length - 1) (by omega)
      (by simp) (by omega) (by simp) (fun k hk => by omega) (fun k a b => by omega)
    refine ⟨(l', p), c, ?_, ?_⟩
    · rw [partitionByC, Nat.zero_add]; exact e
    · simp only [List.length_cons] at k ⊢; omega

/-- Both extra calls occur. -/
example : partitionByC (fun n : Nat => decide (n ≥ 5)) [1, 2, 8, 9] =
    .ok (([1, 2, 8, 9], 2), 6) := by decide +kernel
example : partitionByC (fun n : Nat => decide (n ≥ 5)) [7, 1, 9, 4, 5, 0, 2] =
    .ok (([2, 1, 0, 4, 5, 9, 7], 4), 9) := by decide +kernel

/-- **C104**: `is_sorted` compares at most `n - 1` times. -/
theorem C104_is_sorted (key : α → κ) (cmp : κ → κ → Bool) (l : List α) :
    ∃ b c, isSortedByC key cmp l = .ok (b, c) ∧ c ≤ l.length - 1 := by
  cases l with
  | nil => exact ⟨true, 0, rfl, by simp⟩
  | cons d l =>
    obtain ⟨b, e, -⟩ := isSortedLoop_ok key cmp (d :: l) ((d :: l).length - 1) 1 (by omega)
      (by simp; omega)
    obtain ⟨c, h⟩ := of_erase ((isSortedLoopC_erase key cmp (d :: l) 1 ((d :: l).length - 1)).trans e)
    exact ⟨b, c, h, isSortedLoopC_cost h⟩

example : isSortedByC id (fun a b : Nat => decide (a < b)) [1, 3, 3, 7, 9] = .ok (true, 4) := by
  decide +kernel
example : isSortedByC id (fun a b : Nat => decide (a < b)) [1, 3, 2, 7, 9] = .ok (false, 2) := by
  decide +kernel

/-! ### Equal elements -/

/-- **C104**: sorting `n` equal elements takes at least `(n² - 128) / 2` comparisons. -/
theorem C104_sort_quadratic (key : α → κ) (cmp : κ → κ → Bool) (x : α)
    (h : cmp (key x) (key x) = false) (n : Nat) :
    ∃ c, sortByC key cmp (List.replicate n x) = .ok (List.replicate n x, c) ∧
      n * n ≤ 2 * c + 128 := by
  obtain ⟨l', c, e, v, k⟩ := eq_sortEx (replicate_view key n x) h (select := selectAll) (end_ := n)
    (Nat.le_refl n) (fun _ _ => ⟨true, rfl⟩) (fun _ _ _ _ => rfl) (n + 1) (start := 0) (size := n)
    (by omega) (by omega) (s := List.replicate n x) rfl
  subst v
  refine ⟨c, ?_, k⟩
  rw [sortByC, List.length_replicate]
  exact e

example : (sortByC id (fun a b : Nat => decide (a < b)) (List.replicate 40 7)).map Prod.snd =
    .ok 876 := by decide +kernel

theorem two_pow_gt (a : Nat) : 2 * a * (2 * a + 8) + 2 ≤ 2 ^ (2 * a + 8) := by
  have h : a + 1 ≤ 2 ^ a := Nat.lt_two_pow_self
  have h2 : (a + 1) * (a + 1) ≤ 2 ^ a * 2 ^ a := Nat.mul_le_mul h h
  have e : 2 ^ (2 * a + 8) = 256 * (2 ^ a * 2 ^ a) := by
    rw [show 2 * a + 8 = a + a + 8 by omega, Nat.pow_add, Nat.pow_add]
    omega
  rw [e]
  have e1 : 2 * a * (2 * a + 8) + 2 = 4 * (a * a) + 16 * a + 2 := by ring
  have e2 : (a + 1) * (a + 1) = a * a + 2 * a + 1 := by ring
  omega

/-- **C104** (violation): no constant `a` bounds the comparisons of `sort` by `a (n log₂ n + 1)`,
although the documentation (sort.hh:61-64) promises it in the worst case. -/
theorem C104_sort_not_nlogn : ¬ ∃ a : Nat, ∀ (l l' : List Nat) (c : Nat),
    sortByC id (fun a b : Nat => decide (a < b)) l = .ok (l', c) →
      c ≤ a * (l.length * Nat.log2 l.length + 1) := by
  rintro ⟨a, h⟩
  obtain ⟨c, e, k⟩ := C104_sort_quadratic id (fun a b : Nat => decide (a < b)) 0 (by simp)
    (2 ^ (2 * a + 8))
  have := h _ _ _ e
  rw [List.length_replicate, Nat.log2_two_pow] at this
  have g := two_pow_gt a
  have g2 : 128 + 2 * a ≤ 2 ^ (2 * a + 8) := by
    have h : a + 1 ≤ 2 ^ a := Nat.lt_two_pow_self
    have h' : 1 ≤ 2 ^ a := by omega
    have e : 2 ^ (2 * a + 8) = 256 * (2 ^ a * 2 ^ a) := by
      rw [show 2 * a + 8 = a + a + 8 by omega, Nat.pow_add, Nat.pow_add]
      omega
    have h2 : 2 ^ a * 1 ≤ 2 ^ a * 2 ^ a := Nat.mul_le_mul_left _ h'
    omega
  generalize 2 ^ (2 * a + 8) = N at *
  have m := Nat.mul_le_mul_left N g
  have e1 : N * (2 * a * (2 * a + 8) + 2) = 2 * (a * (N * (2 * a + 8) + 1)) + 2 * N - 2 * a := by
    have : N * (2 * a * (2 * a + 8) + 2) + 2 * a = 2 * (a * (N * (2 * a + 8) + 1)) + 2 * N := by ring
    omega
  omega

/-- **C104**: `quickselect` of the last position of `n` equal elements takes at least
`(n² - 128) / 2` comparisons. -/
theorem C104_quickselect_quadratic (key : α → κ) (cmp : κ → κ → Bool) (x : α)
    (h : cmp (key x) (key x) = false) (n : Nat) (hn : n < 2 ^ 63) (idx : BitVec 64)
    (hi : idx.toNat + 1 = n) :
    ∃ c, quickselectByC key cmp (List.replicate n x) idx = .ok (List.replicate n x, c) ∧
      n * n ≤ 2 * c + 128 := by
  obtain ⟨l', c, e, v, k⟩ := eq_sortEx (replicate_view key n x) h (select := indexInRange idx)
    (end_ := n) (Nat.le_refl n) (fun st h => indexInRange_total idx hn (by omega))
    (fun st sz h0 h1 => indexInRange_chosen idx hn (by omega) st sz (by omega) (by omega) (by omega)
      (by omega))
    (n + 1) (start := 0) (size := n)
    (by omega) (by omega) (s := List.replicate n x) rfl
  subst v
  refine ⟨c, ?_, k⟩
  rw [quickselectByC, List.length_replicate]
  exact e

example : (quickselectByC id (fun a b : Nat => decide (a < b)) (List.replicate 40 7) 39#64).map
    Prod.snd = .ok 876 := by decide +kernel

/-- **C104** (violation): no constant below `2^59` bounds the comparisons of `quickselect` by `a n`,
although the documentation (sort.hh:97) promises `O(n)`. (Ranges have fewer than `2^63` elements, so
the constant has to be bounded too.) -/
theorem C104_quickselect_not_linear (a : Nat) (ha : a < 2 ^ 59) :
    ∃ (l l' : List Nat) (idx : BitVec 64) (c : Nat), idx.toNat < l.length ∧ l.length < 2 ^ 63 ∧
      quickselectByC id (fun a b : Nat => decide (a < b)) l idx = .ok (l', c) ∧ a * l.length < c := by
  have hb : ((2 * a + 129) - 1 + 1) < 2 ^ 63 := by omega
  have ht : (BitVec.ofNat 64 (2 * a + 128)).toNat = 2 * a + 128 := by
    rw [BitVec.toNat_ofNat]
    exact Nat.mod_eq_of_lt (by omega)
  obtain ⟨c, e, k⟩ := C104_quickselect_quadratic id (fun a b : Nat => decide (a < b)) 0 (by simp)
    (2 * a + 129) (by omega) (BitVec.ofNat 64 (2 * a + 128)) (by rw [ht])
  refine ⟨_, _, _, c, ?_, ?_, e, ?_⟩
  · rw [ht, List.length_replicate]; omega
  · rw [List.length_replicate]; omega
  · rw [List.length_replicate]
    have : (2 * a + 129) * (2 * a + 129) = 2 * (a * (2 * a + 129)) + 258 * a + 16641 := by ring
    omega

/-- **C104** (violation): on `n` equal elements `sort` nests more than `n - 16` calls of itself: the
model that allows only this recursion depth fails, the one that allows `n + 1` succeeds. The
documented algorithm (pdqsort) nests `O(log n)` calls. -/
theorem C104_sort_depth (key : α → κ) (cmp : κ → κ → Bool) (x : α)
    (h : cmp (key x) (key x) = false) (n : Nat) (hn : 16 ≤ n) :
    sortEx (listAcc key) cmp selectAll (n - 16) (List.replicate n x) 0 n = .error .ub ∧
    sortEx (listAcc key) cmp selectAll (n + 1) (List.replicate n x) 0 n =
      .ok (List.replicate n x) := by
  refine ⟨eq_depth (replicate_view key n x) h (select := selectAll) (end_ := n)
    (Nat.le_refl n) (fun _ _ => ⟨true, rfl⟩) (fun _ _ _ _ => rfl) (n - 16) (start := 0) (size := n)
    (by omega) (by omega) (s := List.replicate n x) rfl, ?_⟩
  obtain ⟨c, e, -⟩ := C104_sort_quadratic key cmp x h n
  have := (C104_counts key cmp (fun _ => true) (List.replicate n x) 0).1
  rw [e] at this
  rw [sortBy, List.length_replicate] at this
  exact this.symm

example : sortEx (listAcc id) (fun a b : Nat => decide (a < b)) selectAll 24 (List.replicate 40 7) 0 40
    = .error .ub := by decide +kernel
example : sortEx (listAcc id) (fun a b : Nat => decide (a < b)) selectAll 25 (List.replicate 40 7) 0 40
    = .ok (List.replicate 40 7) := by decide +kernel

end Verif.Sort
