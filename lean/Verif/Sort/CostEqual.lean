import Verif.Sort.CostBounds

/-! The cost of sorting a range of equal elements. -/
namespace Verif.Sort

variable {σ κ : Type} {A : Acc σ κ} {cmp : κ → κ → Bool} {n : Nat} {Valid : σ → Prop} {q : κ}

/-- All `n` elements have the key `q`, and exchanging two of them changes nothing. -/
theorem replicate_view {α : Type} (key : α → κ) (n : Nat) (x : α) :
    View (listAcc key) n (fun l => l = List.replicate n x) (fun _ _ => key x) where
  get_ok l i hv hi := by
    subst hv
    simp [listAcc, hi]
  swap_ok l i j hv hi hj := by
    subst hv
    refine ⟨_, swapAt_eq (by simpa using hi) (by simpa using hj), ?_, ?_⟩
    · rw [List.eq_replicate_iff]
      refine ⟨by simp, ?_⟩
      intro b hb
      rcases List.mem_or_eq_of_mem_set hb with h | h
      · rcases List.mem_or_eq_of_mem_set h with h | h
        · exact List.eq_of_mem_replicate h
        · simp [h]
      · simp [h]
    · funext k
      simp [swapF]

variable (V : View A n Valid (fun _ _ => q)) (hq : cmp q q = false)
include V hq

theorem eq_sort2 {s : σ} (hv : Valid s) {ia ib : Nat} (ha : ia < n) (hb : ib < n) :
    sort2C A cmp s ia ib = .ok (s, 1) := by
  simp [sort2C, V.get_ok s _ hv ha, V.get_ok s _ hv hb, hq]

theorem eq_sort3 {s : σ} (hv : Valid s) {ia ib ic : Nat} (ha : ia < n) (hb : ib < n) (hc : ic < n) :
    sort3C A cmp s ia ib ic = .ok (s, 3) := by
  simp [sort3C, eq_sort2 V hq hv ha hb, eq_sort2 V hq hv hb hc]

theorem eq_insertDown {start j : Nat} {s : σ} (hv : Valid s) (hj : j < n) :
    ∃ s', insertDownC A cmp start s j = .ok (s', j - start) ∧ Valid s' := by
  induction j generalizing s with
  | zero => exact ⟨s, by simp [insertDownC], hv⟩
  | succ j ih =>
    simp only [insertDownC]
    by_cases hgt : j + 1 > start
    · obtain ⟨t, e, hv1, -⟩ := V.swap_ok s j (j + 1) hv (by omega) hj
      obtain ⟨s', e', hv'⟩ := ih hv1 (by omega)
      refine ⟨s', ?_, hv'⟩
      rw [if_pos hgt, V.get_ok s j hv (by omega), V.get_ok s (j + 1) hv hj]
      simp only [R.ok_bind, hq, Bool.not_false, if_true, e, e', R.pure_eq, Except.ok.injEq,
        Prod.mk.injEq, true_and]
      omega
    · rw [if_neg hgt]
      exact ⟨s, by rw [show j + 1 - start = 0 by omega], hv⟩

theorem eq_insertLoop {start d m : Nat} {s : σ} (hv : Valid s) (hn : start + d + m ≤ n) :
    ∃ s' c, insertLoopC A cmp start s (start + d) m = .ok (s', c) ∧ Valid s' ∧
      2 * c + m = m * (2 * d + m) := by
  induction m generalizing s d with
  | zero => exact ⟨s, 0, rfl, hv, by simp⟩
  | succ m ih =>
    obtain ⟨s1, e1, v1⟩ := eq_insertDown V hq (start := start) (j := start + d) hv (by omega)
    obtain ⟨s2, c, e2, v2, k⟩ := ih (d := d + 1) v1 (by omega)
    refine ⟨s2, start + d - start + c, ?_, v2, ?_⟩
    · have : start + (d + 1) = start + d + 1 := by omega
      rw [this] at e2
      simp [insertLoopC, e1, e2]
    · have e : start + d - start = d := by omega
      rw [e]
      have : (m + 1) * (2 * d + (m + 1)) = m * (2 * (d + 1) + m) + 2 * d + 1 := by ring
      omega

theorem eq_smallSort {start size : Nat} {s : σ} (hv : Valid s) (hn : start + size ≤ n) :
    ∃ s' c, smallSortC A cmp s start size = .ok (s', c) ∧ Valid s' ∧ 2 * c + size = size * size := by
  unfold smallSortC
  by_cases h1 : size ≤ 1
  · rw [if_pos h1]
    refine ⟨s, 0, rfl, hv, ?_⟩
    rcases (by omega : size = 0 ∨ size = 1) with h | h <;> simp [h]
  · rw [if_neg h1]
    by_cases h2 : size = 2
    · rw [if_pos h2]
      exact ⟨s, 1, eq_sort2 V hq hv (by omega) (by omega), hv, by simp [h2]⟩
    · rw [if_neg h2]
      by_cases h3 : size = 3
      · rw [if_pos h3]
        exact ⟨s, 3, eq_sort3 V hq hv (by omega) (by omega) (by omega), hv, by simp [h3]⟩
      · rw [if_neg h3]
        obtain ⟨s', c, e, v, k⟩ := eq_insertLoop V hq (start := start) (d := 1) (m := size - 1) hv
          (by omega)
        refine ⟨s', c, e, v, ?_⟩
        obtain ⟨m, rfl⟩ : ∃ m, size = m + 1 := ⟨size - 1, by omega⟩
        simp only [Nat.add_sub_cancel] at k
        have : (m + 1) * (m + 1) = m * (2 * 1 + m) + 1 := by ring
        omega

theorem eq_scanDownGuarded {start first l : Nat} {s : σ} (hv : Valid s) (hs : start < n)
    (hl : l ≤ n) (hf : first ≤ l) :
    scanDownGuardedC A cmp s start first l = .ok (first, l - first) := by
  induction l with
  | zero => simp [scanDownGuardedC, show first = 0 by omega]
  | succ l ih =>
    simp only [scanDownGuardedC]
    by_cases h : first < l + 1
    · rw [if_pos h, V.get_ok s l hv (by omega), V.get_ok s start hv hs]
      simp only [R.ok_bind, hq, Bool.not_false, if_true, ih (by omega) (by omega), R.pure_eq,
        Except.ok.injEq, Prod.mk.injEq, true_and]
      omega
    · rw [if_neg h]
      simp only [Except.ok.injEq, Prod.mk.injEq]
      omega

/-- Equal elements: the pivot stays in front of everything else. -/
theorem eq_partitionRight {start size : Nat} {s : σ} (hv : Valid s) (hn : start + size ≤ n)
    (hsz : 2 ≤ size) :
    ∃ s', partitionRightC A cmp s start size = .ok ((s', start), size) ∧ Valid s' := by
  obtain ⟨t, e, hv1, -⟩ := V.swap_ok s start start hv (by omega) (by omega)
  refine ⟨t, ?_, hv1⟩
  obtain ⟨m, rfl⟩ : ∃ m, size = m + 1 := ⟨size - 1, by omega⟩
  have h1 : scanUpC A cmp s start (m + 1) start = .ok (start + 1, 1) := by
    simp only [scanUpC]
    rw [V.get_ok s (start + 1) hv (by omega), V.get_ok s start hv (by omega)]
    simp [hq]
  have h2 := eq_scanDownGuarded V hq (start := start) (first := start + 1) (l := start + (m + 1)) hv
    (by omega) hn (by omega)
  have h3 : partLoopC A cmp start (m + 1) (m + 1) s (start + 1) (start + 1) =
      .ok ((s, start + 1), 0) := by
    simp [partLoopC]
  unfold partitionRightC
  simp only [h1, R.ok_bind, Nat.add_sub_cancel, if_true, h2, h3, e, R.pure_eq, Except.ok.injEq,
    Prod.mk.injEq, true_and]
  omega

theorem eq_choosePivot {start size : Nat} {s : σ} (hv : Valid s) (hn : start + size ≤ n)
    (hsz : 16 < size) :
    ∃ s' c, choosePivotC A cmp s start size = .ok (s', c) ∧ Valid s' ∧ 3 ≤ c := by
  unfold choosePivotC
  dsimp only
  split
  · obtain ⟨t, e, hv1, -⟩ := V.swap_ok s start (start + size / 2) hv (by omega) (by omega)
    refine ⟨t, 12, ?_, hv1, by omega⟩
    rw [eq_sort3 V hq hv (by omega) (by omega) (by omega)]
    simp only [R.ok_bind]
    rw [eq_sort3 V hq hv (by omega) (by omega) (by omega)]
    simp only [R.ok_bind]
    rw [eq_sort3 V hq hv (by omega) (by omega) (by omega)]
    simp only [R.ok_bind]
    rw [eq_sort3 V hq hv (by omega) (by omega) (by omega)]
    simp only [R.ok_bind, e, R.pure_eq]
  · exact ⟨s, 3, eq_sort3 V hq hv (by omega) (by omega) (by omega), hv, by omega⟩

/-- At least about `size² / 2` comparisons if the right parts are always selected. -/
theorem eq_sortEx {select : Nat → Nat → R Bool} {end_ : Nat} (hn : end_ ≤ n)
    (hL : ∀ st, st < end_ → ∃ b, select st 0 = .ok b)
    (hR : ∀ st sz, 0 < sz → st + sz = end_ → select st sz = .ok true)
    (fuel : Nat) {start size : Nat} (he : start + size = end_) (hfuel : size < fuel) {s : σ}
    (hv : Valid s) :
    ∃ s' c, sortExC A cmp select fuel s start size = .ok (s', c) ∧ Valid s' ∧
      size * size ≤ 2 * c + 128 := by
  induction fuel generalizing start size s with
  | zero => omega
  | succ fuel ih =>
    simp only [sortExC]
    by_cases hsmall : size ≤ 16
    · rw [if_pos hsmall]
      obtain ⟨s', c, e, v, k⟩ := eq_smallSort V hq (start := start) (size := size) hv (by omega)
      exact ⟨s', c, e, v, by omega⟩
    · rw [if_neg hsmall]
      obtain ⟨s1, c1, e1, v1, k1⟩ := eq_choosePivot V hq (start := start) (size := size) hv (by omega)
        (by omega)
      obtain ⟨s2, e2, v2⟩ := eq_partitionRight V hq (start := start) (size := size) v1 (by omega)
        (by omega)
      obtain ⟨b, hb⟩ := hL start (by omega)
      have hr := hR (start + 1) (start + size - (start + 1)) (by omega) (by omega)
      obtain ⟨s4, c4, e4, v4, k4⟩ := ih (start := start + 1) (size := start + size - (start + 1))
        (by omega) (by omega) v2
      have e3 : sortExC A cmp select fuel s2 start 0 = .ok (s2, 0) := by
        obtain ⟨f, rfl⟩ : ∃ f, fuel = f + 1 := ⟨fuel - 1, by omega⟩
        simp [sortExC, smallSortC]
      refine ⟨s4, c1 + size + 0 + c4, ?_, v4, ?_⟩
      · simp only [e1, e2, R.ok_bind, Nat.sub_self, hb, hr]
        cases b
        · simp [e4]
        · simp [e3, e4]
      · obtain ⟨m, rfl⟩ : ∃ m, size = m + 1 := ⟨size - 1, by omega⟩
        have e : start + (m + 1) - (start + 1) = m := by omega
        rw [e] at k4
        have : (m + 1) * (m + 1) = m * m + 2 * m + 1 := by ring
        omega

/-- The recursion is as deep as the range is long: a depth of `size - 16` is not enough. -/
theorem eq_depth {select : Nat → Nat → R Bool} {end_ : Nat} (hn : end_ ≤ n)
    (hL : ∀ st, st < end_ → ∃ b, select st 0 = .ok b)
    (hR : ∀ st sz, 0 < sz → st + sz = end_ → select st sz = .ok true)
    (fuel : Nat) {start size : Nat} (he : start + size = end_) (hfuel : fuel + 16 ≤ size) {s : σ}
    (hv : Valid s) : sortEx A cmp select fuel s start size = .error .ub := by
  induction fuel generalizing start size s with
  | zero => rfl
  | succ fuel ih =>
    simp only [sortEx]
    rw [if_neg (by omega)]
    obtain ⟨s1, c1, e1, v1, k1⟩ := eq_choosePivot V hq (start := start) (size := size) hv (by omega)
      (by omega)
    obtain ⟨s2, e2, v2⟩ := eq_partitionRight V hq (start := start) (size := size) v1 (by omega)
      (by omega)
    have e1 := choosePivotC_erase A cmp s start size ▸ congrArg erase e1
    have e2 := partitionRightC_erase A cmp s1 start size ▸ congrArg erase e2
    simp only [erase_ok] at e1 e2
    obtain ⟨b, hb⟩ := hL start (by omega)
    have hr := hR (start + 1) (start + size - (start + 1)) (by omega) (by omega)
    have e4 := ih (start := start + 1) (size := start + size - (start + 1))
      (by omega) (by omega) v2
    simp only [e1, e2, R.ok_bind, Nat.sub_self, hb, hr]
    cases b
    · simp [e4]
    · cases fuel with
      | zero => rfl
      | succ f =>
        have e3 : sortEx A cmp select (f + 1) s2 start 0 = .ok s2 := by
          simp [sortEx, smallSort]
        simp [e3, e4]

end Verif.Sort
