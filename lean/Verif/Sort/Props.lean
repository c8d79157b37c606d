import Verif.Sort.Lemmas2

/-!
Properties C08–C13: the sort family. A result `.ok` means that every access was in range and every
loop ended by its own condition; `.error` is an out-of-range access, an overflow or an assertion.
-/
namespace Verif.Sort

variable {α κ : Type}

/-! ### C08 -/

/-- **C08**: `sort_by` with any strict weak order ends without a fault and yields a sorted
permutation of its input. -/
theorem C08_sort_by (key : α → κ) (cmp : κ → κ → Bool) (W : StrictWeak cmp) (l : List α) :
    ∃ l', sortBy key cmp l = .ok l' ∧ l'.Perm l ∧ SortedBy key cmp l' := by
  obtain ⟨l', e, hp, h⟩ := select_ok key W (select := selectAll) l (fun _ _ _ => ⟨true, rfl⟩)
  refine ⟨l', e, hp, sorted_of_inPlace fun k hk => h k (by rw [← hp.length_eq]; exact hk) ?_⟩
  intro st sz _ _ _ _; rfl

/-- **C08** for `sort_descending` (`cmp = greater`): the reverse of a strict weak order is one. -/
theorem C08_sort_descending (lt : α → α → Bool) (W : StrictWeak lt) (l : List α) :
    ∃ l', sortBy id (fun a b => lt b a) l = .ok l' ∧ l'.Perm l ∧
      l'.Pairwise (fun a b => lt a b = false) := by
  have W' : StrictWeak (fun a b => lt b a) :=
    ⟨W.irrefl, fun a b c h1 h2 => W.trans c b a h2 h1, fun a b c h => (W.weak c b a h).symm⟩
  exact C08_sort_by id _ W' l

theorem natLt_strictWeak : StrictWeak (fun a b : Nat => decide (a < b)) where
  irrefl a := by simp
  trans a b c h1 h2 := by simp only [decide_eq_true_eq] at *; omega
  weak a b c h := by simp only [decide_eq_true_eq] at *; omega

/-- A 20-element list exercises the quicksort path. -/
example : sortBy id (fun a b : Nat => decide (a < b))
      [5, 3, 9, 1, 7, 5, 5, 2, 8, 0, 4, 6, 19, 12, 11, 3, 3, 17, 16, 15] =
    .ok [0, 1, 2, 3, 3, 3, 4, 5, 5, 5, 6, 7, 8, 9, 11, 12, 15, 16, 17, 19] := by decide +kernel

/-! ### C09 -/

/-- **C09**: `quickselect(values, idx)` with `idx` inside the range leaves position `idx` in place;
the range is permuted. (An array has fewer than 2^63 elements.) -/
theorem C09_quickselect (key : α → κ) (cmp : κ → κ → Bool) (W : StrictWeak cmp) (l : List α)
    (idx : BitVec 64) (hl : l.length < 2 ^ 63) (hi : idx.toNat < l.length) :
    ∃ l', quickselectBy key cmp l idx = .ok l' ∧ l'.Perm l ∧ InPlace key cmp l' idx.toNat := by
  obtain ⟨l', e, hp, h⟩ := select_ok key W (select := indexInRange idx) l
    (fun _ _ hs => indexInRange_total idx hl hs)
  exact ⟨l', e, hp, h _ hi (indexInRange_chosen idx hl hi)⟩

/-- **C09**, second half: the element found is equivalent to the one a full sort puts there. -/
theorem C09_quickselect_agrees_with_sort (key : α → κ) (cmp : κ → κ → Bool) (W : StrictWeak cmp)
    (l s l' : List α) (idx : BitVec 64) (hl : l.length < 2 ^ 63) (hi : idx.toNat < l.length)
    (hs : sortBy key cmp l = .ok s) (hq : quickselectBy key cmp l idx = .ok l') :
    ∃ x y, l'[idx.toNat]? = some x ∧ s[idx.toNat]? = some y ∧
      cmp (key x) (key y) = false ∧ cmp (key y) (key x) = false := by
  obtain ⟨s', e1, p1, h1⟩ := C08_sort_by key cmp W l
  obtain ⟨l'', e2, p2, h2⟩ := C09_quickselect key cmp W l idx hl hi
  rw [hs] at e1; rw [hq] at e2
  simp only [Except.ok.injEq] at e1 e2
  subst e1; subst e2
  exact inPlace_unique W (by rw [p2.length_eq]; exact hi) (p1.trans p2.symm) h2 h1

/-- An index beyond the range only permutes. -/
theorem C09_quickselect_any_index (key : α → κ) (cmp : κ → κ → Bool) (W : StrictWeak cmp)
    (l : List α) (idx : BitVec 64) (hl : l.length < 2 ^ 63) :
    ∃ l', quickselectBy key cmp l idx = .ok l' ∧ l'.Perm l := by
  obtain ⟨l', e, hp, -⟩ := select_ok key W (select := indexInRange idx) l
    (fun _ _ hs => indexInRange_total idx hl hs)
  exact ⟨l', e, hp⟩

example : (quickselectBy id (fun a b : Nat => decide (a < b))
      [5, 3, 9, 1, 7, 5, 5, 2, 8, 0, 4, 6, 19, 12, 11, 3, 3, 17, 16, 15] 12#64).map (·[12]?) =
    .ok (some 8) := by decide +kernel

/-! ### C10 -/

/-- **C10** (partial): for `idx + count < 2^63`, every position of the requested window (clipped to
the range) is in place. Missing: `idx + count ≥ 2^63`, for which the property is false of the code,
see `C10_quickselect_range_huge_count` and `C10_quickselect_range_overflow`. -/
theorem C10_quickselect_range_partial (key : α → κ) (cmp : κ → κ → Bool) (W : StrictWeak cmp)
    (l : List α) (idx count : BitVec 64) (hl : l.length < 2 ^ 63)
    (hc : idx.toNat + count.toNat < 2 ^ 63) :
    ∃ l', quickselectRangeBy key cmp l idx count = .ok l' ∧ l'.Perm l ∧
      ∀ k, idx.toNat ≤ k → k < idx.toNat + count.toNat → k < l.length → InPlace key cmp l' k := by
  obtain ⟨l', e, hp, h⟩ := select_ok key W (select := overlapsRange idx count) l
    (fun _ _ hs => overlapsRange_total idx count hl hc hs)
  exact ⟨l', e, hp, fun k h1 h2 h3 => h k h3 (overlapsRange_chosen idx count hl hc h1 h2)⟩

/-- **C10**, in terms of a full sort: inside the window the two results agree up to equivalence. -/
theorem C10_quickselect_range_agrees_with_sort_partial (key : α → κ) (cmp : κ → κ → Bool)
    (W : StrictWeak cmp) (l s l' : List α) (idx count : BitVec 64) (hl : l.length < 2 ^ 63)
    (hc : idx.toNat + count.toNat < 2 ^ 63) (hs : sortBy key cmp l = .ok s)
    (hq : quickselectRangeBy key cmp l idx count = .ok l') (k : Nat) (h1 : idx.toNat ≤ k)
    (h2 : k < idx.toNat + count.toNat) (h3 : k < l.length) :
    ∃ x y, l'[k]? = some x ∧ s[k]? = some y ∧
      cmp (key x) (key y) = false ∧ cmp (key y) (key x) = false := by
  obtain ⟨s', e1, p1, g1⟩ := C08_sort_by key cmp W l
  obtain ⟨l'', e2, p2, g2⟩ := C10_quickselect_range_partial key cmp W l idx count hl hc
  rw [hs] at e1; rw [hq] at e2
  simp only [Except.ok.injEq] at e1 e2
  subst e1; subst e2
  exact inPlace_unique W (by rw [p2.length_eq]; exact h3) (p1.trans p2.symm) (g2 k h1 h2 h3) g1

/-- **C10 is false of the code** for `count = SIZE_MAX` ("everything from idx on"): `int64_t(count)`
is -1, no subrange is selected and the window stays unsorted. -/
theorem C10_quickselect_range_huge_count :
    ∃ (l l' : List Nat), quickselectRangeBy id (fun a b => decide (a < b)) l 0#64
        (BitVec.allOnes 64) = .ok l' ∧
      ∃ i j : Nat, i < j ∧ ∃ x y, l'[i]? = some x ∧ l'[j]? = some y ∧ y < x := by
  refine ⟨[5, 3, 9, 1, 7, 5, 5, 2, 8, 0, 4, 6, 19, 12, 11, 3, 3, 17, 16, 15],
    [2, 3, 3, 1, 3, 4, 0, 5, 8, 5, 5, 6, 19, 12, 11, 7, 9, 17, 16, 15], by decide +kernel, 2, 3,
    by omega, 3, 1, rfl, rfl, by omega⟩

/-- **C10 is false of the code** when `idx + count` exceeds the `int64_t` range: the addition in the
selector overflows (undefined behaviour) as soon as the range is longer than 16. -/
theorem C10_quickselect_range_overflow :
    ∃ l : List Nat, quickselectRangeBy id (fun a b => decide (a < b)) l 1#64
        (BitVec.ofNat 64 (2 ^ 63 - 1)) = .error .ub :=
  ⟨[19, 18, 17, 16, 15, 14, 13, 12, 11, 10, 9, 8, 7, 6, 5, 4, 3, 2, 1, 0], by decide +kernel⟩

example : (quickselectRangeBy id (fun a b : Nat => decide (a < b))
      [5, 3, 9, 1, 7, 5, 5, 2, 8, 0, 4, 6, 19, 12, 11, 3, 3, 17, 16, 15] 4#64 5#64).map
        (fun l => (l.drop 4).take 5) = .ok [3, 3, 4, 5, 5] := by decide +kernel

/-! ### C11 -/

/-- **C11**: `partition` permutes the range and returns the split point of the predicate. -/
theorem C11_partition (isRight : α → Bool) (l : List α) :
    ∃ l' p, partitionBy isRight l = .ok (l', p) ∧ l'.Perm l ∧ p ≤ l.length ∧
      (∀ x ∈ l'.take p, isRight x = false) ∧ (∀ x ∈ l'.drop p, isRight x = true) := by
  cases l with
  | nil =>
    exact ⟨[], 0, by simp [partitionBy, partitionEx, partitionLoop, scanLeft, scanRight],
      .refl _, by simp, by simp, by simp⟩
  | cons d l =>
    obtain ⟨l', p, e, r, hp, h1, h2⟩ := partitionLoop_ok (list_view isRight (d :: l).length d)
      ((d :: l).length + 1) (s := d :: l) rfl (first := 0) (last := (d :: l).length - 1) (by omega)
      (.inl (by simp)) (by simp) (fun k hk => by omega) (fun k a b => by omega)
    have hperm := list_steps_perm r
    have hlen := hperm.length_eq
    refine ⟨l', p, ?_, hperm, hp, ?_, ?_⟩
    · rw [partitionBy, partitionEx]; rw [Nat.zero_add]; exact e
    · intro x hx
      obtain ⟨i, hi, rfl⟩ := List.mem_iff_getElem.1 hx
      rw [List.getElem_take]
      simp only [List.length_take] at hi
      have := h1 i (by omega)
      simp only [List.getD_eq_getElem?_getD] at this
      rw [List.getElem?_eq_getElem (by omega)] at this
      exact this
    · intro x hx
      obtain ⟨i, hi, rfl⟩ := List.mem_iff_getElem.1 hx
      rw [List.getElem_drop]
      simp only [List.length_drop] at hi
      have := h2 (p + i) (by omega) (by omega)
      simp only [List.getD_eq_getElem?_getD] at this
      rw [List.getElem?_eq_getElem (by omega)] at this
      exact this

example : partitionBy (fun n : Nat => decide (n ≥ 5)) [7, 1, 9, 4, 5, 0, 2] =
    .ok ([2, 1, 0, 4, 5, 9, 7], 4) := by decide +kernel

/-! ### C12 -/

/-- **C12**: `is_sorted` decides global sortedness. -/
theorem C12_is_sorted (key : α → κ) (cmp : κ → κ → Bool) (W : StrictWeak cmp) (l : List α) :
    ∃ b, isSortedBy key cmp l = .ok b ∧ (b = true ↔ SortedBy key cmp l) := by
  unfold isSortedBy
  cases l with
  | nil => exact ⟨true, rfl, by simp [SortedBy]⟩
  | cons x xs =>
    obtain ⟨b, e, h⟩ := isSortedLoop_ok key cmp (x :: xs) ((x :: xs).length - 1) 1 (by omega) (by simp; omega)
    refine ⟨b, e, h.trans ?_⟩
    unfold SortedBy
    rw [List.pairwise_iff_getElem]
    generalize hL : x :: xs = L at *
    have hlen : 0 < L.length := by rw [← hL]; simp
    constructor
    · intro hadj i j hi hj hij
      have := pairs_of_adjacent (n := L.length)
        (P := fun a b => ∀ (ha : a < L.length) (hb : b < L.length), cmp (key L[b]) (key L[a]) = false)
        (fun a b c h1 h2 h3 p q ha hc => W.ge_trans (p ha (by omega)) (q (by omega) hc))
        (fun k hk1 hk2 ha hb => hadj k hb (by omega) (by omega)) i j hij hj
      exact this hi hj
    · intro hp k hk h1 h2
      exact hp (k - 1) k (by omega) hk (by omega)

/-- **C12**: `is_strictly_sorted` decides that every earlier element compares less than every later
one. -/
theorem C12_is_strictly_sorted (key : α → κ) (cmp : κ → κ → Bool) (W : StrictWeak cmp) (l : List α) :
    ∃ b, isStrictlySortedBy key cmp l = .ok b ∧
      (b = true ↔ l.Pairwise (fun a b => cmp (key a) (key b) = true)) := by
  unfold isStrictlySortedBy
  cases l with
  | nil => exact ⟨true, rfl, by simp⟩
  | cons x xs =>
    obtain ⟨b, e, h⟩ := isStrictlySortedLoop_ok key cmp (x :: xs) ((x :: xs).length - 1) 1 (by omega)
      (by simp; omega)
    refine ⟨b, e, h.trans ?_⟩
    rw [List.pairwise_iff_getElem]
    generalize hL : x :: xs = L at *
    have hlen : 0 < L.length := by rw [← hL]; simp
    constructor
    · intro hadj i j hi hj hij
      have := pairs_of_adjacent (n := L.length)
        (P := fun a b => ∀ (ha : a < L.length) (hb : b < L.length), cmp (key L[a]) (key L[b]) = true)
        (fun a b c h1 h2 h3 p q ha hc => W.trans _ _ _ (p ha (by omega)) (q (by omega) hc))
        (fun k hk1 hk2 ha hb => hadj k hb (by omega) (by omega)) i j hij hj
      exact this hi hj
    · intro hp k hk h1 h2
      exact hp (k - 1) k (by omega) hk (by omega)

example : isSortedBy id (fun a b : Nat => decide (a < b)) [1, 2, 2, 5] = .ok true ∧
    isStrictlySortedBy id (fun a b : Nat => decide (a < b)) [1, 2, 2, 5] = .ok false ∧
    isSortedBy id (fun a b : Nat => decide (a < b)) [1, 2, 5, 3] = .ok false := by decide +kernel

/-! ### C13 -/

/-- **C13**: `sort_multi` on arrays of equal size applies one permutation `π` to the keys and to all
value arrays, and the keys end up sorted. -/
theorem C13_sort_multi {β : Type} (cmp : κ → κ → Bool) (W : StrictWeak cmp) (keys : List κ)
    (values : List (List β)) (hlen : ∀ v ∈ values, v.length = keys.length) :
    ∃ keys' values' π, sortMulti cmp keys values = .ok (keys', values') ∧
      PermOn keys.length π ∧ Rearranged keys.length π keys keys' ∧
      List.Forall₂ (Rearranged keys.length π) values values' ∧
      keys'.Perm keys ∧ SortedBy id cmp keys' := by
  have hall : (values.all fun v => v.length == keys.length) = true := by
    rw [List.all_eq_true]; intro v hv; simp [hlen v hv]
  unfold sortMulti
  rw [hall]; simp only [ccAssert_true, R.ok_bind]
  cases keys with
  | nil =>
    exact ⟨[], values, id, by simp [sortEx, smallSort], ⟨fun _ h => h, fun _ _ _ _ h => h⟩,
      ⟨rfl, fun _ _ => rfl⟩, forall₂_id _, .refl _, by simp [SortedBy]⟩
  | cons d ks =>
    obtain ⟨s', e, r, h⟩ := sortEx_ok (multi_view (β := β) (d :: ks).length d) W
      (select := selectAll) (fun _ _ _ => ⟨true, rfl⟩) ((d :: ks).length + 1) (start := 0)
      (size := (d :: ks).length) (by omega) (by omega) (s := (d :: ks, values)) ⟨rfl, hlen⟩
    obtain ⟨π, h1, h2, h3, h4⟩ := multi_steps (n := (d :: ks).length) (by omega) r ⟨rfl, hlen⟩
    refine ⟨s'.1, s'.2, π, e, h1, h2, h3, h4, sorted_of_inPlace fun k hk => ?_⟩
    have hl := h4.length_eq
    simp only at hl
    rw [Nat.zero_add] at h
    have := h k (by omega) (by omega) (fun _ _ _ _ _ _ => rfl)
    rw [← hl] at this
    exact inPlace_of_F (key := id) hk this

/-- **C13**: arrays of different size are rejected by the assertion; nothing is modified. -/
theorem C13_sort_multi_rejects {β : Type} (cmp : κ → κ → Bool) (keys : List κ)
    (values : List (List β)) (v : List β) (hv : v ∈ values) (hlen : v.length ≠ keys.length) :
    sortMulti cmp keys values = .error .assert := by
  have hall : (values.all fun v => v.length == keys.length) = false := by
    rw [List.all_eq_false]; exact ⟨v, hv, by simpa using hlen⟩
  unfold sortMulti
  rw [hall]; rfl

/-- The row `k` of a family of arrays. -/
def rowOf {β : Type} (values : List (List β)) (k : Nat) : List (Option β) := values.map (·[k]?)

/-- **C13** for `sort_multi_by`: one permutation for all arrays, and the rows end up sorted by their
key. `key` sees the row as the list of its cells. -/
theorem C13_sort_multi_by {β : Type} (key : List β → κ) (cmp : κ → κ → Bool) (W : StrictWeak cmp)
    (n : Nat) (values : List (List β)) (hne : values ≠ []) (hlen : ∀ v ∈ values, v.length = n) :
    ∃ values' π, sortMultiBy key cmp values = .ok values' ∧ PermOn n π ∧
      List.Forall₂ (Rearranged n π) values values' ∧
      ∀ i j, i < j → j < n → ∀ ri rj : List β, rowOf values' i = ri.map some →
        rowOf values' j = rj.map some → cmp (key rj) (key ri) = false := by
  obtain ⟨v, hv⟩ : ∃ v, values.getLast? = some v := ⟨_, List.getLast?_eq_some_getLast hne⟩
  have hvl := hlen v (List.mem_of_getLast? hv)
  have hall : (values.all fun v => v.length == n) = true := by
    rw [List.all_eq_true]; intro v hv; simp [hlen v hv]
  unfold sortMultiBy
  simp only [hv, Option.map_some, Option.getD_some, hvl, hall, ccAssert_true, R.ok_bind]
  cases v with
  | nil =>
    simp only [List.length_nil] at hvl; subst hvl
    exact ⟨values, id, by simp [sortEx, smallSort], ⟨fun _ h => h, fun _ _ _ _ h => h⟩,
      forall₂_id _, fun i j _ h => by omega⟩
  | cons d _ =>
    obtain ⟨s', e, r, h⟩ := sortEx_ok (multiBy_view key n d) W
      (select := selectAll) (fun _ _ _ => ⟨true, rfl⟩) (n + 1) (start := 0)
      (size := n) (by omega) (by omega) (s := values) hlen
    obtain ⟨π, h1, h2⟩ := multiBy_steps (n := n) (by omega) r hlen
    refine ⟨s', π, e, h1, h2, fun i j hij hj ri rj hri hrj => ?_⟩
    rw [Nat.zero_add] at h
    have hp := (h i (by omega) (by omega) (fun _ _ _ _ _ _ => rfl)).2 j hij hj
    have hrow : ∀ k (rk : List β), rowOf s' k = rk.map some → s'.map (fun v => v.getD k d) = rk := by
      intro k rk hrk
      have := congrArg (List.map (fun o : Option β => o.getD d)) hrk
      simpa [rowOf, List.map_map, Function.comp_def, List.getD_eq_getElem?_getD] using this
    simp only [hrow i ri hri, hrow j rj hrj] at hp
    exact hp

/-- `sort_multi_by` rejects arrays of different size. -/
theorem C13_sort_multi_by_rejects {β : Type} (key : List β → κ) (cmp : κ → κ → Bool)
    (values : List (List β)) (v w : List β) (hv : v ∈ values) (hw : w ∈ values)
    (hlen : v.length ≠ w.length) : sortMultiBy key cmp values = .error .assert := by
  unfold sortMultiBy
  generalize (values.getLast?.map List.length).getD 0 = n
  have hall : (values.all fun v => v.length == n) = false := by
    rw [List.all_eq_false]
    by_cases h : v.length = n
    · exact ⟨w, hw, by simp; omega⟩
    · exact ⟨v, hv, by simpa using h⟩
  simp only [hall]; rfl

example : sortMulti (fun a b : Nat => decide (a < b)) [3, 1, 2] [[30, 10, 20], [300, 100, 200]] =
    .ok ([1, 2, 3], [[10, 20, 30], [100, 200, 300]]) := by decide +kernel

end Verif.Sort
