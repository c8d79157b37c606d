import Verif.Sort.Self
import Verif.Sort.AnyLemmas
import Verif.Variant.Props

/-!
Property C141: when the library swaps an element with itself, and for which element types that is
harmful.
-/
namespace Verif.Sort

variable {α κ : Type}

/-! ### where nothing is swapped with itself -/

section
variable (f : α → R α) (key : α → κ) (cmp : κ → κ → Bool)

theorem swapElems_ne {f : α → R α} {l : List α} {i j : Nat} (h : i ≠ j) :
    swapElems f l i j = swapAt l i j := if_neg h

theorem elem_swap_eq : (elemAcc f key).swap = swapElems f := rfl

theorem elem_get_eq : (elemAcc f key).get = (listAcc key).get := rfl

theorem elem_sort2 (l : List α) {ia ib : Nat} (h : ia ≠ ib) :
    sort2 (elemAcc f key) cmp l ia ib = sort2 (listAcc key) cmp l ia ib := by
  simp only [sort2, elemAcc, swapElems_ne h]; rfl

theorem elem_sort3 (l : List α) {ia ib ic : Nat} (h : ia ≠ ib) (h' : ib ≠ ic) :
    sort3 (elemAcc f key) cmp l ia ib ic = sort3 (listAcc key) cmp l ia ib ic := by
  simp only [sort3, elem_sort2 f key cmp _ h, elem_sort2 f key cmp _ h']

theorem elem_insertDown (start : Nat) (l : List α) (j : Nat) :
    insertDown (elemAcc f key) cmp start l j = insertDown (listAcc key) cmp start l j := by
  induction j generalizing l with
  | zero => rfl
  | succ j ih =>
    have h : (elemAcc f key).swap l j (j + 1) = (listAcc key).swap l j (j + 1) :=
      swapElems_ne (by omega)
    simp only [insertDown, ih, h]; rfl

theorem elem_insertLoop (start : Nat) (l : List α) (i m : Nat) :
    insertLoop (elemAcc f key) cmp start l i m = insertLoop (listAcc key) cmp start l i m := by
  induction m generalizing l i with
  | zero => rfl
  | succ m ih => simp only [insertLoop, elem_insertDown, ih]

theorem elem_smallSort (l : List α) (start size : Nat) :
    smallSort (elemAcc f key) cmp l start size = smallSort (listAcc key) cmp l start size := by
  simp only [smallSort, elem_insertLoop, elem_sort2 f key cmp l (by omega : start ≠ start + 1),
    elem_sort3 f key cmp l (by omega : start ≠ start + 1) (by omega : start + 1 ≠ start + 2)]

theorem elem_scanLeft (isRight : α → Bool) (l : List α) (first m : Nat) :
    scanLeft (elemAcc f isRight) l first m = scanLeft (listAcc isRight) l first m := by
  induction m generalizing first with
  | zero => rfl
  | succ m ih => simp only [scanLeft, ih]; rfl

theorem elem_scanRight (isRight : α → Bool) (l : List α) (start k : Nat) :
    scanRight (elemAcc f isRight) l start k = scanRight (listAcc isRight) l start k := by
  induction k with
  | zero => rfl
  | succ m ih => simp only [scanRight, ih]; rfl

theorem elem_partitionLoop (isRight : α → Bool) (start end_ fuel : Nat) (l : List α)
    (first last : Nat) :
    partitionLoop (elemAcc f isRight) start end_ fuel l first last =
      partitionLoop (listAcc isRight) start end_ fuel l first last := by
  induction fuel generalizing l first last with
  | zero => rfl
  | succ fuel ih =>
    simp only [partitionLoop, elem_scanLeft, elem_scanRight]
    congr 1; funext a
    congr 1; funext b
    by_cases h : a ≥ b
    · rw [if_pos h, if_pos h]
    · rw [if_neg h, if_neg h]
      have e : (elemAcc f isRight).swap l a b = (listAcc isRight).swap l a b :=
        swapElems_ne (by omega)
      rw [e]
      congr 1; funext s
      exact ih _ _ _

end

/-- **C141**: for up to 16 elements `sort_by` never swaps an element with itself, whatever the
comparison: the result is that of C08 for every element type. -/
theorem C141_short (f : α → R α) (key : α → κ) (cmp : κ → κ → Bool) (l : List α)
    (hl : l.length ≤ 16) : sortElems f key cmp l = sortBy key cmp l := by
  unfold sortElems sortBy
  simp only [sortEx, if_pos hl]
  exact elem_smallSort f key cmp l 0 l.length

/-- **C141**: `partition_by` never swaps an element with itself. -/
theorem C141_partition (f : α → R α) (isRight : α → Bool) (l : List α) :
    partitionElems f isRight l = partitionBy isRight l :=
  elem_partitionLoop f isRight _ _ _ _ _ _

/-- **C141**: for element types that survive `swap(a, a)` unchanged, `sort_by` and `quickselect_by`
behave as in C08 and C09, for every range and comparison. Missing: the other types, for which the
property is false, see `C141_equal_elements`, `C141_variant` and `C141_result`. -/
theorem C141_harmless_partial (f : α → R α) (hf : ∀ x, f x = .ok x) (key : α → κ) (cmp : κ → κ → Bool)
    (l : List α) (idx : BitVec 64) :
    sortElems f key cmp l = sortBy key cmp l ∧
    quickselectElems f key cmp l idx = quickselectBy key cmp l idx := by
  have e : elemAcc f key = listAcc key := by
    have h : swapElems f = swapAt := by
      funext l i j
      unfold swapElems
      split
      · rename_i h; subst h
        unfold swapAt
        cases hx : l[i]? with
        | none => rfl
        | some x => simp [hf]
      · rfl
    simp only [elemAcc, h]; rfl
  unfold sortElems quickselectElems sortBy quickselectBy
  rw [e]
  exact ⟨rfl, rfl⟩

/-! ### where something is -/

theorem equal_scanDownGuarded (f : α → R α) (key : α → κ) {cmp : κ → κ → Bool} (x : α)
    (hx : cmp (key x) (key x) = false) {n : Nat} (k : Nat) (h1 : 1 ≤ k) (h2 : k ≤ n) :
    scanDownGuarded (elemAcc f key) cmp (List.replicate n x) 0 1 k = .ok 1 := by
  induction k with
  | zero => omega
  | succ k ih =>
    unfold scanDownGuarded
    by_cases h : 1 < k + 1
    · rw [if_pos h]
      change ((listAcc key).get _ _ >>= fun y => (listAcc key).get _ _ >>= fun p => _) = _
      rw [get_replicate key x (by omega : k < n), R.ok_bind,
        get_replicate key x (by omega : 0 < n), R.ok_bind, hx]
      exact ih (by omega) (by omega)
    · rw [if_neg h]
      have : k = 0 := by omega
      subst this; rfl

theorem equal_sort2 (f : α → R α) (key : α → κ) {cmp : κ → κ → Bool} (x : α)
    (hx : cmp (key x) (key x) = false) {n ia ib : Nat} (ha : ia < n) (hb : ib < n) :
    sort2 (elemAcc f key) cmp (List.replicate n x) ia ib = .ok (List.replicate n x) := by
  unfold sort2
  change ((listAcc key).get _ _ >>= fun y => (listAcc key).get _ _ >>= fun p => _) = _
  rw [get_replicate key x ha, R.ok_bind, get_replicate key x hb, R.ok_bind, hx]
  rfl

theorem equal_sort3 (f : α → R α) (key : α → κ) {cmp : κ → κ → Bool} (x : α)
    (hx : cmp (key x) (key x) = false) {n ia ib ic : Nat} (ha : ia < n) (hb : ib < n)
    (hc : ic < n) :
    sort3 (elemAcc f key) cmp (List.replicate n x) ia ib ic = .ok (List.replicate n x) := by
  simp only [sort3, equal_sort2 f key x hx ha hb, equal_sort2 f key x hx hb hc, R.ok_bind]

theorem equal_choosePivot (f : α → R α) (key : α → κ) {cmp : κ → κ → Bool} (x : α)
    (hx : cmp (key x) (key x) = false) {n : Nat} (hn : 16 < n) :
    choosePivot (elemAcc f key) cmp (List.replicate n x) 0 n = .ok (List.replicate n x) := by
  unfold choosePivot
  split
  · simp only [equal_sort3 f key x hx (n := n) (ia := 0) (ib := 0 + n / 2) (ic := 0 + n - 1)
      (by omega) (by omega) (by omega),
      equal_sort3 f key x hx (n := n) (ia := 0 + 1) (ib := 0 + (n / 2 - 1)) (ic := 0 + n - 2)
      (by omega) (by omega) (by omega),
      equal_sort3 f key x hx (n := n) (ia := 0 + 2) (ib := 0 + (n / 2 + 1)) (ic := 0 + n - 3)
      (by omega) (by omega) (by omega),
      equal_sort3 f key x hx (n := n) (ia := 0 + (n / 2 - 1)) (ib := 0 + n / 2)
      (ic := 0 + (n / 2 + 1)) (by omega) (by omega) (by omega), R.ok_bind]
    change swapElems f _ _ _ = _
    rw [swapElems_ne (by omega)]
    exact swapAt_replicate x (by omega) (by omega)
  · exact equal_sort3 f key x hx (by omega) (by omega) (by omega)

/-- **C141**: sorting more than 16 equal elements swaps the first one with itself, so a type for
which `swap(a, a)` is undefined cannot be sorted. -/
theorem C141_equal_elements (f : α → R α) (key : α → κ) (cmp : κ → κ → Bool) (x : α)
    (hx : cmp (key x) (key x) = false) (hf : f x = .error .ub) (n : Nat) (hn : 16 < n) :
    sortElems f key cmp (List.replicate n x) = .error .ub := by
  have h0 : (elemAcc f key).swap (List.replicate n x) 0 0 = .error .ub := by
    rw [elem_swap_eq]
    unfold swapElems
    rw [if_pos rfl, List.getElem?_replicate, if_pos (by omega)]
    simp [hf]
  have hs : scanUp (elemAcc f key) cmp (List.replicate n x) 0 n 0 = .ok 1 := by
    obtain ⟨m, rfl⟩ : ∃ m, n = m + 1 := ⟨n - 1, by omega⟩
    unfold scanUp
    rw [elem_get_eq, get_replicate key x (by omega : 0 + 1 < m + 1), R.ok_bind,
      get_replicate key x (by omega : 0 < m + 1), R.ok_bind, hx]
    rfl
  have hp : partLoop (elemAcc f key) cmp 0 n n (List.replicate n x) 1 1 =
      .ok (List.replicate n x, 1) := by
    obtain ⟨m, rfl⟩ : ∃ m, n = m + 1 := ⟨n - 1, by omega⟩
    rfl
  unfold sortElems
  rw [List.length_replicate]
  unfold sortEx
  rw [if_neg (by omega), equal_choosePivot f key x hx hn]
  simp only [R.ok_bind]
  unfold partitionRight
  rw [hs]
  simp only [R.ok_bind, Nat.sub_self, if_true, Nat.zero_add,
    equal_scanDownGuarded f key x hx n (by omega) (Nat.le_refl n), hp, h0, R.error_bind]

/-- **C141**: `remove_at_unordered` of an element that is not the last puts the last one in its
place, for every element type. -/
theorem C141_remove_unordered (f : α → R α) (l : List α) (i : Nat) (hi : i + 1 < l.length) :
    removeUnordered f l i = .ok ((l.set i (l[l.length - 1]'(by omega))).dropLast) := by
  unfold removeUnordered
  rw [ccAssert_true (by simp; omega), R.ok_bind, swapElems_ne (by omega),
    swapAt_eq (by omega) (by omega), R.ok_bind]
  congr 1
  rw [List.dropLast_eq_take, List.dropLast_eq_take, List.length_set, List.length_set,
    List.take_set, List.set_eq_of_length_le (by simp)]

/-- **C141**: removing the last element so swaps it with itself. -/
theorem C141_remove_last (f : α → R α) (l : List α) (x : α) :
    removeUnordered f (l ++ [x]) l.length = (f x).map (fun _ => l) := by
  unfold removeUnordered
  rw [ccAssert_true (by simp), R.ok_bind]
  simp only [List.length_append, List.length_singleton, Nat.add_sub_cancel, swapElems, if_true,
    List.getElem?_concat_length]
  cases f x with
  | error e => rfl
  | ok y => simp [Except.map]

/-- **C141**: `remove_at_unordered` of an index that is not there is refused before anything is swapped. -/
theorem C141_remove_refused (f : α → R α) (l : List α) (i : Nat) (hi : l.length ≤ i) :
    removeUnordered f l i = .error .assert := by
  unfold removeUnordered
  rw [ccAssert_false (by simp; omega)]
  rfl

example : removeUnordered (fun (_ : Nat) => .error .ub) [1, 2, 3] 3 = .error .assert := C141_remove_refused _ _ _ (by simp)

/-! ### the library's types -/

/-- **C141**: `swap(v, v)` of a `cc::variant` reads the destroyed value, for every list of types and
every value held. -/
theorem C141_variant (types : List Variant.Ty) (t : Variant.Ty) (a : α) (ht : t ∈ types) :
    variantSelfSwap types (Variant.repr types (t, some a)) = .error .ub := by
  have hm : Variant.ctorMove types (Variant.repr types (t, some a)) =
      .ok (⟨(Variant.indexOfType (.plain t) types).toNat % 256, .live (t, a), t⟩,
        Variant.repr types (t, (none : Option α))) := by
    unfold Variant.ctorMove
    rw [Variant.visit_repr (types := types) (x := (t, some a)) ht]
    rfl
  have he : Variant.emplaceOwn types (Variant.repr types (t, (none : Option α))) t =
      .error .ub := by
    unfold Variant.emplaceOwn
    rw [Variant.destroy_repr (types := types) (x := (t, (none : Option α))) ht]
    rfl
  unfold variantSelfSwap
  rw [hm, R.ok_bind]
  change (Variant.emplaceOwn types (Variant.repr types (t, (none : Option α))) t >>= _) = _
  rw [he]
  rfl

/-- **C141**: `swap(r, r)` of a `cc::result` reads the destroyed value or error. -/
theorem C141_result {V E : Type} (v : V) (e : E) :
    resultSelfSwap (⟨true, .live (.inl v), true⟩ : Result.Res V E) = .error .ub ∧
    resultSelfSwap (⟨false, .live (.inr e), false⟩ : Result.Res V E) = .error .ub := ⟨rfl, rfl⟩

/-- **C141**: `swap(o, o)` of a `cc::optional` leaves it as it was, with a value or without. -/
theorem C141_optional (a : α) :
    optSelfSwap (⟨.live a, true⟩ : Opt.Opt α) = .ok ⟨.live a, true⟩ ∧
    optSelfSwap (Opt.ctorEmpty : Opt.Opt α) = .ok Opt.ctorEmpty := ⟨rfl, rfl⟩

/-- 17 equal results cannot be sorted; 16 can. -/
example : sortElems (resultSelfSwap (V := Nat) (E := Nat)) (fun _ => 0)
      (fun a b : Nat => decide (a < b)) (List.replicate 17 ⟨true, .live (.inl 3), true⟩) =
    .error .ub :=
  C141_equal_elements _ _ _ _ rfl (C141_result 3 0).1 17 (by omega)

example : removeUnordered (fun x : Nat => .ok x) [1, 2, 3, 4] 1 = .ok [1, 4, 3] ∧
    removeUnordered (fun _ : Nat => .error .ub) [1, 2, 3, 4] 3 = .error .ub := ⟨rfl, rfl⟩

/-- Two alternatives, the second one held. -/
example : variantSelfSwap [10, 20] (Variant.repr [10, 20] (20, some 'x')) = .error .ub :=
  C141_variant _ _ _ (by simp)

end Verif.Sort
