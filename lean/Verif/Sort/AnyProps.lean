import Verif.Sort.AnyLemmas
import Verif.Sort.Props

/-!
Property C140: sorting with a comparison that is not an order (floating-point numbers with NaN, a
relation that is not transitive) stays inside the range and keeps the elements; how far this goes.
A result `.ok` means that every access was in range and every loop ended by its own condition.
-/
namespace Verif.Sort

variable {α κ : Type}

/-- **C140**: with a comparison that never holds in both directions, `sort_by` (and `sort`,
`sort_descending`) ends, touches nothing outside the range and leaves a permutation of it. The
comparison need not be transitive. -/
theorem C140_sort (key : α → κ) (cmp : κ → κ → Bool) (W : Asymmetric cmp) (l : List α) :
    ∃ l', sortBy key cmp l = .ok l' ∧ l'.Perm l :=
  select_any key l (.inr W) (fun _ _ _ => ⟨true, rfl⟩)

/-- **C140** for `quickselect_by`, for every index. -/
theorem C140_quickselect (key : α → κ) (cmp : κ → κ → Bool) (W : Asymmetric cmp) (l : List α)
    (idx : BitVec 64) (hl : l.length < 2 ^ 63) :
    ∃ l', quickselectBy key cmp l idx = .ok l' ∧ l'.Perm l :=
  select_any key l (.inr W) (fun _ _ hs => indexInRange_total idx hl hs)

/-- **C140** for `quickselect_range_by`, where the window does not overflow (see C10). -/
theorem C140_quickselect_range (key : α → κ) (cmp : κ → κ → Bool) (W : Asymmetric cmp)
    (l : List α) (idx count : BitVec 64) (hl : l.length < 2 ^ 63)
    (hc : idx.toNat + count.toNat < 2 ^ 63) :
    ∃ l', quickselectRangeBy key cmp l idx count = .ok l' ∧ l'.Perm l :=
  select_any key l (.inr W) (fun _ _ hs => overlapsRange_total idx count hl hc hs)

/-- **C140** for `sort_multi`: the keys and all value arrays are still rearranged alike. -/
theorem C140_sort_multi {β : Type} (cmp : κ → κ → Bool) (W : Asymmetric cmp) (keys : List κ)
    (values : List (List β)) (hlen : ∀ v ∈ values, v.length = keys.length) :
    ∃ keys' values' π, sortMulti cmp keys values = .ok (keys', values') ∧
      PermOn keys.length π ∧ Rearranged keys.length π keys keys' ∧
      List.Forall₂ (Rearranged keys.length π) values values' ∧ keys'.Perm keys := by
  have hall : (values.all fun v => v.length == keys.length) = true := by
    rw [List.all_eq_true]; intro v hv; simp [hlen v hv]
  unfold sortMulti
  rw [hall]; simp only [ccAssert_true, R.ok_bind]
  cases keys with
  | nil =>
    exact ⟨[], values, id, by simp [sortEx, smallSort], ⟨fun _ h => h, fun _ _ _ _ h => h⟩,
      ⟨rfl, fun _ _ => rfl⟩, forall₂_id _, .refl _⟩
  | cons d ks =>
    obtain ⟨s', e, r⟩ := sortEx_any (cmp := cmp) (multi_view (β := β) (d :: ks).length d)
      (select := selectAll) (fun _ _ _ => ⟨true, rfl⟩) ((d :: ks).length + 1) (start := 0)
      (size := (d :: ks).length) (.inr W) (by omega) (by omega) (s := (d :: ks, values)) ⟨rfl, hlen⟩
    obtain ⟨π, h1, h2, h3, h4⟩ := multi_steps (n := (d :: ks).length) (by omega) r ⟨rfl, hlen⟩
    exact ⟨s'.1, s'.2, π, e, h1, h2, h3, h4⟩

/-- **C140** for `sort_multi_by`. -/
theorem C140_sort_multi_by {β : Type} (key : List β → κ) (cmp : κ → κ → Bool) (W : Asymmetric cmp)
    (n : Nat) (values : List (List β)) (hne : values ≠ []) (hlen : ∀ v ∈ values, v.length = n) :
    ∃ values' π, sortMultiBy key cmp values = .ok values' ∧ PermOn n π ∧
      List.Forall₂ (Rearranged n π) values values' := by
  obtain ⟨v, hv⟩ : ∃ v, values.getLast? = some v := ⟨_, List.getLast?_eq_some_getLast hne⟩
  have hvl := hlen v (List.mem_of_getLast? hv)
  have hall : (values.all fun v => v.length == n) = true := by
    rw [List.all_eq_true]; intro v hv; simp [hlen v hv]
  unfold sortMultiBy
  simp only [hv, Option.map_some, Option.getD_some, hvl, hall, ccAssert_true, R.ok_bind]
  cases v with
  | nil =>
    simp only [List.length_nil] at hvl; subst hvl
    exact ⟨values, id, by simp [sortEx, smallSort], ⟨fun _ h => h, fun _ _ _ _ h => h⟩,
      forall₂_id _⟩
  | cons d _ =>
    obtain ⟨s', e, r⟩ := sortEx_any (cmp := cmp) (multiBy_view key n d)
      (select := selectAll) (fun _ _ _ => ⟨true, rfl⟩) (n + 1) (start := 0)
      (size := n) (.inr W) (by omega) (by omega) (s := values) hlen
    obtain ⟨π, h1, h2⟩ := multiBy_steps (n := n) (by omega) r hlen
    exact ⟨s', π, e, h1, h2⟩

/-- **C140**: up to 16 elements, every comparison whatsoever is safe. -/
theorem C140_short (key : α → κ) (cmp : κ → κ → Bool) (l : List α) (hl : l.length ≤ 16) :
    ∃ l', sortBy key cmp l = .ok l' ∧ l'.Perm l :=
  select_any key l (.inl hl) (fun _ _ _ => ⟨true, rfl⟩)

/-- **C140**, the limit: a comparison that holds of an element and itself (`<=` instead of `<`)
reads past the end of every range of more than 16 copies of that element. So for longer ranges the
comparison has to be irreflexive. -/
theorem C140_reflexive_faults (key : α → κ) (cmp : κ → κ → Bool) (x : α)
    (hx : cmp (key x) (key x) = true) (n : Nat) (hn : 16 < n) :
    sortBy key cmp (List.replicate n x) = .error .ub := by
  have := refl_sortEx key x hx hn selectAll
  simpa [sortBy] using this

/-- Numbers with NaN (`none`): every comparison with NaN is false. -/
def nanLess (lt : κ → κ → Bool) : Option κ → Option κ → Bool
  | some a, some b => lt a b
  | _, _ => false

/-- **C140** for floating-point numbers: adding NaN to an order leaves an asymmetric comparison, so
sorting numbers with any NaNs among them is safe and loses no number. -/
theorem C140_nan (lt : κ → κ → Bool) (W : StrictWeak lt) (l : List (Option κ)) :
    ∃ l', sortBy id (nanLess lt) l = .ok l' ∧ l'.Perm l := by
  refine C140_sort id _ (fun a b h => ?_) l
  cases a <;> cases b <;> simp only [nanLess] at * <;> first | rfl | exact W.asymm h

/-- **C140**, the limit for NaN: the numbers themselves are then not always sorted. -/
theorem C140_nan_unsorted :
    sortBy id (nanLess fun a b : Nat => decide (a < b)) [some 3, none, some 1] =
      .ok [some 3, none, some 1] := by decide +kernel

/-- Rock, paper, scissors is asymmetric and not transitive; 20 elements take the quicksort path. -/
example : (∃ l', sortBy id (fun a b : Fin 3 => decide (b = a + 1))
      [0, 1, 2, 0, 2, 1, 1, 0, 2, 2, 1, 0, 0, 0, 1, 2, 1, 1, 2, 0] = .ok l' ∧
      l'.Perm [0, 1, 2, 0, 2, 1, 1, 0, 2, 2, 1, 0, 0, 0, 1, 2, 1, 1, 2, 0]) :=
  C140_sort _ _ (by unfold Asymmetric; decide) _

/-- A range with NaN on the quicksort path. -/
example : sortBy id (nanLess fun a b : Nat => decide (a < b))
      ([some 5, none, some 2, some 9, none, some 7, some 1] ++ List.replicate 12 (some 4)) =
    .ok ([some 1, some 2] ++ List.replicate 12 (some 4) ++
      [some 5, none, some 7, none, some 9]) := by decide +kernel

example : sortBy id (fun a b : Nat => decide (a ≤ b)) (List.replicate 17 3) = .error .ub :=
  C140_reflexive_faults id _ 3 (by decide) 17 (by omega)

end Verif.Sort
