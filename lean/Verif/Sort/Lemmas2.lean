import Verif.Sort.Lemmas
import Mathlib.Data.List.Perm.Basic

/-! Helper lemmas: the wrappers on arrays, partition, is_sorted. -/
namespace Verif.Sort

variable {α κ : Type}

/-! ### one array -/

theorem swapAt_eq {l : List α} {i j : Nat} (hi : i < l.length) (hj : j < l.length) :
    swapAt l i j = .ok ((l.set i l[j]).set j l[i]) := by
  simp [swapAt, List.getElem?_eq_getElem hi, List.getElem?_eq_getElem hj]

theorem swapAt_ok_iff {l l' : List α} {i j : Nat} (h : swapAt l i j = .ok l') :
    ∃ (hi : i < l.length) (hj : j < l.length), l' = (l.set i l[j]).set j l[i] := by
  unfold swapAt at h
  split at h
  · rename_i x y hx hy
    obtain ⟨hi, ex⟩ := List.getElem?_eq_some_iff.1 hx
    obtain ⟨hj, ey⟩ := List.getElem?_eq_some_iff.1 hy
    simp only [Except.ok.injEq] at h
    exact ⟨hi, hj, by rw [← h, ex, ey]⟩
  · simp at h

theorem swapAt_perm {l l' : List α} {i j : Nat} (h : swapAt l i j = .ok l') : l'.Perm l := by
  obtain ⟨hi, hj, rfl⟩ := swapAt_ok_iff h
  exact List.set_set_perm hi hj

theorem swapAt_getElem? {l l' : List α} {i j : Nat} (h : swapAt l i j = .ok l') (k : Nat) :
    l'[k]? = l[if k = i then j else if k = j then i else k]? := by
  obtain ⟨hi, hj, rfl⟩ := swapAt_ok_iff h
  simp only [List.getElem?_set, List.length_set]
  by_cases h1 : k = j
  · subst h1
    by_cases h2 : k = i
    · subst h2; simp [hi]
    · simp [h2, hj, hi]
  · by_cases h2 : k = i
    · subst h2
      rw [if_neg (Ne.symm h1)]
      simp [hi, hj]
    · rw [if_neg (Ne.symm h1), if_neg (Ne.symm h2), if_neg h2, if_neg h1]

theorem list_view (key : α → κ) (n : Nat) (d : α) :
    View (listAcc key) n (fun l => l.length = n) (fun l k => key (l.getD k d)) where
  get_ok l i hv hi := by
    have hi' : i < l.length := by omega
    simp [listAcc, List.getElem?_eq_getElem hi', List.getD_eq_getElem?_getD]
  swap_ok l i j hv hi hj := by
    have hi' : i < l.length := by omega
    have hj' : j < l.length := by omega
    refine ⟨_, swapAt_eq hi' hj', by simp [hv], ?_⟩
    funext k
    have := swapAt_getElem? (swapAt_eq hi' hj') k
    simp only [List.getD_eq_getElem?_getD, this, swapF]
    split
    · rfl
    · split <;> rfl

theorem list_steps_perm {key : α → κ} {lo hi : Nat} {l l' : List α}
    (h : Steps (listAcc key) lo hi l l') : l'.Perm l := by
  induction h with
  | refl s => exact List.Perm.refl _
  | step i j _ _ _ _ h r ih => exact ih.trans (swapAt_perm h)

theorem getD_of {l : List α} {k : Nat} {d x : α} (h : l[k]? = some x) : l.getD k d = x := by
  simp [List.getD_eq_getElem?_getD, h]

theorem inPlace_of_F {key : α → κ} {lt : κ → κ → Bool} {l : List α} {k : Nat} {d : α}
    (hk : k < l.length) (h : InPlaceF lt (fun k => key (l.getD k d)) 0 l.length k) :
    InPlace key lt l k := by
  refine ⟨l[k], by simp [hk], ?_, ?_⟩
  · intro i y hi hy
    have := h.1 i (by omega) hi
    simp only [getD_of hy, getD_of (List.getElem?_eq_getElem hk)] at this
    exact this
  · intro i y hi hy
    have hl := (List.getElem?_eq_some_iff.1 hy).1
    have := h.2 i hi hl
    simp only [getD_of hy, getD_of (List.getElem?_eq_getElem hk)] at this
    exact this

/-- The result shared by sort, quickselect and quickselect_range. -/
theorem select_ok (key : α → κ) {cmp : κ → κ → Bool} (W : StrictWeak cmp)
    {select : Nat → Nat → R Bool} (l : List α)
    (hsel : ∀ st sz, st + sz ≤ l.length → ∃ b, select st sz = .ok b) :
    ∃ l', sortEx (listAcc key) cmp select (l.length + 1) l 0 l.length = .ok l' ∧ l'.Perm l ∧
      ∀ k, k < l.length → Chosen select 0 l.length k → InPlace key cmp l' k := by
  cases l with
  | nil =>
    refine ⟨[], by simp [sortEx, smallSort], List.Perm.refl _, fun k hk => ?_⟩
    simp at hk
  | cons d l =>
    obtain ⟨l', e, r, h⟩ := sortEx_ok (list_view key (d :: l).length d) W hsel
      ((d :: l).length + 1) (start := 0) (size := (d :: l).length) (by omega) (by omega)
      (s := d :: l) rfl
    have hp := list_steps_perm r
    refine ⟨l', e, hp, fun k hk hc => ?_⟩
    have hl := hp.length_eq
    rw [Nat.zero_add] at h
    have := h k (by omega) hk hc
    rw [← hl] at this hk
    exact inPlace_of_F hk this

theorem sorted_of_inPlace {key : α → κ} {lt : κ → κ → Bool} {l : List α}
    (h : ∀ k, k < l.length → InPlace key lt l k) : SortedBy key lt l := by
  unfold SortedBy
  rw [List.pairwise_iff_getElem]
  intro i j hi hj hij
  obtain ⟨x, hx, -, h2⟩ := h i hi
  have := h2 j l[j] hij (by simp [hj])
  rw [List.getElem?_eq_getElem hi, Option.some.injEq] at hx
  rw [hx]; exact this

/-! ### uniqueness of the element in place -/

/-- The element in place at `k` is equivalent to the element at `k` of any sorted arrangement. -/
theorem inPlace_unique {key : α → κ} {lt : κ → κ → Bool} (W : StrictWeak lt) {l s : List α} {k : Nat}
    (hk : k < l.length) (hp : s.Perm l) (h : InPlace key lt l k) (hs : SortedBy key lt s) :
    ∃ x y, l[k]? = some x ∧ s[k]? = some y ∧ lt (key x) (key y) = false ∧
      lt (key y) (key x) = false := by
  have hks : k < s.length := by rw [hp.length_eq]; exact hk
  obtain ⟨x, hx, h1, h2⟩ := h
  refine ⟨x, s[k], hx, by simp [hks], ?_, ?_⟩
  · cases hlt : lt (key x) (key s[k]) with
    | false => rfl
    | true =>
      exfalso
      let P : α → Bool := fun z => lt (key x) (key z)
      have c1 : s.countP P = l.countP P := hp.countP_eq P
      -- all of s from k on are greater than x
      have c2 : (s.drop k).countP P = (s.drop k).length := by
        rw [List.countP_eq_length]
        intro z hz
        obtain ⟨i, hi, rfl⟩ := List.mem_iff_getElem.1 hz
        rw [List.getElem_drop]
        simp only [List.length_drop] at hi
        by_cases h0 : i = 0
        · subst h0; simpa [P] using hlt
        · have := (List.pairwise_iff_getElem.1 hs) k (k + i) hks (by omega) (by omega)
          rcases W.weak (key x) (key s[k + i]) (key s[k]) hlt with h | h
          · exact h
          · rw [this] at h; simp at h
      have c3 : (l.take (k + 1)).countP P = 0 := by
        rw [List.countP_eq_zero]
        intro z hz
        obtain ⟨i, hi, rfl⟩ := List.mem_iff_getElem.1 hz
        simp only [List.length_take] at hi
        rw [List.getElem_take]
        simp only [P, Bool.not_eq_true]
        by_cases hik : i = k
        · subst hik
          rw [List.getElem?_eq_getElem hk, Option.some.injEq] at hx
          rw [hx]; exact W.irrefl _
        · exact h1 i _ (by omega) (List.getElem?_eq_getElem (by omega))
      have c4 : l.countP P = (l.take (k + 1)).countP P + (l.drop (k + 1)).countP P := by
        rw [← List.countP_append, List.take_append_drop]
      have c5 := List.countP_le_length (l := l.drop (k + 1)) (p := P)
      have c6 : s.countP P = (s.take k).countP P + (s.drop k).countP P := by
        rw [← List.countP_append, List.take_append_drop]
      simp only [List.length_drop] at c2 c5
      have := hp.length_eq
      omega
  · cases hlt : lt (key s[k]) (key x) with
    | false => rfl
    | true =>
      exfalso
      let P : α → Bool := fun z => lt (key z) (key x)
      have c1 : s.countP P = l.countP P := hp.countP_eq P
      have c2 : (s.take (k + 1)).countP P = (s.take (k + 1)).length := by
        rw [List.countP_eq_length]
        intro z hz
        obtain ⟨i, hi, rfl⟩ := List.mem_iff_getElem.1 hz
        rw [List.getElem_take]
        simp only [List.length_take] at hi
        by_cases h0 : i = k
        · subst h0; simpa [P] using hlt
        · have := (List.pairwise_iff_getElem.1 hs) i k (by omega) hks (by omega)
          rcases W.weak (key s[k]) (key s[i]) (key x) hlt with h | h
          · rw [this] at h; simp at h
          · exact h
      have c3 : (l.drop k).countP P = 0 := by
        rw [List.countP_eq_zero]
        intro z hz
        obtain ⟨i, hi, rfl⟩ := List.mem_iff_getElem.1 hz
        simp only [List.length_drop] at hi
        rw [List.getElem_drop]
        simp only [P, Bool.not_eq_true]
        by_cases hik : i = 0
        · subst hik
          rw [List.getElem?_eq_getElem hk, Option.some.injEq] at hx
          simp only [Nat.add_zero]
          rw [hx]; exact W.irrefl _
        · exact h2 (k + i) _ (by omega) (List.getElem?_eq_getElem (by omega))
      have c4 : l.countP P = (l.take k).countP P + (l.drop k).countP P := by
        rw [← List.countP_append, List.take_append_drop]
      have c5 := List.countP_le_length (l := l.take k) (p := P)
      have c6 : s.countP P = (s.take (k + 1)).countP P + (s.drop (k + 1)).countP P := by
        rw [← List.countP_append, List.take_append_drop]
      simp only [List.length_take] at c2 c5
      have := hp.length_eq
      omega

/-! ### selectors -/

theorem addInt64_nat {a b : Nat} (h : a + b < 2 ^ 63) : addInt64 (a : Int) (b : Int) = .ok ((a + b : Nat) : Int) := by
  unfold addInt64
  rw [if_pos (by constructor <;> omega)]
  simp

theorem toInt64_small {x : BitVec 64} (h : x.toNat < 2 ^ 63) : toInt64 x = (x.toNat : Int) := by
  unfold toInt64
  rw [BitVec.toInt_eq_toNat_cond, if_pos (by omega)]

theorem indexInRange_total (idx : BitVec 64) {n st sz : Nat} (hn : n < 2 ^ 63) (h : st + sz ≤ n) :
    ∃ b, indexInRange idx st sz = .ok b := by
  unfold indexInRange
  split
  · rw [addInt64_nat (by omega)]; exact ⟨_, rfl⟩
  · exact ⟨_, rfl⟩

theorem indexInRange_chosen (idx : BitVec 64) {n : Nat} (hn : n < 2 ^ 63) (h : idx.toNat < n) :
    Chosen (indexInRange idx) 0 n idx.toNat := by
  intro st sz h1 h2 h3 h4
  unfold indexInRange
  rw [toInt64_small (by omega), if_pos (by omega), addInt64_nat (by omega)]
  simp only [R.ok_bind, R.pure_eq, Except.ok.injEq, decide_eq_true_eq]
  omega

theorem overlapsRange_total (idx count : BitVec 64) {n st sz : Nat} (hn : n < 2 ^ 63)
    (hc : idx.toNat + count.toNat < 2 ^ 63) (h : st + sz ≤ n) :
    ∃ b, overlapsRange idx count st sz = .ok b := by
  unfold overlapsRange
  rw [toInt64_small (by omega), toInt64_small (by omega), addInt64_nat hc]
  simp only [R.ok_bind]
  split
  · rw [addInt64_nat (by omega)]; exact ⟨_, rfl⟩
  · exact ⟨_, rfl⟩

theorem overlapsRange_chosen (idx count : BitVec 64) {n k : Nat} (hn : n < 2 ^ 63)
    (hc : idx.toNat + count.toNat < 2 ^ 63) (h1 : idx.toNat ≤ k) (h2 : k < idx.toNat + count.toNat) :
    Chosen (overlapsRange idx count) 0 n k := by
  intro st sz a1 a2 a3 a4
  unfold overlapsRange
  rw [toInt64_small (by omega), toInt64_small (by omega), addInt64_nat hc]
  simp only [R.ok_bind]
  rw [if_pos (by omega), addInt64_nat (by omega)]
  simp only [R.ok_bind, R.pure_eq, Except.ok.injEq, decide_eq_true_eq]
  omega

/-! ### several arrays -/

def swapIdx (i j k : Nat) : Nat := if k = i then j else if k = j then i else k

theorem swapIdx_permOn {n i j : Nat} (hi : i < n) (hj : j < n) : PermOn n (swapIdx i j) := by
  constructor
  · intro k hk; unfold swapIdx; split
    · exact hj
    · split
      · exact hi
      · exact hk
  · intro a b _ _ h
    unfold swapIdx at h
    split at h <;> split at h <;> (try split at h) <;> (try split at h) <;> omega

theorem PermOn.comp {n : Nat} {π ρ : Nat → Nat} (h1 : PermOn n π) (h2 : PermOn n ρ) :
    PermOn n (π ∘ ρ) :=
  ⟨fun k hk => h1.1 _ (h2.1 k hk),
   fun a b ha hb h => h2.2 a b ha hb (h1.2 _ _ (h2.1 a ha) (h2.1 b hb) h)⟩

theorem swapAll_ok {β : Type} {vs : List (List β)} {n i j : Nat} (hv : ∀ v ∈ vs, v.length = n)
    (hi : i < n) (hj : j < n) :
    ∃ vs', swapAll vs i j = .ok vs' ∧ List.Forall₂ (Rearranged n (swapIdx i j)) vs vs' := by
  induction vs with
  | nil => exact ⟨[], rfl, .nil⟩
  | cons v vs ih =>
    obtain ⟨vs', e, h⟩ := ih (fun v' hv' => hv v' (by simp [hv']))
    have hl := hv v (by simp)
    have e1 := swapAt_eq (l := v) (i := i) (j := j) (by omega) (by omega)
    refine ⟨_ :: vs', by simp [swapAll, e1, e]; rfl, .cons ⟨by simp, fun k hk => ?_⟩ h⟩
    rw [swapAt_getElem? e1 k]; rfl

theorem Rearranged.comp {β : Type} {n : Nat} {π ρ : Nat → Nat} {a b c : List β} (h1 : Rearranged n π a b)
    (h2 : Rearranged n ρ b c) (hρ : PermOn n ρ) : Rearranged n (π ∘ ρ) a c :=
  ⟨h2.1.trans h1.1, fun k hk => by rw [h2.2 k hk, h1.2 _ (hρ.1 k hk)]; rfl⟩

theorem forall₂_comp {β : Type} {n : Nat} {π ρ : Nat → Nat} (hρ : PermOn n ρ) {a b c : List (List β)}
    (h1 : List.Forall₂ (Rearranged n π) a b) (h2 : List.Forall₂ (Rearranged n ρ) b c) :
    List.Forall₂ (Rearranged n (π ∘ ρ)) a c := by
  induction h1 generalizing c with
  | nil => cases h2; exact .nil
  | cons h hs ih => cases h2 with
    | cons h' hs' => exact .cons (h.comp h' hρ) (ih hs')

theorem forall₂_lengths {β : Type} {n : Nat} {π : Nat → Nat} {a b : List (List β)}
    (h : List.Forall₂ (Rearranged n π) a b) (hv : ∀ v ∈ a, v.length = n) : ∀ v ∈ b, v.length = n := by
  induction h with
  | nil => simp
  | cons h hs ih =>
    intro v hvm
    rcases List.mem_cons.1 hvm with rfl | hvm
    · rw [h.1]; exact hv _ (by simp)
    · exact ih (fun v' hv' => hv v' (by simp [hv'])) v hvm

theorem forall₂_id {β : Type} {n : Nat} (vs : List (List β)) : List.Forall₂ (Rearranged n id) vs vs := by
  induction vs with
  | nil => exact .nil
  | cons v vs ih => exact .cons ⟨rfl, fun _ _ => rfl⟩ ih

theorem multi_view {β : Type} (n : Nat) (d : κ) :
    View (multiAcc (κ := κ) (β := β)) n (fun s => s.1.length = n ∧ ∀ v ∈ s.2, v.length = n)
      (fun s k => s.1.getD k d) where
  get_ok s i hv hi := by
    have hi' : i < s.1.length := by omega
    simp [multiAcc, List.getElem?_eq_getElem hi', List.getD_eq_getElem?_getD]
  swap_ok s i j hv hi hj := by
    have hi' : i < s.1.length := by omega
    have hj' : j < s.1.length := by omega
    obtain ⟨vs', e, h⟩ := swapAll_ok hv.2 hi hj
    have e1 := swapAt_eq hi' hj'
    refine ⟨(_, vs'), by simp [multiAcc, e1, e]; rfl, ⟨by simp [hv.1], forall₂_lengths h hv.2⟩, ?_⟩
    funext k
    have := swapAt_getElem? e1 k
    simp only [List.getD_eq_getElem?_getD, this, swapF]
    split
    · rfl
    · split <;> rfl

theorem multi_steps {β : Type} {n lo hi : Nat} (hn : hi ≤ n) {s s' : List κ × List (List β)}
    (h : Steps multiAcc lo hi s s') (hv : s.1.length = n ∧ ∀ v ∈ s.2, v.length = n) :
    ∃ π, PermOn n π ∧ Rearranged n π s.1 s'.1 ∧ List.Forall₂ (Rearranged n π) s.2 s'.2 ∧
      s'.1.Perm s.1 := by
  induction h with
  | refl s =>
    exact ⟨id, ⟨fun _ h => h, fun _ _ _ _ h => h⟩, ⟨rfl, fun _ _ => rfl⟩, forall₂_id _, .refl _⟩
  | @step s s1 s2 i j h1 h2 h3 h4 h r ih =>
    have hi' : i < s.1.length := by omega
    have hj' : j < s.1.length := by omega
    obtain ⟨vs', e, hvs⟩ := swapAll_ok hv.2 (by omega : i < n) (by omega : j < n)
    have e1 := swapAt_eq hi' hj'
    simp only [multiAcc, e1, e, R.ok_bind, R.pure_eq, Except.ok.injEq] at h
    have hk : Rearranged n (swapIdx i j) s.1 s1.1 := by
      rw [← h]; exact ⟨by simp, fun k hk => by rw [swapAt_getElem? e1 k]; rfl⟩
    have hp : s1.1.Perm s.1 := by rw [← h]; exact swapAt_perm e1
    have hvs' : List.Forall₂ (Rearranged n (swapIdx i j)) s.2 s1.2 := by rw [← h]; exact hvs
    obtain ⟨ρ, hρ, a, b, c⟩ := ih ⟨by rw [hk.1]; exact hv.1, forall₂_lengths hvs' hv.2⟩
    exact ⟨_, (swapIdx_permOn (by omega) (by omega)).comp hρ, hk.comp a hρ, forall₂_comp hρ hvs' b,
      c.trans hp⟩

/-- One row of the arrays, none if some array is too short. -/
def row? {β : Type} (vs : List (List β)) (i : Nat) : Option (List β) := vs.mapM (fun v => v[i]?)

theorem rowAt_eq {β : Type} (vs : List (List β)) (i : Nat) (d : β) (h : ∀ v ∈ vs, i < v.length) :
    rowAt vs i = .ok (vs.map (fun v => v.getD i d)) := by
  induction vs with
  | nil => rfl
  | cons v vs ih =>
    have hv := h v (by simp)
    simp [rowAt, List.getElem?_eq_getElem hv, ih (fun v' hv' => h v' (by simp [hv'])),
      List.getD_eq_getElem?_getD]

theorem multiBy_view {β : Type} (key : List β → κ) (n : Nat) (d : β) :
    View (multiByAcc key) n (fun s => ∀ v ∈ s, v.length = n)
      (fun s k => key (s.map (fun v => v.getD k d))) where
  get_ok s i hv hi := by
    simp only [multiByAcc]
    rw [rowAt_eq s i d (fun v h => by rw [hv v h]; exact hi)]; rfl
  swap_ok s i j hv hi hj := by
    obtain ⟨vs', e, h⟩ := swapAll_ok hv hi hj
    refine ⟨vs', e, forall₂_lengths h hv, ?_⟩
    funext k
    by_cases hk : k < n
    · have hm : ∀ (a b : List (List β)), List.Forall₂ (Rearranged n (swapIdx i j)) a b →
          b.map (fun v => v.getD k d) = a.map (fun v => v.getD (swapIdx i j k) d) := by
        intro a b hab
        induction hab with
        | nil => rfl
        | cons h hs ih =>
          rw [List.map_cons, List.map_cons, ih]
          simp only [List.getD_eq_getElem?_getD, h.2 k hk]
      simp only [hm s vs' h, swapF, swapIdx]
      split
      · rfl
      · split <;> rfl
    · simp only [swapF]
      rw [if_neg (by omega), if_neg (by omega)]
      have hm : ∀ (a b : List (List β)), List.Forall₂ (Rearranged n (swapIdx i j)) a b →
          (∀ v ∈ a, v.length = n) →
          b.map (fun v => v.getD k d) = a.map (fun v => v.getD k d) := by
        intro a b hab
        induction hab with
        | nil => simp
        | @cons x y xs ys h hs ih =>
          intro hl
          have h1 : x.length ≤ k := by rw [hl x (by simp)]; omega
          have h2 : y.length ≤ k := by rw [h.1]; exact h1
          rw [List.map_cons, List.map_cons, ih (fun v hv => hl v (by simp [hv]))]
          simp only [List.getD_eq_getElem?_getD, List.getElem?_eq_none h1, List.getElem?_eq_none h2]
      rw [hm s vs' h hv]

theorem multiBy_steps {β : Type} {key : List β → κ} {n lo hi : Nat} (hn : hi ≤ n) {s s' : List (List β)}
    (h : Steps (multiByAcc key) lo hi s s') (hv : ∀ v ∈ s, v.length = n) :
    ∃ π, PermOn n π ∧ List.Forall₂ (Rearranged n π) s s' := by
  induction h with
  | refl s => exact ⟨id, ⟨fun _ h => h, fun _ _ _ _ h => h⟩, forall₂_id _⟩
  | @step s s1 s2 i j h1 h2 h3 h4 h r ih =>
    obtain ⟨vs', e, hvs⟩ := swapAll_ok hv (by omega : i < n) (by omega : j < n)
    simp only [multiByAcc, e, Except.ok.injEq] at h
    subst h
    obtain ⟨ρ, hρ, b⟩ := ih (forall₂_lengths hvs hv)
    exact ⟨_, (swapIdx_permOn (by omega) (by omega)).comp hρ, forall₂_comp hρ hvs b⟩

/-! ### partition -/

section Partition
variable {σ : Type} {A : Acc σ Bool} {n : Nat} {Valid : σ → Prop} {view : σ → Nat → Bool}

theorem scanLeft_ok (V : View A n Valid view) {s : σ} (hv : Valid s) (m first : Nat)
    (h : first + m ≤ n) :
    ∃ f, scanLeft A s first m = .ok f ∧ first ≤ f ∧ f ≤ first + m ∧
      (∀ k, first ≤ k → k < f → view s k = false) ∧ (f < first + m → view s f = true) := by
  induction m generalizing first with
  | zero => exact ⟨first, rfl, by omega, by omega, fun k h1 h2 => by omega, fun h => by omega⟩
  | succ m ih =>
    unfold scanLeft
    rw [V.get_ok s first hv (by omega)]
    simp only [R.ok_bind]
    cases hc : view s first with
    | true => exact ⟨first, by simp, by omega, by omega, fun k h1 h2 => by omega, fun _ => hc⟩
    | false =>
      obtain ⟨f, e, h1, h2, h3, h4⟩ := ih (first + 1) (by omega)
      refine ⟨f, by simp [e], by omega, by omega, fun k a b => ?_, fun h => h4 (by omega)⟩
      by_cases hk : k = first
      · subst hk; exact hc
      · exact h3 k (by omega) b

theorem scanRight_ok (V : View A n Valid view) {s : σ} (hv : Valid s) (start last : Nat)
    (h : last < n ∨ last = 0) :
    ∃ l, scanRight A s start last = .ok l ∧ l ≤ last ∧ (start ≤ last → start ≤ l) ∧
      (∀ k, l < k → k ≤ last → view s k = true) ∧ (start < l → view s l = false) := by
  induction last with
  | zero => exact ⟨0, rfl, by omega, fun h => h, fun k a b => by omega, fun h => by omega⟩
  | succ last ih =>
    unfold scanRight
    by_cases hgt : last + 1 > start
    · rw [if_pos hgt, V.get_ok s (last + 1) hv (by omega)]
      simp only [R.ok_bind]
      cases hc : view s (last + 1) with
      | false => exact ⟨last + 1, by simp, by omega, fun h => by omega, fun k a b => by omega, fun _ => hc⟩
      | true =>
        obtain ⟨l, e, h1, h2, h3, h4⟩ := ih (by omega)
        refine ⟨l, by simp [e], by omega, fun h => h2 (by omega), fun k a b => ?_, h4⟩
        by_cases hk : k = last + 1
        · subst hk; exact hc
        · exact h3 k a (by omega)
    · rw [if_neg hgt]
      exact ⟨last + 1, rfl, by omega, fun h => h, fun k a b => by omega, fun h => by omega⟩

theorem partitionLoop_ok (V : View A n Valid view) (fuel : Nat) {s : σ} (hv : Valid s)
    {first last : Nat} (hf : first ≤ n) (hl : last < n ∨ n = 0 ∧ last = 0) (hfuel : last + 1 - first < fuel)
    (h1 : ∀ k, k < first → view s k = false) (h2 : ∀ k, last < k → k < n → view s k = true) :
    ∃ s' p, partitionLoop A 0 n fuel s first last = .ok (s', p) ∧ Steps A 0 n s s' ∧ p ≤ n ∧
      (∀ k, k < p → view s' k = false) ∧ (∀ k, p ≤ k → k < n → view s' k = true) := by
  induction fuel generalizing s first last with
  | zero => omega
  | succ fuel ih =>
    unfold partitionLoop
    obtain ⟨f, ef, f1, f2, f3, f4⟩ := scanLeft_ok V hv (n - first) first (by omega)
    obtain ⟨l, el, l1, l2, l3, l4⟩ := scanRight_ok V hv 0 last (by omega)
    simp only [ef, el, R.ok_bind]
    have hF : ∀ k, k < f → view s k = false := by
      intro k hk
      rcases Nat.lt_or_ge k first with h | h
      · exact h1 k h
      · exact f3 k h hk
    have hL : ∀ k, l < k → k < n → view s k = true := by
      intro k a b
      rcases Nat.lt_or_ge last k with h | h
      · exact h2 k h b
      · exact l3 k a h
    by_cases hge : f ≥ l
    · rw [if_pos hge]
      refine ⟨s, f, rfl, .refl s, by omega, hF, fun k a b => ?_⟩
      by_cases hk : k = f
      · subst hk; exact f4 (by omega)
      · exact hL k (by omega) b
    · rw [if_neg hge]
      obtain ⟨t, e, hv1, hview⟩ := V.swap_ok s f l hv (by omega) (by omega)
      have tf : view t f = false := by rw [hview]; simp only [swapF, if_true]; exact l4 (by omega)
      have tl : view t l = true := by
        rw [hview]; simp only [swapF]; rw [if_neg (by omega)]; simp only [if_true]; exact f4 (by omega)
      have tother : ∀ k, k ≠ f → k ≠ l → view t k = view s k := by
        intro k a b; rw [hview]; simp [swapF, a, b]
      obtain ⟨s', p, e', r, p1, p2, p3⟩ := ih hv1 (first := f + 1) (last := l - 1) (by omega) (by omega)
        (by omega)
        (by intro k hk
            by_cases hkf : k = f
            · subst hkf; exact tf
            · rw [tother k hkf (by omega)]; exact hF k (by omega))
        (by intro k a b
            by_cases hkl : k = l
            · subst hkl; exact tl
            · rw [tother k (by omega) hkl]; exact hL k (by omega) b)
      exact ⟨s', p, by simp [e, e'], .step f l (by omega) (by omega) (by omega) (by omega) e r, p1, p2, p3⟩

end Partition

/-! ### is_sorted -/

theorem isSortedLoop_ok (key : α → κ) (cmp : κ → κ → Bool) (l : List α) (m i : Nat) (hi : 0 < i)
    (h : i + m ≤ l.length) :
    ∃ b, isSortedLoop key cmp l i m = .ok b ∧
      (b = true ↔ ∀ k (hk : k < l.length), i ≤ k → k < i + m →
        cmp (key l[k]) (key (l[k - 1]'(by omega))) = false) := by
  induction m generalizing i with
  | zero => exact ⟨true, rfl, by simp; intro k _ _ _; omega⟩
  | succ m ih =>
    unfold isSortedLoop
    have h1 : i < l.length := by omega
    have h2 : i - 1 < l.length := by omega
    simp only [listAcc, List.getElem?_eq_getElem h1, List.getElem?_eq_getElem h2, R.ok_bind]
    cases hc : cmp (key l[i]) (key l[i - 1]) with
    | true =>
      refine ⟨false, rfl, ?_⟩
      simp only [Bool.false_eq_true, false_iff]
      intro hall
      have := hall i h1 (by omega) (by omega)
      rw [hc] at this; simp at this
    | false =>
      obtain ⟨b, e, hb⟩ := ih (i + 1) (by omega) (by omega)
      refine ⟨b, by simpa using e, ?_⟩
      rw [hb]
      constructor
      · intro hall k hk a1 a2
        by_cases hki : k = i
        · subst hki; exact hc
        · exact hall k hk (by omega) (by omega)
      · intro hall k hk a1 a2
        exact hall k hk (by omega) (by omega)

theorem isStrictlySortedLoop_ok (key : α → κ) (cmp : κ → κ → Bool) (l : List α) (m i : Nat)
    (hi : 0 < i) (h : i + m ≤ l.length) :
    ∃ b, isStrictlySortedLoop key cmp l i m = .ok b ∧
      (b = true ↔ ∀ k (hk : k < l.length), i ≤ k → k < i + m →
        cmp (key (l[k - 1]'(by omega))) (key l[k]) = true) := by
  induction m generalizing i with
  | zero => exact ⟨true, rfl, by simp; intro k _ _ _; omega⟩
  | succ m ih =>
    unfold isStrictlySortedLoop
    have h1 : i < l.length := by omega
    have h2 : i - 1 < l.length := by omega
    simp only [listAcc, List.getElem?_eq_getElem h1, List.getElem?_eq_getElem h2, R.ok_bind]
    cases hc : cmp (key l[i - 1]) (key l[i]) with
    | false =>
      refine ⟨false, rfl, ?_⟩
      simp only [Bool.false_eq_true, false_iff]
      intro hall
      have := hall i h1 (by omega) (by omega)
      rw [hc] at this; simp at this
    | true =>
      obtain ⟨b, e, hb⟩ := ih (i + 1) (by omega) (by omega)
      refine ⟨b, by simpa using e, ?_⟩
      rw [hb]
      constructor
      · intro hall k hk a1 a2
        by_cases hki : k = i
        · subst hki; exact hc
        · exact hall k hk (by omega) (by omega)
      · intro hall k hk a1 a2
        exact hall k hk (by omega) (by omega)

/-- A transitive relation that holds between neighbours holds between all pairs. -/
theorem pairs_of_adjacent {P : Nat → Nat → Prop} {n : Nat}
    (htr : ∀ a b c, a < b → b < c → c < n → P a b → P b c → P a c)
    (hadj : ∀ k, 0 < k → k < n → P (k - 1) k) : ∀ i j, i < j → j < n → P i j := by
  intro i j hij
  induction j with
  | zero => omega
  | succ j ih =>
    intro hj
    by_cases h : i = j
    · subst h; exact hadj (i + 1) (by omega) hj
    · exact htr i j (j + 1) (by omega) (by omega) hj (ih (by omega) (by omega))
        (hadj (j + 1) (by omega) hj)

end Verif.Sort
