import Verif.Sort.Lemmas2

/-! Helper lemmas for C140: what `sortEx` does when the comparison is not an order. -/
namespace Verif.Sort

section
variable {σ κ : Type _} {A : Acc σ κ} {n : Nat} {Valid : σ → Prop} {view : σ → Nat → κ}
  {cmp : κ → κ → Bool}

theorem sort2_any (V : View A n Valid view) {lo hi : Nat} (hn : hi ≤ n) {s : σ}
    (hv : Valid s) {ia ib : Nat} (ha1 : lo ≤ ia) (ha2 : ia < hi) (hb1 : lo ≤ ib) (hb2 : ib < hi)
    (hne : ia ≠ ib) :
    ∃ s', sort2 A cmp s ia ib = .ok s' ∧ Steps A lo hi s s' ∧
      (∀ k, k ≠ ia → k ≠ ib → view s' k = view s k) ∧
      ((view s' ia = view s ia ∧ view s' ib = view s ib ∧ cmp (view s ib) (view s ia) = false) ∨
       (view s' ia = view s ib ∧ view s' ib = view s ia ∧ cmp (view s ib) (view s ia) = true)) := by
  unfold sort2
  rw [V.get_ok s ia hv (by omega), V.get_ok s ib hv (by omega)]
  simp only [R.ok_bind]
  cases hc : cmp (view s ib) (view s ia) with
  | false => exact ⟨s, by simp, .refl s, fun _ _ _ => rfl, .inl ⟨rfl, rfl, rfl⟩⟩
  | true =>
    obtain ⟨t, e, hv1, hview⟩ := V.swap_ok s ia ib hv (by omega) (by omega)
    have h1 : view t ia = view s ib := by rw [hview]; simp [swapF]
    have h2 : view t ib = view s ia := by
      rw [hview]; simp only [swapF]; rw [if_neg (Ne.symm hne)]; simp
    refine ⟨t, by simp [e], .one e ha1 ha2 hb1 hb2, ?_, .inr ⟨h1, h2, rfl⟩⟩
    intro k hk1 hk2; rw [hview]; simp [swapF, hk1, hk2]

/-- `sort3` with any comparison; with an asymmetric one the third element is afterwards not less
than the second, although nothing is known about the first and the third. -/
theorem sort3_any (V : View A n Valid view) {lo hi : Nat} (hn : hi ≤ n) {s : σ}
    (hv : Valid s) {ia ib ic : Nat} (ha1 : lo ≤ ia) (ha2 : ia < hi) (hb1 : lo ≤ ib) (hb2 : ib < hi)
    (hc1 : lo ≤ ic) (hc2 : ic < hi) (hab : ia ≠ ib) (hbc : ib ≠ ic) (hac : ia ≠ ic) :
    ∃ s', sort3 A cmp s ia ib ic = .ok s' ∧ Steps A lo hi s s' ∧
      (Asymmetric cmp → cmp (view s' ic) (view s' ib) = false) := by
  obtain ⟨s1, e1, r1, o1, x1⟩ := sort2_any (cmp := cmp) V hn hv ha1 ha2 hb1 hb2 hab
  obtain ⟨hv1, -⟩ := r1.facts V hn hv
  obtain ⟨s2, e2, r2, o2, x2⟩ := sort2_any (cmp := cmp) V hn hv1 hb1 hb2 hc1 hc2 hbc
  obtain ⟨hv2, -⟩ := r2.facts V hn hv1
  obtain ⟨s3, e3, r3, o3, x3⟩ := sort2_any (cmp := cmp) V hn hv2 ha1 ha2 hb1 hb2 hab
  refine ⟨s3, by simp [sort3, e1, e2, e3], r1.trans (r2.trans r3), fun W => ?_⟩
  have ha : view s2 ia = view s1 ia := o2 ia hab hac
  have hc : view s3 ic = view s2 ic := o3 ic (Ne.symm hac) (Ne.symm hbc)
  have c1 : cmp (view s1 ib) (view s1 ia) = false := by
    rcases x1 with ⟨p, q, h⟩ | ⟨p, q, h⟩
    · rw [p, q]; exact h
    · rw [p, q]; exact W _ _ h
  rw [hc]
  rcases x3 with ⟨-, h, -⟩ | ⟨-, h, h'⟩
  · rw [h]
    rcases x2 with ⟨p, q, x⟩ | ⟨p, q, x⟩
    · rw [p, q]; exact x
    · rw [p, q]; exact W _ _ x
  · rw [h, ha]
    rcases x2 with ⟨p, -, -⟩ | ⟨-, q, -⟩
    · rw [p, ha, c1] at h'; simp at h'
    · rw [q]; exact c1

theorem insertDown_any (V : View A n Valid view) {start i : Nat} (hi : i < n)
    (j : Nat) {s : σ} (hv : Valid s) (hj : j ≤ i) :
    ∃ s', insertDown A cmp start s j = .ok s' ∧ Steps A start (i + 1) s s' := by
  induction j generalizing s with
  | zero => exact ⟨s, rfl, .refl s⟩
  | succ j ih =>
    unfold insertDown
    by_cases hgt : j + 1 > start
    · rw [if_pos hgt, V.get_ok s j hv (by omega), V.get_ok s (j + 1) hv (by omega)]
      simp only [R.ok_bind]
      cases hc : cmp (view s j) (view s (j + 1)) with
      | true => exact ⟨s, by simp, .refl s⟩
      | false =>
        obtain ⟨t, e, hv1, -⟩ := V.swap_ok s j (j + 1) hv (by omega) (by omega)
        obtain ⟨s', e', r⟩ := ih (s := t) hv1 (by omega)
        exact ⟨s', by simp [e, e'],
          .step j (j + 1) (by omega) (by omega) (by omega) (by omega) e r⟩
    · rw [if_neg hgt]
      exact ⟨s, rfl, .refl s⟩

theorem insertLoop_any (V : View A n Valid view) {start : Nat} (m i : Nat)
    (hn : i + m ≤ n) {s : σ} (hv : Valid s) :
    ∃ s', insertLoop A cmp start s i m = .ok s' ∧ Steps A start (i + m) s s' := by
  induction m generalizing i s with
  | zero => exact ⟨s, rfl, .refl s⟩
  | succ m ih =>
    obtain ⟨s1, e1, r1⟩ := insertDown_any (cmp := cmp) V (i := i) (by omega) i hv (by omega)
      (start := start)
    obtain ⟨hv1, -⟩ := r1.facts V (by omega) hv
    obtain ⟨s2, e2, r2⟩ := ih (i + 1) (by omega) hv1
    exact ⟨s2, by simp [insertLoop, e1, e2],
      (r1.mono (by omega) (by omega)).trans (r2.mono (by omega) (by omega))⟩

theorem smallSort_any (V : View A n Valid view) {start size : Nat}
    (hn : start + size ≤ n) {s : σ} (hv : Valid s) :
    ∃ s', smallSort A cmp s start size = .ok s' ∧ Steps A start (start + size) s s' := by
  unfold smallSort
  split
  · exact ⟨s, rfl, .refl s⟩
  · split
    · rename_i h1 h2
      subst h2
      obtain ⟨s1, e1, r1, -⟩ := sort2_any (cmp := cmp) V (lo := start) (hi := start + 2) hn hv
        (ia := start) (ib := start + 1) (by omega) (by omega) (by omega) (by omega) (by omega)
      exact ⟨s1, e1, r1⟩
    · split
      · rename_i h1 h2 h3
        subst h3
        obtain ⟨s1, e1, r1, -⟩ := sort3_any (cmp := cmp) V (lo := start) (hi := start + 3) hn hv
          (ia := start) (ib := start + 1) (ic := start + 2) (by omega) (by omega) (by omega)
          (by omega) (by omega) (by omega) (by omega) (by omega) (by omega)
        exact ⟨s1, e1, r1⟩
      · obtain ⟨s1, e1, r1⟩ := insertLoop_any (cmp := cmp) V (start := start) (size - 1) (start + 1)
          (by omega) hv
        have : start + 1 + (size - 1) = start + size := by omega
        rw [this] at r1
        exact ⟨s1, e1, r1⟩

theorem choosePivot_any (V : View A n Valid view) (W : Asymmetric cmp) {start size : Nat}
    (hn : start + size ≤ n) (hsz : 16 < size) {s : σ} (hv : Valid s) :
    ∃ s' g, choosePivot A cmp s start size = .ok s' ∧ Steps A start (start + size) s s' ∧
      start < g ∧ g < start + size ∧ cmp (view s' g) (view s' start) = false := by
  unfold choosePivot
  by_cases hbig : size > 128
  · simp only [if_pos hbig]
    obtain ⟨s1, e1, r1, -⟩ := sort3_any (cmp := cmp) V (lo := start) hn hv (ia := start)
      (ib := start + size / 2) (ic := start + size - 1) (by omega) (by omega) (by omega) (by omega)
      (by omega) (by omega) (by omega) (by omega) (by omega)
    have v1 := (r1.facts V hn hv).1
    obtain ⟨s2, e2, r2, -⟩ := sort3_any (cmp := cmp) V (lo := start) hn v1 (ia := start + 1)
      (ib := start + (size / 2 - 1)) (ic := start + size - 2) (by omega) (by omega) (by omega)
      (by omega) (by omega) (by omega) (by omega) (by omega) (by omega)
    have v2 := (r2.facts V hn v1).1
    obtain ⟨s3, e3, r3, -⟩ := sort3_any (cmp := cmp) V (lo := start) hn v2 (ia := start + 2)
      (ib := start + (size / 2 + 1)) (ic := start + size - 3) (by omega) (by omega) (by omega)
      (by omega) (by omega) (by omega) (by omega) (by omega) (by omega)
    have v3 := (r3.facts V hn v2).1
    obtain ⟨s4, e4, r4, d4⟩ := sort3_any (cmp := cmp) V (lo := start) hn v3
      (ia := start + (size / 2 - 1))
      (ib := start + size / 2) (ic := start + (size / 2 + 1)) (by omega) (by omega) (by omega)
      (by omega) (by omega) (by omega) (by omega) (by omega) (by omega)
    have v4 := (r4.facts V hn v3).1
    obtain ⟨s5, e5, v5, hview⟩ := V.swap_ok s4 start (start + size / 2) v4 (by omega) (by omega)
    refine ⟨s5, start + (size / 2 + 1), by simp [e1, e2, e3, e4, e5], ?_, by omega, by omega, ?_⟩
    · exact r1.trans (r2.trans (r3.trans (r4.trans (.one e5 (by omega) (by omega) (by omega) (by omega)))))
    · have h1 : view s5 start = view s4 (start + size / 2) := by rw [hview]; simp [swapF]
      have h2 : view s5 (start + (size / 2 + 1)) = view s4 (start + (size / 2 + 1)) := by
        rw [hview]; simp only [swapF]; rw [if_neg (by omega), if_neg (by omega)]
      rw [h1, h2]; exact d4 W
  · simp only [if_neg hbig]
    obtain ⟨s1, e1, r1, d1⟩ := sort3_any (cmp := cmp) V (lo := start) hn hv (ia := start + size / 2)
      (ib := start) (ic := start + size - 1) (by omega) (by omega) (by omega) (by omega)
      (by omega) (by omega) (by omega) (by omega) (by omega)
    exact ⟨s1, start + size - 1, e1, r1, by omega, by omega, d1 W⟩

/-- `sortEx` only exchanges elements of its range, for every asymmetric comparison and for every
comparison if the range is short. -/
theorem sortEx_any (V : View A n Valid view) {select : Nat → Nat → R Bool}
    (hsel : ∀ st sz, st + sz ≤ n → ∃ b, select st sz = .ok b) (fuel : Nat)
    {start size : Nat} (W : size ≤ 16 ∨ Asymmetric cmp)
    (hn : start + size ≤ n) (hfuel : size < fuel) {s : σ} (hv : Valid s) :
    ∃ s', sortEx A cmp select fuel s start size = .ok s' ∧ Steps A start (start + size) s s' := by
  induction fuel generalizing start size s with
  | zero => omega
  | succ fuel ih =>
    unfold sortEx
    by_cases hsmall : size ≤ 16
    · rw [if_pos hsmall]
      exact smallSort_any V hn hv
    · rw [if_neg hsmall]
      have W := W.resolve_left hsmall
      obtain ⟨s1, g, e1, r1, g1, g2, g3⟩ := choosePivot_any V W hn (by omega) hv
      have v1 := (r1.facts V hn hv).1
      obtain ⟨s2, pp, e2, r2, p1, p2, -⟩ := partitionRight_ok V (cmp := cmp) hn v1 g1 g2 g3
      have v2 := (r2.facts V hn v1).1
      obtain ⟨bL, hbL⟩ := hsel start (pp - start) (by omega)
      obtain ⟨bR, hbR⟩ := hsel (pp + 1) (start + size - (pp + 1)) (by omega)
      have eL : start + (pp - start) = pp := by omega
      have eR : pp + 1 + (start + size - (pp + 1)) = start + size := by omega
      obtain ⟨s3, e3, r3⟩ : ∃ s3, (if bL then sortEx A cmp select fuel s2 start (pp - start)
            else pure s2) = .ok s3 ∧ Steps A start pp s2 s3 := by
        cases bL with
        | true =>
          obtain ⟨s3, e, r⟩ := ih (start := start) (size := pp - start) (.inr W) (by omega)
            (by omega) v2
          rw [eL] at r
          exact ⟨s3, by simpa using e, r⟩
        | false => exact ⟨s2, by simp, .refl _⟩
      have v3 := (r3.facts V (by omega) v2).1
      obtain ⟨s4, e4, r4⟩ : ∃ s4, (if bR then sortEx A cmp select fuel s3 (pp + 1)
            (start + size - (pp + 1)) else pure s3) = .ok s4 ∧
          Steps A (pp + 1) (start + size) s3 s4 := by
        cases bR with
        | true =>
          obtain ⟨s4, e, r⟩ := ih (start := pp + 1) (size := start + size - (pp + 1)) (.inr W)
            (by omega) (by omega) v3
          rw [eR] at r
          exact ⟨s4, by simpa using e, r⟩
        | false => exact ⟨s3, by simp, .refl _⟩
      refine ⟨s4, ?_, ?_⟩
      · simp only [e1, e2, R.ok_bind, hbL, hbR]
        cases bL with
        | true =>
          simp only [if_true] at e3 ⊢
          rw [e3]; exact e4
        | false =>
          simp only [Bool.false_eq_true, if_false] at e3 ⊢
          rw [e3]; exact e4
      · exact r1.trans (r2.trans ((r3.mono (by omega) (by omega)).trans (r4.mono (by omega) (by omega))))

end

/-! ### one array -/

section
variable {α κ : Type}

theorem select_any (key : α → κ) {cmp : κ → κ → Bool} {select : Nat → Nat → R Bool} (l : List α)
    (W : l.length ≤ 16 ∨ Asymmetric cmp)
    (hsel : ∀ st sz, st + sz ≤ l.length → ∃ b, select st sz = .ok b) :
    ∃ l', sortEx (listAcc key) cmp select (l.length + 1) l 0 l.length = .ok l' ∧ l'.Perm l := by
  cases l with
  | nil => exact ⟨[], by simp [sortEx, smallSort], List.Perm.refl _⟩
  | cons d l =>
    obtain ⟨l', e, r⟩ := sortEx_any (list_view key (d :: l).length d) hsel
      ((d :: l).length + 1) (start := 0) (size := (d :: l).length) W (by omega) (by omega)
      (s := d :: l) rfl
    exact ⟨l', e, list_steps_perm r⟩

/-! ### a comparison that holds of an element and itself -/

theorem swapAt_replicate (x : α) {n i j : Nat} (hi : i < n) (hj : j < n) :
    swapAt (List.replicate n x) i j = .ok (List.replicate n x) := by
  rw [swapAt_eq (by simpa using hi) (by simpa using hj)]
  simp only [List.getElem_replicate]
  congr 1
  apply List.ext_getElem?
  intro k
  simp only [List.getElem?_set, List.length_set, List.length_replicate, List.getElem?_replicate]
  split <;> split <;> simp_all

theorem get_replicate (key : α → κ) (x : α) {n i : Nat} (hi : i < n) :
    (listAcc key).get (List.replicate n x) i = .ok (key x) := by
  simp [listAcc, hi]

theorem get_replicate_out (key : α → κ) (x : α) {n i : Nat} (hi : n ≤ i) :
    (listAcc key).get (List.replicate n x) i = .error .ub := by
  simp [listAcc, Nat.not_lt.2 hi]

theorem refl_sort2 (key : α → κ) {cmp : κ → κ → Bool} (x : α) (hx : cmp (key x) (key x) = true)
    {n ia ib : Nat} (ha : ia < n) (hb : ib < n) :
    sort2 (listAcc key) cmp (List.replicate n x) ia ib = .ok (List.replicate n x) := by
  unfold sort2
  rw [get_replicate key x ha, get_replicate key x hb]
  simp only [R.ok_bind, hx, if_true]
  exact swapAt_replicate x ha hb

theorem refl_sort3 (key : α → κ) {cmp : κ → κ → Bool} (x : α) (hx : cmp (key x) (key x) = true)
    {n ia ib ic : Nat} (ha : ia < n) (hb : ib < n) (hc : ic < n) :
    sort3 (listAcc key) cmp (List.replicate n x) ia ib ic = .ok (List.replicate n x) := by
  simp [sort3, refl_sort2 key x hx ha hb, refl_sort2 key x hx hb hc]

theorem refl_scanUp (key : α → κ) {cmp : κ → κ → Bool} (x : α) (hx : cmp (key x) (key x) = true)
    {n start : Nat} (hs : start < n) (fuel first : Nat) :
    scanUp (listAcc key) cmp (List.replicate n x) start fuel first = .error .ub := by
  induction fuel generalizing first with
  | zero => rfl
  | succ fuel ih =>
    unfold scanUp
    by_cases h : first + 1 < n
    · rw [get_replicate key x h, get_replicate key x hs]
      simp only [R.ok_bind, hx, if_true]
      exact ih _
    · rw [get_replicate_out key x (Nat.not_lt.1 h)]
      rfl

theorem refl_sortEx (key : α → κ) {cmp : κ → κ → Bool} (x : α) (hx : cmp (key x) (key x) = true)
    {n : Nat} (hn : 16 < n) (select : Nat → Nat → R Bool) :
    sortEx (listAcc key) cmp select (n + 1) (List.replicate n x) 0 n = .error .ub := by
  unfold sortEx
  rw [if_neg (by omega)]
  have hc : choosePivot (listAcc key) cmp (List.replicate n x) 0 n = .ok (List.replicate n x) := by
    unfold choosePivot
    split
    · simp only [refl_sort3 key x hx (n := n) (ia := 0) (ib := 0 + n / 2) (ic := 0 + n - 1)
        (by omega) (by omega) (by omega),
        refl_sort3 key x hx (n := n) (ia := 0 + 1) (ib := 0 + (n / 2 - 1)) (ic := 0 + n - 2)
        (by omega) (by omega) (by omega),
        refl_sort3 key x hx (n := n) (ia := 0 + 2) (ib := 0 + (n / 2 + 1)) (ic := 0 + n - 3)
        (by omega) (by omega) (by omega),
        refl_sort3 key x hx (n := n) (ia := 0 + (n / 2 - 1)) (ib := 0 + n / 2)
        (ic := 0 + (n / 2 + 1)) (by omega) (by omega) (by omega), R.ok_bind]
      exact swapAt_replicate x (by omega) (by omega)
    · exact refl_sort3 key x hx (by omega) (by omega) (by omega)
  rw [hc]
  simp only [R.ok_bind]
  unfold partitionRight
  rw [refl_scanUp key x hx (by omega)]
  rfl

end

end Verif.Sort
