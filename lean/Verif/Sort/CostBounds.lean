import Verif.Sort.CostLemmas
import Mathlib.Tactic.Ring

/-! Upper bounds on the number of calls of `compare` and `is_right`. -/
namespace Verif.Sort

variable {σ κ : Type} {A : Acc σ κ} {cmp : κ → κ → Bool} {n : Nat} {Valid : σ → Prop}
  {view : σ → Nat → κ}

/-- A counted result is known once the uncounted one and a bound on the count are known. -/
theorem of_erase {β : Type _} {x : R (β × Nat)} {v : β} (h : erase x = .ok v) :
    ∃ c, x = .ok (v, c) := by
  cases x with
  | error e => simp at h
  | ok p =>
    obtain ⟨w, c⟩ := p
    simp only [erase_ok, Except.ok.injEq] at h
    exact ⟨c, by rw [h]⟩

theorem sort2C_cost {s s' : σ} {ia ib c : Nat} (h : sort2C A cmp s ia ib = .ok (s', c)) : c = 1 := by
  unfold sort2C at h
  simp only [R.bind_eq_ok] at h
  obtain ⟨a, -, b, -, h⟩ := h
  split at h
  · simp only [R.bind_eq_ok, R.pure_eq, Except.ok.injEq, Prod.mk.injEq] at h
    obtain ⟨_, -, -, h⟩ := h; exact h.symm
  · simp only [R.pure_eq, Except.ok.injEq, Prod.mk.injEq] at h
    exact h.2.symm

theorem sort3C_cost {s s' : σ} {ia ib ic c : Nat} (h : sort3C A cmp s ia ib ic = .ok (s', c)) :
    c = 3 := by
  unfold sort3C at h
  simp only [R.bind_eq_ok, R.pure_eq, Except.ok.injEq, Prod.mk.injEq] at h
  obtain ⟨⟨s1, c1⟩, h1, ⟨s2, c2⟩, h2, ⟨s3, c3⟩, h3, -, h⟩ := h
  have := sort2C_cost h1
  have := sort2C_cost h2
  have := sort2C_cost h3
  simp only at h
  omega

theorem insertDownC_cost {start j : Nat} {s s' : σ} {c : Nat}
    (h : insertDownC A cmp start s j = .ok (s', c)) : c ≤ j - start := by
  induction j generalizing s s' c with
  | zero =>
    simp only [insertDownC, Except.ok.injEq, Prod.mk.injEq] at h
    omega
  | succ j ih =>
    simp only [insertDownC] at h
    by_cases hgt : j + 1 > start
    · rw [if_pos hgt] at h
      simp only [R.bind_eq_ok] at h
      obtain ⟨a, -, b, -, h⟩ := h
      split at h
      · simp only [R.bind_eq_ok, R.pure_eq, Except.ok.injEq, Prod.mk.injEq] at h
        obtain ⟨t, -, ⟨t', c'⟩, h2, -, h3⟩ := h
        have := ih h2
        simp only at h3
        omega
      · simp only [R.pure_eq, Except.ok.injEq, Prod.mk.injEq] at h
        omega
    · rw [if_neg hgt] at h
      simp only [Except.ok.injEq, Prod.mk.injEq] at h
      omega

theorem insertLoopC_cost {start i m : Nat} {s s' : σ} {c : Nat}
    (h : insertLoopC A cmp start s i m = .ok (s', c)) : c ≤ m * (i + m - start) := by
  induction m generalizing s s' c i with
  | zero =>
    simp only [insertLoopC, Except.ok.injEq, Prod.mk.injEq] at h
    omega
  | succ m ih =>
    simp only [insertLoopC, R.bind_eq_ok, R.pure_eq, Except.ok.injEq, Prod.mk.injEq] at h
    obtain ⟨⟨t, c1⟩, h1, ⟨t', c2⟩, h2, -, h3⟩ := h
    have a := insertDownC_cost h1
    have b := ih h2
    simp only at h3
    have e : i + 1 + m - start = i + (m + 1) - start := by omega
    rw [e] at b
    rw [Nat.add_mul, Nat.one_mul]
    omega

theorem smallSortC_cost {start size : Nat} {s s' : σ} {c : Nat}
    (h : smallSortC A cmp s start size = .ok (s', c)) : c ≤ size * size := by
  unfold smallSortC at h
  split at h
  · simp only [Except.ok.injEq, Prod.mk.injEq] at h
    omega
  · split at h
    · rename_i h1 h2
      have := sort2C_cost h
      subst h2; omega
    · split at h
      · rename_i h1 h2 h3
        have := sort3C_cost h
        subst h3; omega
      · have b := insertLoopC_cost h
        have e : start + 1 + (size - 1) - start = size := by omega
        rw [e] at b
        exact Nat.le_trans b (Nat.mul_le_mul_right _ (by omega))

theorem scanUpC_cost {start fuel first : Nat} {s : σ} {f c : Nat}
    (h : scanUpC A cmp s start fuel first = .ok (f, c)) : first < f ∧ c = f - first := by
  induction fuel generalizing first c with
  | zero => simp [scanUpC] at h
  | succ m ih =>
    simp only [scanUpC, R.bind_eq_ok] at h
    obtain ⟨a, -, b, -, h⟩ := h
    split at h
    · simp only [R.bind_eq_ok, R.pure_eq, Except.ok.injEq, Prod.mk.injEq] at h
      obtain ⟨⟨t', c'⟩, h2, h3, h4⟩ := h
      simp only at h3 h4
      subst h3
      have := ih h2
      omega
    · simp only [R.pure_eq, Except.ok.injEq, Prod.mk.injEq] at h
      omega

theorem scanDownGuardedC_cost {start first l : Nat} {s : σ} {f c : Nat}
    (h : scanDownGuardedC A cmp s start first l = .ok (f, c)) : f ≤ l ∧ c = l - f := by
  induction l generalizing c with
  | zero =>
    simp only [scanDownGuardedC, Except.ok.injEq, Prod.mk.injEq] at h
    omega
  | succ m ih =>
    simp only [scanDownGuardedC] at h
    by_cases hlt : first < m + 1
    · rw [if_pos hlt] at h
      simp only [R.bind_eq_ok] at h
      obtain ⟨a, -, b, -, h⟩ := h
      split at h
      · simp only [R.bind_eq_ok, R.pure_eq, Except.ok.injEq, Prod.mk.injEq] at h
        obtain ⟨⟨t', c'⟩, h2, h3, h4⟩ := h
        simp only at h3 h4
        subst h3
        have := ih h2
        omega
      · simp only [R.pure_eq, Except.ok.injEq, Prod.mk.injEq] at h
        omega
    · rw [if_neg hlt] at h
      simp only [Except.ok.injEq, Prod.mk.injEq] at h
      omega

theorem scanDownC_cost {start l : Nat} {s : σ} {f c : Nat}
    (h : scanDownC A cmp s start l = .ok (f, c)) : f < l ∧ c = l - f := by
  induction l generalizing c with
  | zero => simp [scanDownC] at h
  | succ m ih =>
    simp only [scanDownC, R.bind_eq_ok] at h
    obtain ⟨a, -, b, -, h⟩ := h
    split at h
    · simp only [R.bind_eq_ok, R.pure_eq, Except.ok.injEq, Prod.mk.injEq] at h
      obtain ⟨⟨t', c'⟩, h2, h3, h4⟩ := h
      simp only at h3 h4
      subst h3
      have := ih h2
      omega
    · simp only [R.pure_eq, Except.ok.injEq, Prod.mk.injEq] at h
      omega

theorem choosePivotC_cost {start size : Nat} {s s' : σ} {c : Nat}
    (h : choosePivotC A cmp s start size = .ok (s', c)) : c ≤ 12 := by
  unfold choosePivotC at h
  dsimp only at h
  split at h
  · simp only [R.bind_eq_ok, R.pure_eq, Except.ok.injEq, Prod.mk.injEq] at h
    obtain ⟨⟨s1, c1⟩, h1, ⟨s2, c2⟩, h2, ⟨s3, c3⟩, h3, ⟨s4, c4⟩, h4, s5, h5, -, h⟩ := h
    have := sort3C_cost h1
    have := sort3C_cost h2
    have := sort3C_cost h3
    have := sort3C_cost h4
    simp only at h
    omega
  · have := sort3C_cost h
    omega

/-- The same hypotheses as in `partLoop_ok`: the swapping loop looks at every element between the
two scanners at most once, and at one of them twice. -/
theorem partLoopC_cost (V : View A n Valid view) {start size : Nat}
    (hn : start + size ≤ n) (fuel : Nat) {s : σ} (hv : Valid s) {first last : Nat}
    (h1 : start < first) (h2 : first < start + size) (h3 : last < start + size) (h4 : first ≤ last + 1)
    (hlo : ∀ k, start < k → k < first → cmp (view s k) (view s start) = true)
    (hfirst : cmp (view s first) (view s start) = false)
    (hlast : first < last → cmp (view s last) (view s start) = true)
    (hhi : ∀ k, last < k → k < start + size → cmp (view s k) (view s start) = false)
    {r : σ × Nat} {c : Nat} (h : partLoopC A cmp start size fuel s first last = .ok (r, c)) :
    c ≤ last + 1 - first := by
  induction fuel generalizing s first last c with
  | zero =>
    unfold partLoopC at h
    split at h
    · simp at h
    · simp only [Except.ok.injEq, Prod.mk.injEq] at h
      omega
  | succ fuel ih =>
    simp only [partLoopC] at h
    by_cases hlt : first < last
    · rw [if_pos hlt] at h
      obtain ⟨t, e, hv1, hview⟩ := V.swap_ok s first last hv (by omega) (by omega)
      have hp : view t start = view s start := by
        rw [hview]; simp only [swapF]; rw [if_neg (by omega), if_neg (by omega)]
      have hvf : view t first = view s last := by rw [hview]; simp [swapF]
      have hvl : view t last = view s first := by
        rw [hview]; simp only [swapF]; rw [if_neg (by omega)]; simp
      have hvo : ∀ k, k ≠ first → k ≠ last → view t k = view s k := by
        intro k a b; rw [hview]; simp [swapF, a, b]
      simp only [e, R.ok_bind, R.bind_eq_ok, R.pure_eq, Except.ok.injEq, Prod.mk.injEq] at h
      obtain ⟨⟨f', c1⟩, hf', ⟨l', c2⟩, hl', ⟨r', c3⟩, hr', hr, hc⟩ := h
      simp only at hl' hr' hr hc
      have cf := scanUpC_cost hf'
      have cl := scanDownC_cost hl'
      have ef' := scanUpC_erase A cmp t start size first
      have el' := scanDownC_erase A cmp t start last
      rw [hf', erase_ok] at ef'
      rw [hl', erase_ok] at el'
      have hsz : last - first ≤ size := by omega
      obtain ⟨f, ef, f1, f2, f3, f4⟩ := scanUp_ok V (cmp := cmp) (start := start) (last := last)
        (by omega) hv1 (by omega) (by rw [hvl, hp]; exact hfirst) size first hlt hsz
      obtain ⟨l, el, l1, l2, l3, l4⟩ := scanDown_ok V (cmp := cmp) (start := start) (first := first)
        hv1 (by omega) (by rw [hvf, hp]; exact hlast hlt) last hlt (by omega)
      rw [ef] at ef'
      rw [el] at el'
      simp only [Except.ok.injEq] at ef' el'
      rw [ef', el'] at hr'
      have hfl : f ≤ l + 1 := by
        rcases Nat.lt_or_ge (l + 1) f with h | h
        · have := f4 (l + 1) (by omega) h
          rcases Nat.lt_or_ge (l + 1) last with h' | h'
          · rw [l4 (l + 1) (by omega) h'] at this; simp at this
          · omega
        · exact h
      have := ih hv1 (first := f) (last := l) (by omega) (by omega)
        (by omega) hfl
        (by
          intro k hk1 hk2
          rcases Nat.lt_trichotomy k first with h | h | h
          · rw [hvo k (by omega) (by omega), hp]; exact hlo k hk1 h
          · subst h; rw [hvf, hp]; exact hlast hlt
          · exact f4 k h hk2)
        f3
        (fun _ => l3)
        (by
          intro k hk1 hk2
          rcases Nat.lt_trichotomy k last with h | h | h
          · exact l4 k hk1 h
          · subst h; rw [hvl, hp]; exact hfirst
          · rw [hvo k (by omega) (by omega), hp]; exact hhi k h hk2)
        (hr ▸ hr')
      omega
    · rw [if_neg hlt] at h
      simp only [Except.ok.injEq, Prod.mk.injEq] at h
      omega

/-- `partition_right` compares at most `size + 1` times. -/
theorem partitionRightC_cost (V : View A n Valid view) {start size : Nat}
    (hn : start + size ≤ n) {s : σ} (hv : Valid s) {g : Nat} (hg1 : start < g)
    (hg2 : g < start + size) (hg : cmp (view s g) (view s start) = false)
    {r : σ × Nat} {c : Nat} (h : partitionRightC A cmp s start size = .ok (r, c)) :
    c ≤ size + 1 := by
  obtain ⟨f, ef, f1, f2, f3, f4⟩ := scanUp_ok V (cmp := cmp) (start := start) (last := g)
    (by omega) hv (by omega) hg size start hg1 (by omega)
  obtain ⟨c1, hf'⟩ := of_erase ((scanUpC_erase A cmp s start size start).trans ef)
  have cf := scanUpC_cost hf'
  -- both variants of the downward scan
  obtain ⟨l, c2, el, cl, l1, l2, l3, l4⟩ :
      ∃ l c2, (if f - 1 = start then scanDownGuardedC A cmp s start f (start + size)
            else scanDownC A cmp s start (start + size)) = .ok (l, c2) ∧
        c2 ≤ start + size - l ∧
        l < start + size ∧ f ≤ l + 1 ∧
        (f < l → cmp (view s l) (view s start) = true) ∧
        (∀ k, l < k → k < start + size → cmp (view s k) (view s start) = false) := by
    by_cases hf : f - 1 = start
    · rw [if_pos hf]
      obtain ⟨l, e, a1, a2, a3, a4⟩ := scanDownGuarded_ok V (cmp := cmp) hv (by omega : start < n)
        (first := f) (start + size) (by omega) (by omega)
      obtain ⟨c2, he⟩ := of_erase ((scanDownGuardedC_erase A cmp s start f (start + size)).trans e)
      have := scanDownGuardedC_cost he
      refine ⟨l, c2, he, by omega, ?_, by omega, fun h => (a3 h).2, a4⟩
      rcases Nat.lt_or_ge f l with h | h
      · exact (a3 h).1
      · omega
    · rw [if_neg hf]
      have hst := f4 (start + 1) (by omega) (by omega)
      obtain ⟨l, e, a1, a2, a3, a4⟩ := scanDown_ok V (cmp := cmp) hv (by omega : start < n)
        (first := start + 1) hst (start + size) (by omega) (by omega)
      obtain ⟨c2, he⟩ := of_erase ((scanDownC_erase A cmp s start (start + size)).trans e)
      have := scanDownC_cost he
      refine ⟨l, c2, he, by omega, a2, ?_, fun _ => a3, a4⟩
      rcases Nat.lt_or_ge (l + 1) f with h | h
      · have := f4 (l + 1) (by omega) h
        rw [a4 (l + 1) (by omega) (by omega)] at this; simp at this
      · exact h
  unfold partitionRightC at h
  have h : ∃ r' c3, partLoopC A cmp start size size s f l = .ok (r', c3) ∧ c = c1 + c2 + c3 := by
    by_cases hf : f - 1 = start
    · rw [if_pos hf] at el
      simp only [hf', R.ok_bind, if_pos hf, el, R.bind_eq_ok, R.pure_eq, Except.ok.injEq,
        Prod.mk.injEq] at h
      obtain ⟨⟨⟨a, b⟩, c3⟩, h1, t, -, -, h2⟩ := h
      exact ⟨(a, b), c3, h1, h2.symm⟩
    · rw [if_neg hf] at el
      simp only [hf', R.ok_bind, if_neg hf, el, R.bind_eq_ok, R.pure_eq, Except.ok.injEq,
        Prod.mk.injEq] at h
      obtain ⟨⟨⟨a, b⟩, c3⟩, h1, t, -, -, h2⟩ := h
      exact ⟨(a, b), c3, h1, h2.symm⟩
  obtain ⟨r', c3, h1, h2⟩ := h
  have := partLoopC_cost V (cmp := cmp) hn size hv (first := f)
    (last := l) f1 (by omega) l1 l2 f4 f3 l3 l4 h1
  omega

theorem cost_step (l r a : Nat) (ha : l + r + 1 = a) :
    (l * l + 13 * l) + (r * r + 13 * r) + 12 + (a + 1) ≤ a * a + 13 * a := by
  subst ha
  have : (l + r + 1) * (l + r + 1) = l * l + r * r + 2 * (l * r) + 2 * l + 2 * r + 1 := by ring
  rw [this]
  omega

/-- At most `size² + 13 size` comparisons. -/
theorem sortExC_cost (V : View A n Valid view) (W : StrictWeak cmp) {select : Nat → Nat → R Bool}
    (hsel : ∀ st sz, st + sz ≤ n → ∃ b, select st sz = .ok b) (fuel : Nat)
    {start size : Nat} (hn : start + size ≤ n) (hfuel : size < fuel) {s : σ} (hv : Valid s) :
    ∃ s' c, sortExC A cmp select fuel s start size = .ok (s', c) ∧
      Steps A start (start + size) s s' ∧ c ≤ size * size + 13 * size := by
  induction fuel generalizing start size s with
  | zero => omega
  | succ fuel ih =>
    simp only [sortExC]
    by_cases hsmall : size ≤ 16
    · rw [if_pos hsmall]
      obtain ⟨s1, e1, r1, h1⟩ := smallSort_ok V W hn hv
      obtain ⟨c, h⟩ := of_erase ((smallSortC_erase ..).trans e1)
      have := smallSortC_cost h
      exact ⟨s1, c, h, r1, by omega⟩
    · rw [if_neg hsmall]
      obtain ⟨s1, g, e1, r1, g1, g2, g3⟩ := choosePivot_ok V W hn (by omega) hv
      have v1 := (r1.facts V hn hv).1
      obtain ⟨c1, h1⟩ := of_erase ((choosePivotC_erase ..).trans e1)
      have k1 := choosePivotC_cost h1
      obtain ⟨s2, pp, e2, r2, p1, p2, -, -⟩ := partitionRight_ok V (cmp := cmp) hn v1 g1 g2 g3
      have v2 := (r2.facts V hn v1).1
      obtain ⟨c2, h2⟩ := of_erase ((partitionRightC_erase ..).trans e2)
      have k2 := partitionRightC_cost V (cmp := cmp) hn v1 g1 g2 g3 h2
      obtain ⟨bL, hbL⟩ := hsel start (pp - start) (by omega)
      obtain ⟨bR, hbR⟩ := hsel (pp + 1) (start + size - (pp + 1)) (by omega)
      obtain ⟨s3, c3, h3, r3, k3⟩ : ∃ s3 c3, (if bL then sortExC A cmp select fuel s2 start
            (pp - start) else pure (s2, 0)) = .ok (s3, c3) ∧ Steps A start (start + size) s2 s3 ∧
          c3 ≤ (pp - start) * (pp - start) + 13 * (pp - start) := by
        cases bL with
        | true =>
          obtain ⟨s3, c, e, r, k⟩ := ih (start := start) (size := pp - start) (by omega) (by omega) v2
          exact ⟨s3, c, by simpa using e, r.mono (by omega) (by omega), k⟩
        | false => exact ⟨s2, 0, by simp, .refl _, by omega⟩
      have v3 := (r3.facts V (by omega) v2).1
      obtain ⟨s4, c4, h4, r4, k4⟩ : ∃ s4 c4, (if bR then sortExC A cmp select fuel s3 (pp + 1)
            (start + size - (pp + 1)) else pure (s3, 0)) = .ok (s4, c4) ∧
          Steps A start (start + size) s3 s4 ∧
          c4 ≤ (start + size - (pp + 1)) * (start + size - (pp + 1)) +
            13 * (start + size - (pp + 1)) := by
        cases bR with
        | true =>
          obtain ⟨s4, c, e, r, k⟩ := ih (start := pp + 1) (size := start + size - (pp + 1)) (by omega)
            (by omega) v3
          exact ⟨s4, c, by simpa using e, r.mono (by omega) (by omega), k⟩
        | false => exact ⟨s3, 0, by simp, .refl _, by omega⟩
      refine ⟨s4, c1 + c2 + c3 + c4, ?_, r1.trans (r2.trans (r3.trans r4)), ?_⟩
      · simp only [h1, h2, R.ok_bind, hbL, hbR]
        cases bL with
        | true =>
          simp only [if_true] at h3 ⊢
          rw [h3]
          simp only [R.ok_bind]
          cases bR with
          | true =>
            simp only [if_true] at h4 ⊢
            rw [h4]; rfl
          | false =>
            simp only [Bool.false_eq_true, if_false, R.pure_eq, Except.ok.injEq, Prod.mk.injEq] at h4 ⊢
            obtain ⟨rfl, rfl⟩ := h4
            first | rfl | exact ⟨rfl, rfl⟩
        | false =>
          simp only [Bool.false_eq_true, if_false, R.pure_eq, Except.ok.injEq, Prod.mk.injEq] at h3 ⊢
          obtain ⟨rfl, rfl⟩ := h3
          simp only [R.ok_bind]
          cases bR with
          | true =>
            simp only [if_true] at h4 ⊢
            rw [h4]; rfl
          | false =>
            simp only [Bool.false_eq_true, if_false, R.pure_eq, Except.ok.injEq, Prod.mk.injEq] at h4 ⊢
            obtain ⟨rfl, rfl⟩ := h4
            first | rfl | exact ⟨rfl, rfl⟩
      · have := cost_step (pp - start) (start + size - (pp + 1)) size (by omega)
        omega

/-! ### partition and is_sorted -/

theorem scanLeftC_cost {A : Acc σ Bool} {s : σ} {first m f c : Nat}
    (h : scanLeftC A s first m = .ok (f, c)) :
    first ≤ f ∧ f ≤ first + m ∧ c ≤ f - first + 1 ∧ (f = first + m → c = m) := by
  induction m generalizing first c with
  | zero =>
    simp only [scanLeftC, Except.ok.injEq, Prod.mk.injEq] at h
    omega
  | succ m ih =>
    simp only [scanLeftC, R.bind_eq_ok] at h
    obtain ⟨a, -, h⟩ := h
    split at h
    · simp only [R.bind_eq_ok, R.pure_eq, Except.ok.injEq, Prod.mk.injEq] at h
      obtain ⟨⟨t', c'⟩, h2, h3, h4⟩ := h
      simp only at h3 h4
      subst h3
      have := ih h2
      omega
    · simp only [R.pure_eq, Except.ok.injEq, Prod.mk.injEq] at h
      omega

theorem scanRightC_cost {A : Acc σ Bool} {s : σ} {start l f c : Nat}
    (h : scanRightC A s start l = .ok (f, c)) : f ≤ l ∧ c ≤ l - f + 1 := by
  induction l generalizing c with
  | zero =>
    simp only [scanRightC, Except.ok.injEq, Prod.mk.injEq] at h
    omega
  | succ m ih =>
    simp only [scanRightC] at h
    split at h
    · simp only [R.bind_eq_ok] at h
      obtain ⟨a, -, h⟩ := h
      split at h
      · simp only [R.bind_eq_ok, R.pure_eq, Except.ok.injEq, Prod.mk.injEq] at h
        obtain ⟨⟨t', c'⟩, h2, h3, h4⟩ := h
        simp only at h3 h4
        subst h3
        have := ih h2
        omega
      · simp only [R.pure_eq, Except.ok.injEq, Prod.mk.injEq] at h
        omega
    · simp only [Except.ok.injEq, Prod.mk.injEq] at h
      omega

theorem partitionLoopC_cost {A : Acc σ Bool} {view : σ → Nat → Bool} (V : View A n Valid view)
    (fuel : Nat) {s : σ} (hv : Valid s)
    {first last : Nat} (hf : first ≤ n) (hl : last < n) (hfl : first ≤ last + 1)
    (hfuel : last + 1 - first < fuel)
    (h1 : ∀ k, k < first → view s k = false) (h2 : ∀ k, last < k → k < n → view s k = true) :
    ∃ s' p c, partitionLoopC A 0 n fuel s first last = .ok ((s', p), c) ∧
      c ≤ last + 1 - first + 2 := by
  induction fuel generalizing s first last with
  | zero => omega
  | succ fuel ih =>
    unfold partitionLoopC
    obtain ⟨f, ef, f1, f2, f3, f4⟩ := scanLeft_ok V hv (n - first) first (by omega)
    obtain ⟨l, el, l1, l2, l3, l4⟩ := scanRight_ok V hv 0 last (by omega)
    obtain ⟨c1, ef⟩ := of_erase ((scanLeftC_erase ..).trans ef)
    obtain ⟨c2, el⟩ := of_erase ((scanRightC_erase ..).trans el)
    have k1 := scanLeftC_cost ef
    have k2 := scanRightC_cost el
    simp only [ef, el, R.ok_bind]
    have hF : ∀ k, k < f → view s k = false := by
      intro k hk
      rcases Nat.lt_or_ge k first with h | h
      · exact h1 k h
      · exact f3 k h hk
    have hL : ∀ k, l < k → k < n → view s k = true := by
      intro k a b
      rcases Nat.lt_or_ge last k with h | h
      · exact h2 k h b
      · exact l3 k a h
    have hlf : f ≤ l + 1 := by
      rcases Nat.lt_or_ge (l + 1) f with h | h
      · have a := hF (l + 1) h
        rw [hL (l + 1) (by omega) (by omega)] at a
        simp at a
      · exact h
    by_cases hge : f ≥ l
    · rw [if_pos hge]
      exact ⟨s, f, c1 + c2, rfl, by omega⟩
    · rw [if_neg hge]
      obtain ⟨t, e, hv1, hview⟩ := V.swap_ok s f l hv (by omega) (by omega)
      have tf : view t f = false := by rw [hview]; simp only [swapF, if_true]; exact l4 (by omega)
      have tl : view t l = true := by
        rw [hview]; simp only [swapF]; rw [if_neg (by omega)]; simp only [if_true]; exact f4 (by omega)
      have tother : ∀ k, k ≠ f → k ≠ l → view t k = view s k := by
        intro k a b; rw [hview]; simp [swapF, a, b]
      obtain ⟨s', p, c, e', k'⟩ := ih hv1 (first := f + 1) (last := l - 1) (by omega) (by omega)
        (by omega) (by omega)
        (by
          intro k hk
          by_cases h : k = f
          · subst h; exact tf
          · rw [tother k h (by omega)]; exact hF k (by omega))
        (by
          intro k a b
          by_cases h : k = l
          · subst h; exact tl
          · rw [tother k (by omega) h]; exact hL k (by omega) b)
      exact ⟨s', p, c1 + c2 + c, by simp [e, e'], by omega⟩

theorem isSortedLoopC_cost {α : Type} {key : α → κ} {l : List α} {i m : Nat} {b : Bool} {c : Nat}
    (h : isSortedLoopC key cmp l i m = .ok (b, c)) : c ≤ m := by
  induction m generalizing i c b with
  | zero =>
    simp only [isSortedLoopC, Except.ok.injEq, Prod.mk.injEq] at h
    omega
  | succ m ih =>
    simp only [isSortedLoopC, R.bind_eq_ok] at h
    obtain ⟨x, -, y, -, h⟩ := h
    split at h
    · simp only [R.pure_eq, Except.ok.injEq, Prod.mk.injEq] at h
      omega
    · simp only [R.bind_eq_ok, R.pure_eq, Except.ok.injEq, Prod.mk.injEq] at h
      obtain ⟨⟨t', c'⟩, h2, h3, h4⟩ := h
      have := ih h2
      simp only at h4
      omega

end Verif.Sort
