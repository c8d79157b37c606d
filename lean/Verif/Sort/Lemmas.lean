import Verif.Sort.Model
import Verif.Sort.Spec

/-! Helper lemmas for sorting: correctness of `sortEx` over an abstract random access range. -/
namespace Verif.Sort

variable {σ κ : Type _}

theorem StrictWeak.asymm {lt : κ → κ → Bool} (W : StrictWeak lt) {a b : κ} (h : lt a b = true) :
    lt b a = false := by
  cases hb : lt b a with
  | false => rfl
  | true => have := W.trans a b a h hb; rw [W.irrefl] at this; simp at this

theorem StrictWeak.ge_trans {lt : κ → κ → Bool} (W : StrictWeak lt) {a b c : κ}
    (h1 : lt b a = false) (h2 : lt c b = false) : lt c a = false := by
  cases h : lt c a with
  | false => rfl
  | true => rcases W.weak c b a h with h | h <;> simp_all

/-- Exchange of two positions of a function. -/
def swapF (f : Nat → κ) (i j : Nat) : Nat → κ :=
  fun k => if k = i then f j else if k = j then f i else f k

/-- `view s` shows the `n` elements of the range in state `s`. -/
structure View (A : Acc σ κ) (n : Nat) (Valid : σ → Prop) (view : σ → Nat → κ) : Prop where
  get_ok : ∀ s i, Valid s → i < n → A.get s i = .ok (view s i)
  swap_ok : ∀ s i j, Valid s → i < n → j < n →
    ∃ s', A.swap s i j = .ok s' ∧ Valid s' ∧ view s' = swapF (view s) i j

/-- `s'` results from `s` by exchanges of positions in `lo .. hi-1`. -/
inductive Steps (A : Acc σ κ) (lo hi : Nat) : σ → σ → Prop
  | refl (s : σ) : Steps A lo hi s s
  | step {s s1 s2 : σ} (i j : Nat) (hi1 : lo ≤ i) (hi2 : i < hi) (hj1 : lo ≤ j) (hj2 : j < hi)
      (h : A.swap s i j = .ok s1) (r : Steps A lo hi s1 s2) : Steps A lo hi s s2

variable {A : Acc σ κ} {n : Nat} {Valid : σ → Prop} {view : σ → Nat → κ}

theorem Steps.trans {lo hi : Nat} {a b c : σ} (h1 : Steps A lo hi a b) (h2 : Steps A lo hi b c) :
    Steps A lo hi a c := by
  induction h1 with
  | refl s => exact h2
  | step i j h1 h2' h3 h4 h r ih => exact .step i j h1 h2' h3 h4 h (ih h2)

theorem Steps.mono {lo hi lo' hi' : Nat} {a b : σ} (h : Steps A lo hi a b) (h1 : lo' ≤ lo)
    (h2 : hi ≤ hi') : Steps A lo' hi' a b := by
  induction h with
  | refl s => exact .refl s
  | step i j a1 a2 a3 a4 h r ih => exact .step i j (by omega) (by omega) (by omega) (by omega) h ih

theorem Steps.one {lo hi i j : Nat} {s s' : σ} (h : A.swap s i j = .ok s') (h1 : lo ≤ i) (h2 : i < hi)
    (h3 : lo ≤ j) (h4 : j < hi) : Steps A lo hi s s' := .step i j h1 h2 h3 h4 h (.refl _)

/-- What exchanges inside `lo .. hi-1` preserve. -/
theorem Steps.facts (V : View A n Valid view) {lo hi : Nat} (hn : hi ≤ n) {s s' : σ}
    (h : Steps A lo hi s s') (hv : Valid s) :
    Valid s' ∧ (∀ k, k < lo ∨ hi ≤ k → view s' k = view s k) ∧
    (∀ P : κ → Prop, (∀ k, lo ≤ k → k < hi → P (view s k)) →
      ∀ k, lo ≤ k → k < hi → P (view s' k)) := by
  induction h with
  | refl s => exact ⟨hv, fun _ _ => rfl, fun P h => h⟩
  | @step s s1 s2 i j h1 h2 h3 h4 h r ih =>
    obtain ⟨t, e, hv1, hview⟩ := V.swap_ok s i j hv (by omega) (by omega)
    rw [e] at h; simp only [Except.ok.injEq] at h; subst h
    obtain ⟨a, b, c⟩ := ih hv1
    refine ⟨a, ?_, ?_⟩
    · intro k hk
      rw [b k hk, hview]
      simp only [swapF]
      rw [if_neg (by omega), if_neg (by omega)]
    · intro P hP
      apply c P
      intro k hk1 hk2
      rw [hview]; simp only [swapF]
      split
      · exact hP j h3 h4
      · split
        · exact hP i h1 h2
        · exact hP k hk1 hk2

/-! ### sort2, sort3 -/

variable {cmp : κ → κ → Bool}

theorem sort2_ok (V : View A n Valid view) (W : StrictWeak cmp) {lo hi : Nat} (hn : hi ≤ n) {s : σ}
    (hv : Valid s) {ia ib : Nat} (ha1 : lo ≤ ia) (ha2 : ia < hi) (hb1 : lo ≤ ib) (hb2 : ib < hi)
    (hne : ia ≠ ib) :
    ∃ s', sort2 A cmp s ia ib = .ok s' ∧ Steps A lo hi s s' ∧
      cmp (view s' ib) (view s' ia) = false ∧ (∀ k, k ≠ ia → k ≠ ib → view s' k = view s k) ∧
      ((view s' ia = view s ia ∧ view s' ib = view s ib) ∨
       (view s' ia = view s ib ∧ view s' ib = view s ia)) := by
  unfold sort2
  rw [V.get_ok s ia hv (by omega), V.get_ok s ib hv (by omega)]
  simp only [R.ok_bind]
  cases hc : cmp (view s ib) (view s ia) with
  | false => exact ⟨s, by simp, .refl s, hc, fun _ _ _ => rfl, .inl ⟨rfl, rfl⟩⟩
  | true =>
    obtain ⟨t, e, hv1, hview⟩ := V.swap_ok s ia ib hv (by omega) (by omega)
    have h1 : view t ia = view s ib := by rw [hview]; simp [swapF]
    have h2 : view t ib = view s ia := by
      rw [hview]; simp only [swapF]; rw [if_neg (Ne.symm hne)]; simp
    refine ⟨t, by simp [e], .one e ha1 ha2 hb1 hb2, ?_, ?_, .inr ⟨h1, h2⟩⟩
    · rw [h1, h2]; exact W.asymm hc
    · intro k hk1 hk2; rw [hview]; simp [swapF, hk1, hk2]

theorem sort3_ok (V : View A n Valid view) (W : StrictWeak cmp) {lo hi : Nat} (hn : hi ≤ n) {s : σ}
    (hv : Valid s) {ia ib ic : Nat} (ha1 : lo ≤ ia) (ha2 : ia < hi) (hb1 : lo ≤ ib) (hb2 : ib < hi)
    (hc1 : lo ≤ ic) (hc2 : ic < hi) (hab : ia ≠ ib) (hbc : ib ≠ ic) (hac : ia ≠ ic) :
    ∃ s', sort3 A cmp s ia ib ic = .ok s' ∧ Steps A lo hi s s' ∧
      cmp (view s' ib) (view s' ia) = false ∧ cmp (view s' ic) (view s' ib) = false := by
  obtain ⟨s1, e1, r1, c1, o1, -⟩ := sort2_ok V W hn hv ha1 ha2 hb1 hb2 hab
  obtain ⟨hv1, -⟩ := r1.facts V hn hv
  obtain ⟨s2, e2, r2, c2, o2, x2⟩ := sort2_ok V W hn hv1 hb1 hb2 hc1 hc2 hbc
  obtain ⟨hv2, -⟩ := r2.facts V hn hv1
  obtain ⟨s3, e3, r3, c3, o3, x3⟩ := sort2_ok V W hn hv2 ha1 ha2 hb1 hb2 hab
  refine ⟨s3, by simp [sort3, e1, e2, e3], r1.trans (r2.trans r3), c3, ?_⟩
  have ha : view s2 ia = view s1 ia := o2 ia hab hac
  have hc : view s3 ic = view s2 ic := o3 ic (Ne.symm hac) (Ne.symm hbc)
  rw [hc]
  rcases x3 with ⟨-, h⟩ | ⟨-, h⟩
  · rw [h]; exact c2
  · rw [h, ha]
    -- s3[ib] = s1[ia], which is not greater than s1[ib] and so not greater than s2[ic]
    rcases x2 with ⟨hb', hc'⟩ | ⟨hb', hc'⟩
    · rw [hc']; rw [hb', hc'] at c2; exact W.ge_trans c1 c2
    · rw [hc']; exact c1

/-! ### insertion sort -/

/-- Positions `lo .. hi-1` of `f` are sorted. -/
def SortedF (cmp : κ → κ → Bool) (f : Nat → κ) (lo hi : Nat) : Prop :=
  ∀ a b, lo ≤ a → a < b → b < hi → cmp (f b) (f a) = false

theorem insertDown_ok (V : View A n Valid view) (W : StrictWeak cmp) {start i : Nat} (hi : i < n)
    (j : Nat) {s : σ} (hv : Valid s) (hj : j ≤ i) (hs : start ≤ j)
    (inv : ∀ a b, start ≤ a → a < b → b ≤ i → b ≠ j → cmp (view s b) (view s a) = false) :
    ∃ s', insertDown A cmp start s j = .ok s' ∧ Steps A start (i + 1) s s' ∧
      SortedF cmp (view s') start (i + 1) := by
  induction j generalizing s with
  | zero =>
    refine ⟨s, rfl, .refl s, ?_⟩
    intro a b h1 h2 h3
    exact inv a b h1 h2 (by omega) (by omega)
  | succ j ih =>
    unfold insertDown
    by_cases hgt : j + 1 > start
    · rw [if_pos hgt, V.get_ok s j hv (by omega), V.get_ok s (j + 1) hv (by omega)]
      simp only [R.ok_bind]
      cases hc : cmp (view s j) (view s (j + 1)) with
      | true =>
        refine ⟨s, by simp, .refl s, ?_⟩
        intro a b h1 h2 h3
        by_cases hb : b = j + 1
        · subst hb
          rcases Nat.lt_or_ge a j with ha | ha
          · have h4 := inv a j h1 ha (by omega) (by omega)
            exact W.ge_trans h4 (W.asymm hc)
          · have : a = j := by omega
            subst this
            exact W.asymm hc
        · exact inv a b h1 h2 (by omega) hb
      | false =>
        obtain ⟨t, e, hv1, hview⟩ := V.swap_ok s j (j + 1) hv (by omega) (by omega)
        have hj0 : view t j = view s (j + 1) := by rw [hview]; simp [swapF]
        have hj1 : view t (j + 1) = view s j := by rw [hview]; simp [swapF]
        have ho : ∀ k, k ≠ j → k ≠ j + 1 → view t k = view s k := by
          intro k h1 h2; rw [hview]; simp [swapF, h1, h2]
        obtain ⟨s', e', r, hsort⟩ := ih (s := t) hv1 (by omega) (by omega) (by
          intro a b h1 h2 h3 h4
          by_cases hb : b = j + 1
          · subst hb
            rw [hj1]
            by_cases ha : a = j
            · subst ha; rw [hj0]; exact hc
            · rw [ho a ha (by omega)]
              exact inv a j h1 (by omega) (by omega) (by omega)
          · rw [ho b h4 hb]
            by_cases ha : a = j
            · subst ha; rw [hj0]; exact inv (a + 1) b (by omega) (by omega) h3 hb
            · by_cases ha1 : a = j + 1
              · subst ha1; rw [hj1]; exact inv j b (by omega) (by omega) h3 hb
              · rw [ho a ha ha1]; exact inv a b h1 h2 h3 hb)
        exact ⟨s', by simp [e, e'], .step j (j + 1) (by omega) (by omega) (by omega) (by omega) e r, hsort⟩
    · rw [if_neg hgt]
      refine ⟨s, rfl, .refl s, ?_⟩
      intro a b h1 h2 h3
      exact inv a b h1 h2 (by omega) (by omega)

theorem insertLoop_ok (V : View A n Valid view) (W : StrictWeak cmp) {start : Nat} (m i : Nat)
    (hn : i + m ≤ n) (hi : start < i) {s : σ} (hv : Valid s) (hs : SortedF cmp (view s) start i) :
    ∃ s', insertLoop A cmp start s i m = .ok s' ∧ Steps A start (i + m) s s' ∧
      SortedF cmp (view s') start (i + m) := by
  induction m generalizing i s with
  | zero => exact ⟨s, rfl, .refl s, hs⟩
  | succ m ih =>
    obtain ⟨s1, e1, r1, h1⟩ := insertDown_ok V W (i := i) (by omega) i hv (by omega) (by omega)
      (start := start) (by intro a b h1 h2 h3 h4; exact hs a b h1 h2 (by omega))
    obtain ⟨hv1, -⟩ := r1.facts V (by omega) hv
    obtain ⟨s2, e2, r2, h2⟩ := ih (i + 1) (by omega) (by omega) hv1 h1
    refine ⟨s2, by simp [insertLoop, e1, e2], ?_, ?_⟩
    · exact (r1.mono (by omega) (by omega)).trans (r2.mono (by omega) (by omega))
    · have : i + 1 + m = i + (m + 1) := by omega
      rw [← this]; exact h2

theorem smallSort_ok (V : View A n Valid view) (W : StrictWeak cmp) {start size : Nat}
    (hn : start + size ≤ n) {s : σ} (hv : Valid s) :
    ∃ s', smallSort A cmp s start size = .ok s' ∧ Steps A start (start + size) s s' ∧
      SortedF cmp (view s') start (start + size) := by
  unfold smallSort
  split
  · exact ⟨s, rfl, .refl s, by intro a b h1 h2 h3; omega⟩
  · split
    · rename_i h1 h2
      subst h2
      obtain ⟨s1, e1, r1, c1, -⟩ := sort2_ok V W (lo := start) (hi := start + 2) hn hv
        (ia := start) (ib := start + 1) (by omega) (by omega) (by omega) (by omega) (by omega)
      refine ⟨s1, e1, r1, ?_⟩
      intro a b h1 h2 h3
      have ha : a = start := by omega
      have hb : b = start + 1 := by omega
      subst ha; subst hb; exact c1
    · split
      · rename_i h1 h2 h3
        subst h3
        obtain ⟨s1, e1, r1, c1, c2⟩ := sort3_ok V W (lo := start) (hi := start + 3) hn hv
          (ia := start) (ib := start + 1) (ic := start + 2) (by omega) (by omega) (by omega)
          (by omega) (by omega) (by omega) (by omega) (by omega) (by omega)
        refine ⟨s1, e1, r1, ?_⟩
        intro a b h1 h2 h3
        rcases (by omega : (a = start ∧ b = start + 1) ∨ (a = start ∧ b = start + 2) ∨
          (a = start + 1 ∧ b = start + 2)) with ⟨rfl, rfl⟩ | ⟨rfl, rfl⟩ | ⟨rfl, rfl⟩
        · exact c1
        · exact W.ge_trans c1 c2
        · exact c2
      · obtain ⟨s1, e1, r1, h1⟩ := insertLoop_ok V W (start := start) (size - 1) (start + 1)
          (by omega) (by omega) hv (by intro a b h1 h2 h3; omega)
        have : start + 1 + (size - 1) = start + size := by omega
        rw [this] at r1 h1
        exact ⟨s1, e1, r1, h1⟩

/-! ### partition_right -/

theorem scanUp_ok (V : View A n Valid view) {start last : Nat} (hl : last < n) {s : σ}
    (hv : Valid s) (hs : start < n)
    (hstop : cmp (view s last) (view s start) = false) (fuel first : Nat) (hf : first < last)
    (hfuel : last - first ≤ fuel) :
    ∃ f, scanUp A cmp s start fuel first = .ok f ∧ first < f ∧ f ≤ last ∧
      cmp (view s f) (view s start) = false ∧
      ∀ k, first < k → k < f → cmp (view s k) (view s start) = true := by
  induction fuel generalizing first with
  | zero => omega
  | succ fuel ih =>
    unfold scanUp
    rw [V.get_ok s (first + 1) hv (by omega), V.get_ok s start hv hs]
    simp only [R.ok_bind]
    cases hc : cmp (view s (first + 1)) (view s start) with
    | false => exact ⟨first + 1, by simp, by omega, by omega, hc, fun k h1 h2 => by omega⟩
    | true =>
      have hne : first + 1 ≠ last := by intro h; rw [h, hstop] at hc; simp at hc
      obtain ⟨f, e, h1, h2, h3, h4⟩ := ih (first + 1) (by omega) (by omega)
      refine ⟨f, by simp [e], by omega, h2, h3, fun k hk1 hk2 => ?_⟩
      by_cases hk : k = first + 1
      · subst hk; exact hc
      · exact h4 k (by omega) hk2

theorem scanDown_ok (V : View A n Valid view) {start first : Nat} {s : σ} (hv : Valid s)
    (hs : start < n) (hstop : cmp (view s first) (view s start) = true) (last : Nat)
    (hf : first < last) (hl : last ≤ n) :
    ∃ l, scanDown A cmp s start last = .ok l ∧ first ≤ l ∧ l < last ∧
      cmp (view s l) (view s start) = true ∧
      ∀ k, l < k → k < last → cmp (view s k) (view s start) = false := by
  induction last with
  | zero => omega
  | succ last ih =>
    unfold scanDown
    rw [V.get_ok s last hv (by omega), V.get_ok s start hv hs]
    simp only [R.ok_bind]
    cases hc : cmp (view s last) (view s start) with
    | true => exact ⟨last, by simp, by omega, by omega, hc, fun k h1 h2 => by omega⟩
    | false =>
      have hne : first ≠ last := by intro h; rw [← h, hstop] at hc; simp at hc
      obtain ⟨l, e, h1, h2, h3, h4⟩ := ih (by omega) (by omega)
      refine ⟨l, by simp [e], h1, by omega, h3, fun k hk1 hk2 => ?_⟩
      by_cases hk : k = last
      · subst hk; exact hc
      · exact h4 k hk1 (by omega)

theorem scanDownGuarded_ok (V : View A n Valid view) {start first : Nat} {s : σ} (hv : Valid s)
    (hs : start < n) (last : Nat) (hf : first ≤ last) (hl : last ≤ n) :
    ∃ l, scanDownGuarded A cmp s start first last = .ok l ∧ first ≤ l ∧ l ≤ last ∧
      (first < l → l < last ∧ cmp (view s l) (view s start) = true) ∧
      (∀ k, l < k → k < last → cmp (view s k) (view s start) = false) := by
  induction last with
  | zero => exact ⟨0, rfl, hf, by omega, fun h => by omega, fun k h1 h2 => by omega⟩
  | succ last ih =>
    unfold scanDownGuarded
    by_cases hlt : first < last + 1
    · rw [if_pos hlt, V.get_ok s last hv (by omega), V.get_ok s start hv hs]
      simp only [R.ok_bind]
      cases hc : cmp (view s last) (view s start) with
      | true => exact ⟨last, by simp, by omega, by omega, fun _ => ⟨by omega, hc⟩, fun k h1 h2 => by omega⟩
      | false =>
        obtain ⟨l, e, h1, h2, h3, h4⟩ := ih (by omega) (by omega)
        refine ⟨l, by simp [e], h1, by omega, fun h => ⟨by omega, (h3 h).2⟩, fun k hk1 hk2 => ?_⟩
        by_cases hk : k = last
        · subst hk; exact hc
        · exact h4 k hk1 (by omega)
    · rw [if_neg hlt]
      exact ⟨last + 1, rfl, hf, by omega, fun h => by omega, fun k h1 h2 => by omega⟩

/-- The partition postcondition around the boundary `f`. -/
def Parted (cmp : κ → κ → Bool) (v : Nat → κ) (p : κ) (start f end_ : Nat) : Prop :=
  (∀ k, start < k → k < f → cmp (v k) p = true) ∧
  (∀ k, f ≤ k → k < end_ → cmp (v k) p = false)

theorem partLoop_ok (V : View A n Valid view) {start size : Nat}
    (hn : start + size ≤ n) (fuel : Nat) {s : σ} (hv : Valid s) {first last : Nat}
    (h1 : start < first) (h2 : first < start + size) (h3 : last < start + size) (h4 : first ≤ last + 1)
    (hfuel : last - first ≤ fuel)
    (hlo : ∀ k, start < k → k < first → cmp (view s k) (view s start) = true)
    (hfirst : cmp (view s first) (view s start) = false)
    (hlast : first < last → cmp (view s last) (view s start) = true)
    (hhi : ∀ k, last < k → k < start + size → cmp (view s k) (view s start) = false) :
    ∃ s' f, partLoop A cmp start size fuel s first last = .ok (s', f) ∧
      Steps A (start + 1) (start + size) s s' ∧ start < f ∧ f ≤ start + size ∧
      Parted cmp (view s') (view s start) start f (start + size) := by
  induction fuel generalizing s first last with
  | zero =>
    unfold partLoop
    rw [if_neg (by omega)]
    refine ⟨s, first, rfl, .refl s, h1, by omega, hlo, fun k hk1 hk2 => ?_⟩
    by_cases hk : k = first
    · subst hk; exact hfirst
    · exact hhi k (by omega) hk2
  | succ fuel ih =>
    unfold partLoop
    by_cases hlt : first < last
    · rw [if_pos hlt]
      obtain ⟨t, e, hv1, hview⟩ := V.swap_ok s first last hv (by omega) (by omega)
      have hp : view t start = view s start := by
        rw [hview]; simp only [swapF]; rw [if_neg (by omega), if_neg (by omega)]
      have hvf : view t first = view s last := by rw [hview]; simp [swapF]
      have hvl : view t last = view s first := by
        rw [hview]; simp only [swapF]; rw [if_neg (by omega)]; simp
      have hvo : ∀ k, k ≠ first → k ≠ last → view t k = view s k := by
        intro k a b; rw [hview]; simp [swapF, a, b]
      obtain ⟨f, ef, f1, f2, f3, f4⟩ := scanUp_ok V (cmp := cmp) (start := start) (last := last)
        (by omega) hv1 (by omega) (by rw [hvl, hp]; exact hfirst) size first hlt (by omega)
      obtain ⟨l, el, l1, l2, l3, l4⟩ := scanDown_ok V (cmp := cmp) (start := start) (first := first)
        hv1 (by omega) (by rw [hvf, hp]; exact hlast hlt) last hlt (by omega)
      have hfl : f ≤ l + 1 := by
        rcases Nat.lt_or_ge (l + 1) f with h | h
        · have := f4 (l + 1) (by omega) h
          rcases Nat.lt_or_ge (l + 1) last with h' | h'
          · rw [l4 (l + 1) (by omega) h'] at this; simp at this
          · omega
        · exact h
      obtain ⟨s', g, e', r, g1, g2, g3⟩ := ih hv1 (first := f) (last := l) (by omega) (by omega)
        (by omega) hfl (by omega)
        (by
          intro k hk1 hk2
          rcases Nat.lt_trichotomy k first with h | h | h
          · rw [hvo k (by omega) (by omega), hp]; exact hlo k hk1 h
          · subst h; rw [hvf, hp]; exact hlast hlt
          · exact f4 k h hk2)
        f3
        (fun _ => l3)
        (by
          intro k hk1 hk2
          rcases Nat.lt_trichotomy k last with h | h | h
          · exact l4 k hk1 h
          · subst h; rw [hvl, hp]; exact hfirst
          · rw [hvo k (by omega) (by omega), hp]; exact hhi k h hk2)
      rw [hp] at g3
      exact ⟨s', g, by simp [e, ef, el, e'],
        .step first last (by omega) (by omega) (by omega) (by omega) e r, g1, g2, g3⟩
    · rw [if_neg hlt]
      refine ⟨s, first, rfl, .refl s, h1, by omega, hlo, fun k hk1 hk2 => ?_⟩
      by_cases hk : k = first
      · subst hk; exact hfirst
      · exact hhi k (by omega) hk2

/-- Postcondition of `partition_right`: the pivot is at `pp`, smaller elements before it, the
others after it. -/
theorem partitionRight_ok (V : View A n Valid view) {start size : Nat}
    (hn : start + size ≤ n) {s : σ} (hv : Valid s) {g : Nat} (hg1 : start < g)
    (hg2 : g < start + size) (hg : cmp (view s g) (view s start) = false) :
    ∃ s' pp, partitionRight A cmp s start size = .ok (s', pp) ∧ Steps A start (start + size) s s' ∧
      start ≤ pp ∧ pp < start + size ∧
      (∀ k, start ≤ k → k < pp → cmp (view s' k) (view s' pp) = true) ∧
      (∀ k, pp < k → k < start + size → cmp (view s' k) (view s' pp) = false) := by
  obtain ⟨f, ef, f1, f2, f3, f4⟩ := scanUp_ok V (cmp := cmp) (start := start) (last := g)
    (by omega) hv (by omega) hg size start hg1 (by omega)
  -- both variants of the downward scan
  obtain ⟨l, el, l1, l2, l3, l4⟩ :
      ∃ l, (if f - 1 = start then scanDownGuarded A cmp s start f (start + size)
            else scanDown A cmp s start (start + size)) = .ok l ∧
        l < start + size ∧ f ≤ l + 1 ∧
        (f < l → cmp (view s l) (view s start) = true) ∧
        (∀ k, l < k → k < start + size → cmp (view s k) (view s start) = false) := by
    by_cases hf : f - 1 = start
    · rw [if_pos hf]
      obtain ⟨l, e, a1, a2, a3, a4⟩ := scanDownGuarded_ok V (cmp := cmp) hv (by omega : start < n)
        (first := f) (start + size) (by omega) (by omega)
      refine ⟨l, e, ?_, by omega, fun h => (a3 h).2, a4⟩
      rcases Nat.lt_or_ge f l with h | h
      · exact (a3 h).1
      · omega
    · rw [if_neg hf]
      have hst := f4 (start + 1) (by omega) (by omega)
      obtain ⟨l, e, a1, a2, a3, a4⟩ := scanDown_ok V (cmp := cmp) hv (by omega : start < n)
        (first := start + 1) hst (start + size) (by omega) (by omega)
      refine ⟨l, e, a2, ?_, fun _ => a3, a4⟩
      rcases Nat.lt_or_ge (l + 1) f with h | h
      · have := f4 (l + 1) (by omega) h
        rw [a4 (l + 1) (by omega) (by omega)] at this; simp at this
      · exact h
  obtain ⟨s1, b, e1, r1, b1, b2, b3, b4⟩ := partLoop_ok V (cmp := cmp) hn size hv (first := f)
    (last := l) f1 (by omega) l1 l2 (by omega) f4 f3 l3 l4
  obtain ⟨hv1, hout, -⟩ := r1.facts V hn hv
  have hp1 : view s1 start = view s start := hout start (.inl (by omega))
  obtain ⟨s2, e2, hv2, hview⟩ := V.swap_ok s1 (b - 1) start hv1 (by omega) (by omega)
  have hpp : view s2 (b - 1) = view s start := by rw [hview]; simp [swapF, hp1]
  refine ⟨s2, b - 1, ?_, ?_, by omega, by omega, ?_, ?_⟩
  · unfold partitionRight
    by_cases hf : f - 1 = start
    · rw [if_pos hf] at el
      simp only [ef, R.ok_bind, if_pos hf, el, e1, e2, R.pure_eq]
    · rw [if_neg hf] at el
      simp only [ef, R.ok_bind, if_neg hf, el, e1, e2, R.pure_eq]
  · exact (r1.mono (by omega) (by omega)).trans (.one e2 (by omega) (by omega) (by omega) (by omega))
  · intro k hk1 hk2
    rw [hpp, hview]; simp only [swapF]
    rw [if_neg (by omega)]
    split
    · exact b3 (b - 1) (by omega) (by omega)
    · exact b3 k (by omega) (by omega)
  · intro k hk1 hk2
    rw [hpp, hview]; simp only [swapF]
    rw [if_neg (by omega), if_neg (by omega)]
    exact b4 k (by omega) hk2

theorem choosePivot_ok (V : View A n Valid view) (W : StrictWeak cmp) {start size : Nat}
    (hn : start + size ≤ n) (hsz : 16 < size) {s : σ} (hv : Valid s) :
    ∃ s' g, choosePivot A cmp s start size = .ok s' ∧ Steps A start (start + size) s s' ∧
      start < g ∧ g < start + size ∧ cmp (view s' g) (view s' start) = false := by
  unfold choosePivot
  by_cases hbig : size > 128
  · simp only [if_pos hbig]
    obtain ⟨s1, e1, r1, -⟩ := sort3_ok V W (lo := start) hn hv (ia := start)
      (ib := start + size / 2) (ic := start + size - 1) (by omega) (by omega) (by omega) (by omega)
      (by omega) (by omega) (by omega) (by omega) (by omega)
    have v1 := (r1.facts V hn hv).1
    obtain ⟨s2, e2, r2, -⟩ := sort3_ok V W (lo := start) hn v1 (ia := start + 1)
      (ib := start + (size / 2 - 1)) (ic := start + size - 2) (by omega) (by omega) (by omega)
      (by omega) (by omega) (by omega) (by omega) (by omega) (by omega)
    have v2 := (r2.facts V hn v1).1
    obtain ⟨s3, e3, r3, -⟩ := sort3_ok V W (lo := start) hn v2 (ia := start + 2)
      (ib := start + (size / 2 + 1)) (ic := start + size - 3) (by omega) (by omega) (by omega)
      (by omega) (by omega) (by omega) (by omega) (by omega) (by omega)
    have v3 := (r3.facts V hn v2).1
    obtain ⟨s4, e4, r4, c4, d4⟩ := sort3_ok V W (lo := start) hn v3 (ia := start + (size / 2 - 1))
      (ib := start + size / 2) (ic := start + (size / 2 + 1)) (by omega) (by omega) (by omega)
      (by omega) (by omega) (by omega) (by omega) (by omega) (by omega)
    have v4 := (r4.facts V hn v3).1
    obtain ⟨s5, e5, v5, hview⟩ := V.swap_ok s4 start (start + size / 2) v4 (by omega) (by omega)
    refine ⟨s5, start + (size / 2 + 1), by simp [e1, e2, e3, e4, e5], ?_, by omega, by omega, ?_⟩
    · exact r1.trans (r2.trans (r3.trans (r4.trans (.one e5 (by omega) (by omega) (by omega) (by omega)))))
    · have h1 : view s5 start = view s4 (start + size / 2) := by rw [hview]; simp [swapF]
      have h2 : view s5 (start + (size / 2 + 1)) = view s4 (start + (size / 2 + 1)) := by
        rw [hview]; simp only [swapF]; rw [if_neg (by omega), if_neg (by omega)]
      rw [h1, h2]; exact d4
  · simp only [if_neg hbig]
    obtain ⟨s1, e1, r1, c1, d1⟩ := sort3_ok V W (lo := start) hn hv (ia := start + size / 2)
      (ib := start) (ic := start + size - 1) (by omega) (by omega) (by omega) (by omega)
      (by omega) (by omega) (by omega) (by omega) (by omega)
    exact ⟨s1, start + size - 1, e1, r1, by omega, by omega, d1⟩

/-! ### the whole sort -/

/-- Position `k` of `f` is in place within `lo .. hi-1`. -/
def InPlaceF (cmp : κ → κ → Bool) (f : Nat → κ) (lo hi k : Nat) : Prop :=
  (∀ i, lo ≤ i → i < k → cmp (f k) (f i) = false) ∧ (∀ i, k < i → i < hi → cmp (f i) (f k) = false)

/-- Every subrange of `lo .. hi-1` that contains `k` is selected. -/
def Chosen (select : Nat → Nat → R Bool) (lo hi k : Nat) : Prop :=
  ∀ st sz, lo ≤ st → st + sz ≤ hi → st ≤ k → k < st + sz → select st sz = .ok true

theorem sortEx_ok (V : View A n Valid view) (W : StrictWeak cmp) {select : Nat → Nat → R Bool}
    (hsel : ∀ st sz, st + sz ≤ n → ∃ b, select st sz = .ok b) (fuel : Nat)
    {start size : Nat} (hn : start + size ≤ n) (hfuel : size < fuel) {s : σ} (hv : Valid s) :
    ∃ s', sortEx A cmp select fuel s start size = .ok s' ∧ Steps A start (start + size) s s' ∧
      ∀ k, start ≤ k → k < start + size → Chosen select start (start + size) k →
        InPlaceF cmp (view s') start (start + size) k := by
  induction fuel generalizing start size s with
  | zero => omega
  | succ fuel ih =>
    unfold sortEx
    by_cases hsmall : size ≤ 16
    · rw [if_pos hsmall]
      obtain ⟨s1, e1, r1, h1⟩ := smallSort_ok V W hn hv
      refine ⟨s1, e1, r1, fun k hk1 hk2 _ => ⟨fun i hi1 hi2 => h1 i k hi1 hi2 hk2, fun i hi1 hi2 => h1 k i hk1 hi1 hi2⟩⟩
    · rw [if_neg hsmall]
      obtain ⟨s1, g, e1, r1, g1, g2, g3⟩ := choosePivot_ok V W hn (by omega) hv
      have v1 := (r1.facts V hn hv).1
      obtain ⟨s2, pp, e2, r2, p1, p2, plo, phi⟩ := partitionRight_ok V (cmp := cmp) hn v1 g1 g2 g3
      have v2 := (r2.facts V hn v1).1
      obtain ⟨bL, hbL⟩ := hsel start (pp - start) (by omega)
      obtain ⟨bR, hbR⟩ := hsel (pp + 1) (start + size - (pp + 1)) (by omega)
      have eL : start + (pp - start) = pp := by omega
      have eR : pp + 1 + (start + size - (pp + 1)) = start + size := by omega
      -- left recursion
      obtain ⟨s3, e3, r3, h3⟩ : ∃ s3, (if bL then sortEx A cmp select fuel s2 start (pp - start)
            else pure s2) = .ok s3 ∧ Steps A start pp s2 s3 ∧
          ∀ k, start ≤ k → k < pp → Chosen select start (start + size) k →
            InPlaceF cmp (view s3) start pp k := by
        cases bL with
        | true =>
          obtain ⟨s3, e, r, h⟩ := ih (start := start) (size := pp - start) (by omega) (by omega) v2
          rw [eL] at r h
          refine ⟨s3, by simpa using e, r, fun k hk1 hk2 hc => h k hk1 hk2 ?_⟩
          intro st sz a b c d
          exact hc st sz a (by omega) c d
        | false =>
          refine ⟨s2, by simp, .refl _, fun k hk1 hk2 hc => ?_⟩
          have := hc start (pp - start) (by omega) (by omega) hk1 (by omega)
          rw [hbL] at this; simp at this
      obtain ⟨v3, o3, a3⟩ := r3.facts V (by omega) v2
      -- right recursion
      obtain ⟨s4, e4, r4, h4⟩ : ∃ s4, (if bR then sortEx A cmp select fuel s3 (pp + 1)
            (start + size - (pp + 1)) else pure s3) = .ok s4 ∧
          Steps A (pp + 1) (start + size) s3 s4 ∧
          ∀ k, pp + 1 ≤ k → k < start + size → Chosen select start (start + size) k →
            InPlaceF cmp (view s4) (pp + 1) (start + size) k := by
        cases bR with
        | true =>
          obtain ⟨s4, e, r, h⟩ := ih (start := pp + 1) (size := start + size - (pp + 1)) (by omega)
            (by omega) v3
          rw [eR] at r h
          refine ⟨s4, by simpa using e, r, fun k hk1 hk2 hc => h k hk1 hk2 ?_⟩
          intro st sz a b c d
          exact hc st sz (by omega) (by omega) c d
        | false =>
          refine ⟨s3, by simp, .refl _, fun k hk1 hk2 hc => ?_⟩
          have := hc (pp + 1) (start + size - (pp + 1)) (by omega) (by omega) hk1 (by omega)
          rw [hbR] at this; simp at this
      obtain ⟨v4, o4, a4⟩ := r4.facts V hn v3
      refine ⟨s4, ?_, ?_, ?_⟩
      · simp only [e1, e2, R.ok_bind, hbL, hbR]
        cases bL with
        | true =>
          simp only [if_true] at e3 ⊢
          rw [e3]; exact e4
        | false =>
          simp only [Bool.false_eq_true, if_false] at e3 ⊢
          rw [e3]; exact e4
      · exact r1.trans (r2.trans ((r3.mono (by omega) (by omega)).trans (r4.mono (by omega) (by omega))))
      · -- the pivot and the two sides in the final state
        have hpiv : view s4 pp = view s2 pp := by
          rw [o4 pp (.inl (by omega)), o3 pp (.inr (by omega))]
        have hL : ∀ k, start ≤ k → k < pp → cmp (view s4 k) (view s4 pp) = true := by
          intro k hk1 hk2
          rw [hpiv, o4 k (.inl (by omega))]
          exact a3 (fun x => cmp x (view s2 pp) = true) plo k hk1 hk2
        have hR : ∀ k, pp < k → k < start + size → cmp (view s4 k) (view s4 pp) = false := by
          intro k hk1 hk2
          rw [hpiv]
          refine a4 (fun x => cmp x (view s2 pp) = false) ?_ k hk1 hk2
          intro k' h1 h2
          rw [o3 k' (.inr (by omega))]
          exact phi k' (by omega) h2
        have hcross : ∀ i j, start ≤ i → i < pp → pp < j → j < start + size →
            cmp (view s4 j) (view s4 i) = false := by
          intro i j a b c d
          exact W.ge_trans (W.asymm (hL i a b)) (hR j c d)
        intro k hk1 hk2 hc
        rcases Nat.lt_trichotomy k pp with h | h | h
        · have h3k := h3 k hk1 h hc
          constructor
          · intro i hi1 hi2
            rw [o4 k (.inl (by omega)), o4 i (.inl (by omega))]
            exact h3k.1 i hi1 hi2
          · intro i hi1 hi2
            rcases Nat.lt_trichotomy i pp with hi | hi | hi
            · rw [o4 k (.inl (by omega)), o4 i (.inl (by omega))]
              exact h3k.2 i hi1 hi
            · subst hi; exact W.asymm (hL k hk1 h)
            · exact hcross k i hk1 h hi hi2
        · subst h
          exact ⟨fun i hi1 hi2 => W.asymm (hL i hi1 hi2), fun i hi1 hi2 => hR i hi1 hi2⟩
        · have h4k := h4 k h hk2 hc
          constructor
          · intro i hi1 hi2
            rcases Nat.lt_trichotomy i pp with hi | hi | hi
            · exact hcross i k hi1 hi h hk2
            · subst hi; exact hR k h hk2
            · exact h4k.1 i hi hi2
          · intro i hi1 hi2
            exact h4k.2 i hi1 hi2

end Verif.Sort
