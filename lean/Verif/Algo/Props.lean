import Verif.Algo.Model

/-! C81: the small algorithms over ranges. -/
namespace Verif.Algo

variable {α : Type}

/-- Specification: the range does not begin at `nullptr` unless it is empty. -/
def Spec.Ok (r : Rg) : Prop := r.n = 0 ∨ r.p ≠ 0

/-- Specification: an address lies in a range. -/
def Spec.In (r : Rg) (x : Nat) : Prop := r.p ≤ x ∧ x < r.p + r.n

instance (r : Rg) (x : Nat) : Decidable (Spec.In r x) := inferInstanceAs (Decidable (_ ∧ _))

theorem get_ok {c e : Nat} (h0 : c ≠ 0) (h : c < e) : get c e = .ok c := by
  unfold get
  rw [ccAssert_true (by simpa using h0), R.ok_bind, ccAssert_true (by simp [valid]; omega), R.ok_bind]

theorem advance_ok {c e : Nat} (h : c < e) : advance c e = .ok (c + 1) := by
  unfold advance
  rw [ccAssert_true (by simp [valid]; omega), R.ok_bind, if_neg (by omega)]

/-- The effect of copying element after element, for all overlaps. -/
def Spec.seqCopy (m : Memory α) (f t : Nat) : Nat → Memory α
  | 0 => m
  | n + 1 => Spec.seqCopy (write m t (m f)) (f + 1) (t + 1) n

theorem copy_loop (n : Nat) : ∀ (m : Memory α) (f fe t te : Nat), fe = f + n → t + n ≤ te → (n = 0 ∨ f ≠ 0) → (n = 0 ∨ t ≠ 0) →
    copyLoop m n f fe t te = .ok (some (Spec.seqCopy m f t n)) := by
  induction n with
  | zero =>
    intro m f fe t te h1 _ _ _
    unfold copyLoop
    rw [if_neg (by simp [valid]; omega)]
    rfl
  | succ n ih =>
    intro m f fe t te h1 h2 h3 h4
    unfold copyLoop
    rw [if_pos (by simp [valid]; omega)]
    simp only
    rw [ccAssert_true (by simp [valid]; omega), R.ok_bind, get_ok (by omega) (by omega), R.ok_bind, get_ok (by omega) (by omega), R.ok_bind,
      advance_ok (by omega), R.ok_bind, advance_ok (by omega), R.ok_bind, ih _ _ _ _ _ (by omega) (by omega) (by omega) (by omega)]
    rfl

theorem copy_short (n : Nat) : ∀ (m : Memory α) (f fe t te : Nat), fe = f + n → t ≤ te → te < t + n → f ≠ 0 → (t = te ∨ t ≠ 0) →
    copyLoop m n f fe t te = .error .assert := by
  induction n with
  | zero => intro m f fe t te h1 h2 h3 _ _; omega
  | succ n ih =>
    intro m f fe t te h1 h2 h3 h4 h5
    unfold copyLoop
    rw [if_pos (by simp [valid]; omega)]
    simp only
    by_cases h : t = te
    · rw [ccAssert_false (by simp [valid, h]), R.error_bind]
    · rw [ccAssert_true (by simp [valid]; omega), R.ok_bind, get_ok (by omega) (by omega), R.ok_bind, get_ok (by omega) (by omega), R.ok_bind,
        advance_ok (by omega), R.ok_bind, advance_ok (by omega), R.ok_bind, ih _ _ _ _ _ (by omega) (by omega) (by omega) (by omega) (by omega)]

theorem seq_apart (n : Nat) : ∀ (m : Memory α) (f t : Nat), (t ≤ f ∨ f + n ≤ t) → ∀ x,
    Spec.seqCopy m f t n x = if t ≤ x ∧ x < t + n then m (f + (x - t)) else m x := by
  induction n with
  | zero => intro m f t _ x; rw [if_neg (by omega)]; rfl
  | succ n ih =>
    intro m f t h x
    rw [Spec.seqCopy, ih _ _ _ (by omega)]
    by_cases h1 : t + 1 ≤ x ∧ x < t + 1 + n
    · rw [if_pos h1, if_pos (by omega)]
      unfold write
      rw [if_neg (by omega)]
      congr 1; omega
    · rw [if_neg h1]
      unfold write
      by_cases h2 : x = t
      · rw [if_pos h2, if_pos (by omega)]
        congr 1; omega
      · rw [if_neg h2, if_neg (by omega)]

/-- C81: `copy` into a range that is long enough copies every element to the position it has in the source and changes nothing else; this holds for ranges that do not
overlap and also if the target begins at or before the source. -/
theorem C81_copy (m : Memory α) (a b : Rg) (ha : Spec.Ok a) (hb : Spec.Ok b) (h : a.n ≤ b.n) (hd : b.p ≤ a.p ∨ a.p + a.n ≤ b.p) :
    ∃ m', copy m a b = .ok (some m') ∧ (∀ i, i < a.n → m' (b.p + i) = m (a.p + i)) ∧ ∀ x, ¬ Spec.In { b with n := a.n } x → m' x = m x := by
  refine ⟨Spec.seqCopy m a.p b.p a.n, ?_, fun i hi => ?_, fun x hx => ?_⟩
  · unfold copy Rg.fin
    unfold Spec.Ok at ha hb
    exact copy_loop a.n m _ _ _ _ rfl (by omega) (by omega) (by omega)
  · rw [seq_apart _ _ _ _ (by omega), if_pos (by omega)]
    congr 1; omega
  · rw [seq_apart _ _ _ _ (by omega), if_neg (by simpa [Spec.In] using hx)]

theorem seq_get (n : Nat) (m : Memory α) (f t : Nat) (h1 : f < t) : ∀ i, i < n → Spec.seqCopy m f t n (t + i) = m (f + i % (t - f)) := by
  have key : ∀ (n : Nat) (m : Memory α) (f t : Nat), f < t → (∀ i, i < n → Spec.seqCopy m f t n (t + i) = m (f + i % (t - f))) ∧ ∀ x, x < t → Spec.seqCopy m f t n x = m x := by
    intro n
    induction n with
    | zero => intro m f t _; exact ⟨by intro i hi; omega, fun _ _ => rfl⟩
    | succ n ih =>
      intro m f t h
      have IH := ih (write m t (m f)) (f + 1) (t + 1) (by omega)
      have hsub : t + 1 - (f + 1) = t - f := by omega
      rw [hsub] at IH
      refine ⟨fun i hi => ?_, fun x hx => ?_⟩
      · rw [Spec.seqCopy]
        cases i with
        | zero =>
          rw [IH.2 (t + 0) (by omega)]
          simp [write]
        | succ i =>
          have := IH.1 i (by omega)
          rw [show t + (i + 1) = t + 1 + i by omega, this]
          have hm := Nat.mod_lt i (show t - f > 0 by omega)
          unfold write
          have hs : (i + 1) % (t - f) = if i % (t - f) + 1 = t - f then 0 else i % (t - f) + 1 := by
            have e := Nat.div_add_mod i (t - f)
            split
            · rename_i hq
              have : i + 1 = (t - f) * (i / (t - f) + 1) := by rw [Nat.mul_add]; omega
              rw [this, Nat.mul_mod_right]
            · rename_i hq
              have : i + 1 = (i % (t - f) + 1) + (t - f) * (i / (t - f)) := by omega
              rw [this, Nat.add_mul_mod_self_left, Nat.mod_eq_of_lt (by omega)]
          rw [hs]
          by_cases hq : i % (t - f) + 1 = t - f
          · rw [if_pos (by omega), if_pos hq]
            rfl
          · rw [if_neg (by omega), if_neg hq]
            congr 1; omega
      · rw [Spec.seqCopy, IH.2 x (by omega)]
        unfold write
        rw [if_neg (by omega)]
  exact (key n m f t h1).1

/-- C81: if the target begins inside the source, the elements before it are repeated: this is not a copy of the source. -/
theorem C81_copy_overlap (m : Memory α) (a b : Rg) (ha : Spec.Ok a) (h : a.n ≤ b.n) (h1 : a.p < b.p) :
    ∃ m', copy m a b = .ok (some m') ∧ ∀ i, i < a.n → m' (b.p + i) = m (a.p + i % (b.p - a.p)) := by
  refine ⟨Spec.seqCopy m a.p b.p a.n, ?_, fun i hi => seq_get a.n m a.p b.p h1 i hi⟩
  unfold copy Rg.fin
  unfold Spec.Ok at ha
  exact copy_loop a.n m _ _ _ _ rfl (by omega) (by omega) (by omega)

/-- C81: `copy` into a range that is too short fails a contract; nothing beyond the range is written. -/
theorem C81_copy_short (m : Memory α) (a b : Rg) (ha : Spec.Ok a) (hb : Spec.Ok b) (h : b.n < a.n) : copy m a b = .error .assert := by
  unfold copy Rg.fin
  unfold Spec.Ok at ha hb
  exact copy_short a.n m _ _ _ _ rfl (by omega) (by omega) (by omega) (by omega)

theorem fill_loop (n : Nat) : ∀ (m : Memory α) (v c e : Nat), e = c + n → (n = 0 ∨ c ≠ 0) →
    ∃ m', fillLoop m v n c e = .ok (some m') ∧ ∀ x, m' x = if c ≤ x ∧ x < c + n then m v else m x := by
  induction n with
  | zero =>
    intro m v c e h1 _
    unfold fillLoop
    rw [if_neg (by simp [valid]; omega)]
    exact ⟨m, rfl, fun x => by rw [if_neg (by omega)]⟩
  | succ n ih =>
    intro m v c e h1 h2
    unfold fillLoop
    rw [if_pos (by simp [valid]; omega)]
    simp only
    rw [get_ok (by omega) (by omega), R.ok_bind, advance_ok (by omega), R.ok_bind]
    obtain ⟨m', e', hm⟩ := ih (write m c (m v)) v (c + 1) e (by omega) (by omega)
    refine ⟨m', e', fun x => ?_⟩
    have hv : write m c (m v) v = m v := by unfold write; split <;> rfl
    rw [hm x, hv]
    by_cases hx : c + 1 ≤ x ∧ x < c + 1 + n
    · rw [if_pos hx, if_pos (by omega)]
    · rw [if_neg hx]
      unfold write
      by_cases hc : x = c
      · rw [if_pos hc, if_pos (by omega)]
      · rw [if_neg hc, if_neg (by omega)]

/-- C81: `fill` gives every element of the range, and nothing else, the value that the argument has at the call, also if the argument is one of the elements. -/
theorem C81_fill (m : Memory α) (r : Rg) (hr : Spec.Ok r) (v : Nat) : ∃ m', fill m r v = .ok (some m') ∧ ∀ x, m' x = if Spec.In r x then m v else m x := by
  unfold fill Rg.fin
  exact fill_loop r.n m v r.p _ rfl hr

theorem diff_loop (ne : α → α → Bool) (m : Memory α) (n : Nat) : ∀ (a ae b be : Nat), ae = a + n → be = b + n → (n = 0 ∨ a ≠ 0) → (n = 0 ∨ b ≠ 0) →
    ∃ d, diffLoop ne m n a ae b be = .ok (some d) ∧ (d = true ↔ ∃ i, i < n ∧ ne (m (a + i)) (m (b + i)) = true) := by
  induction n with
  | zero =>
    intro a ae b be h1 h2 _ _
    unfold diffLoop
    rw [if_neg (by simp [valid]; omega)]
    exact ⟨false, rfl, by simp⟩
  | succ n ih =>
    intro a ae b be h1 h2 h3 h4
    unfold diffLoop
    rw [if_pos (by simp [valid]; omega)]
    simp only
    rw [get_ok (by omega) (by omega), R.ok_bind, get_ok (by omega) (by omega), R.ok_bind]
    by_cases h : ne (m a) (m b) = true
    · rw [if_pos h]
      exact ⟨true, rfl, by simp only [true_iff]; exact ⟨0, by omega, h⟩⟩
    · rw [if_neg h, advance_ok (by omega), R.ok_bind, advance_ok (by omega), R.ok_bind]
      obtain ⟨d, e, hd⟩ := ih (a + 1) ae (b + 1) be (by omega) (by omega) (by omega) (by omega)
      refine ⟨d, e, hd.trans ⟨fun ⟨i, h5, h6⟩ => ⟨i + 1, by omega, ?_⟩, fun ⟨i, h5, h6⟩ => ?_⟩⟩
      · rw [show a + (i + 1) = a + 1 + i by omega, show b + (i + 1) = b + 1 + i by omega]; exact h6
      · cases i with
        | zero => exact absurd h6 h
        | succ i => exact ⟨i, by omega, by rw [show a + 1 + i = a + (i + 1) by omega, show b + 1 + i = b + (i + 1) by omega]; exact h6⟩

/-- C81: ranges are equal if they have the same length and no two elements at the same position differ; `are_ranges_unequal` is the opposite. -/
theorem C81_equal (ne : α → α → Bool) (m : Memory α) (a b : Rg) (ha : Spec.Ok a) (hb : Spec.Ok b) :
    ∃ d, equal ne m a b = .ok (some d) ∧ unequal ne m a b = .ok (some (!d)) ∧ (d = true ↔ a.n = b.n ∧ ∀ i, i < a.n → ne (m (a.p + i)) (m (b.p + i)) = false) := by
  unfold equal unequal
  by_cases hn : a.n = b.n
  · rw [if_neg (by simpa using hn), if_neg (by simpa using hn)]
    unfold Spec.Ok at ha hb
    obtain ⟨d, e, hd⟩ := diff_loop ne m a.n a.p a.fin b.p b.fin rfl (by simp [Rg.fin, hn]) (by omega) (by omega)
    rw [e, R.ok_bind]
    refine ⟨!d, rfl, by simp, ?_⟩
    cases d with
    | true =>
      obtain ⟨i, h1, h2⟩ := hd.1 rfl
      simp only [Bool.not_true, Bool.false_eq_true, false_iff, not_and]
      intro _ h
      rw [h i h1] at h2
      cases h2
    | false =>
      simp only [Bool.not_false, true_iff]
      refine ⟨hn, fun i hi => ?_⟩
      cases h : ne (m (a.p + i)) (m (b.p + i)) with
      | false => rfl
      | true => exact absurd (hd.2 ⟨i, hi, h⟩) (by simp)
  · rw [if_pos (by simpa using hn), if_pos (by simpa using hn)]
    exact ⟨false, rfl, rfl, by simp [hn]⟩

/-- C81: `x == any_of(range)` says whether `x` is equal to an element, `!=` the opposite. -/
theorem C81_any_of_range {β : Type} (eq : α → β → Bool) (x : α) (l : List β) :
    (anyOfRange eq x l = true ↔ ∃ y, y ∈ l ∧ eq x y = true) ∧ (noneOf (anyOfRange eq x l) = true ↔ ∀ y, y ∈ l → eq x y = false) := by
  have h1 : anyOfRange eq x l = true ↔ ∃ y, y ∈ l ∧ eq x y = true := by
    induction l with
    | nil => simp [anyOfRange]
    | cons a l ih =>
      unfold anyOfRange
      by_cases h : eq x a = true
      · simp [h]
      · rw [if_neg h, ih]; simp [h]
  refine ⟨h1, ?_⟩
  unfold noneOf
  cases h : anyOfRange eq x l with
  | true =>
    obtain ⟨y, hy, he⟩ := h1.1 h
    simp only [Bool.not_true, Bool.false_eq_true, false_iff]
    intro h
    rw [h y hy] at he
    cases he
  | false =>
    simp only [Bool.not_false, true_iff]
    intro y hy
    cases he : eq x y with
    | false => rfl
    | true => rw [h1.2 ⟨y, hy, he⟩] at h; cases h

/-- C81: the same for a list of values. -/
theorem C81_any_of_values {β : Type} (eq : α → β → Bool) (x : α) (a b : β) (l : List β) : anyOfValues eq x a b l = anyOfRange eq x (a :: b :: l) := by
  have : ∀ l : List β, l.foldr (fun y acc => eq x y || acc) false = anyOfRange eq x l := by
    intro l
    induction l with
    | nil => rfl
    | cons y l ih => rw [List.foldr_cons, ih, anyOfRange]; cases eq x y <;> rfl
  unfold anyOfValues
  rw [this, anyOfRange, anyOfRange]

/-- Specification: the lexicographic order of tuples. -/
def Spec.lex (cs : Nat → Cmp α) (n : Nat) (l r : Nat → α) : Prop := ∃ k, k < n ∧ (∀ j, j < k → l j = r j) ∧ (cs k).lt (l k) (r k) = true

/-- The arguments of `cascaded_less` for the members from `k` on. -/
def args (cs : Nat → Cmp α) (l r : Nat → α) : Nat → Nat → List (Cmp α × α × α)
  | _, 0 => []
  | k, n + 1 => (cs k, l k, r k) :: args cs l r (k + 1) n

/-- `cascaded_less` of `n + 1` members of two objects. -/
def less (cs : Nat → Cmp α) (n : Nat) (l r : Nat → α) : Bool := cascadedLess (cs 0, l 0, r 0) (args cs l r 1 n)

/-- C81: `cascaded_less` is the lexicographic order if `!=` of each member is inequality and `<` is irreflexive. -/
theorem C81_cascaded_less (cs : Nat → Cmp α) (hne : ∀ k a b, (cs k).ne a b = true ↔ a ≠ b) (hirr : ∀ k a, (cs k).lt a a = false) (n : Nat) (l r : Nat → α) :
    less cs n l r = true ↔ Spec.lex cs (n + 1) l r := by
  have key : ∀ n k, cascadedLess (cs k, l k, r k) (args cs l r (k + 1) n) = true ↔
      ∃ i, i < n + 1 ∧ (∀ j, j < i → l (k + j) = r (k + j)) ∧ (cs (k + i)).lt (l (k + i)) (r (k + i)) = true := by
    intro n
    induction n with
    | zero =>
      intro k
      unfold args cascadedLess
      refine ⟨fun h => ⟨0, by omega, by intro j hj; omega, h⟩, fun ⟨i, h1, _, h3⟩ => ?_⟩
      have : i = 0 := by omega
      subst this
      exact h3
    | succ n ih =>
      intro k
      unfold args cascadedLess
      by_cases h : l k = r k
      · rw [if_neg (by rw [hne]; simpa using h), ih (k + 1)]
        constructor
        · rintro ⟨i, h1, h2, h3⟩
          refine ⟨i + 1, by omega, fun j hj => ?_, ?_⟩
          · cases j with
            | zero => exact h
            | succ j => rw [show k + (j + 1) = k + 1 + j by omega]; exact h2 j (by omega)
          · rw [show k + (i + 1) = k + 1 + i by omega]; exact h3
        · rintro ⟨i, h1, h2, h3⟩
          cases i with
          | zero => rw [Nat.add_zero, h, hirr] at h3; cases h3
          | succ i =>
            refine ⟨i, by omega, fun j hj => ?_, ?_⟩
            · rw [show k + 1 + j = k + (j + 1) by omega]; exact h2 (j + 1) (by omega)
            · rw [show k + 1 + i = k + (i + 1) by omega]; exact h3
      · rw [if_pos (by rw [hne]; exact h)]
        refine ⟨fun h' => ⟨0, by omega, by intro j hj; omega, h'⟩, fun ⟨i, h1, h2, h3⟩ => ?_⟩
        cases i with
        | zero => exact h3
        | succ i => exact absurd (h2 0 (by omega)) h
  have := key n 0
  simpa [less, Spec.lex] using this

/-- C81: if each member has a strict total order, so have the objects: irreflexive, transitive, and any two that differ in a member are ordered. -/
theorem C81_less_total_order (cs : Nat → Cmp α) (hne : ∀ k a b, (cs k).ne a b = true ↔ a ≠ b) (hirr : ∀ k a, (cs k).lt a a = false)
    (htr : ∀ k a b c, (cs k).lt a b = true → (cs k).lt b c = true → (cs k).lt a c = true) (htot : ∀ k a b, a ≠ b → (cs k).lt a b = true ∨ (cs k).lt b a = true) (n : Nat) :
    (∀ x, less cs n x x = false) ∧
    (∀ x y z, less cs n x y = true → less cs n y z = true → less cs n x z = true) ∧
    ∀ x y, (∃ k, k < n + 1 ∧ x k ≠ y k) → less cs n x y = true ∨ less cs n y x = true := by
  have L := fun x y => C81_cascaded_less cs hne hirr n x y
  refine ⟨fun x => ?_, fun x y z => ?_, fun x y => ?_⟩
  · cases h : less cs n x x with
    | false => rfl
    | true =>
      obtain ⟨k, _, _, h3⟩ := (L x x).1 h
      rw [hirr] at h3
      cases h3
  · rw [L, L, L]
    rintro ⟨i, h1, h2, h3⟩ ⟨j, h4, h5, h6⟩
    rcases Nat.lt_trichotomy i j with h | h | h
    · exact ⟨i, h1, fun k hk => (h2 k hk).trans (h5 k (by omega)), by rw [← h5 i h]; exact h3⟩
    · subst h
      exact ⟨i, h1, fun k hk => (h2 k hk).trans (h5 k hk), htr _ _ _ _ h3 h6⟩
    · exact ⟨j, h4, fun k hk => (h2 k (by omega)).trans (h5 k hk), by rw [h2 j h]; exact h6⟩
  · rintro ⟨k, hk, hd⟩
    have : ∃ k, (k < n + 1 ∧ x k ≠ y k) ∧ ∀ j, j < k → x j = y j := by
      induction k using Nat.strongRecOn with
      | _ k ih =>
        by_cases h : ∃ j, j < k ∧ x j ≠ y j
        · obtain ⟨j, hj, hj'⟩ := h
          exact ih j hj (by omega) hj'
        · exact ⟨k, ⟨hk, hd⟩, fun j hj => Classical.byContradiction fun hh => h ⟨j, hj, hh⟩⟩
    obtain ⟨k, ⟨h1, h2⟩, h3⟩ := this
    rw [L, L]
    rcases htot k _ _ h2 with h | h
    · exact Or.inl ⟨k, h1, h3, h⟩
    · exact Or.inr ⟨k, h1, fun j hj => (h3 j hj).symm, h⟩

section examples

def look (n : Nat) (r : R (Option (Memory Nat))) : Option (List Nat) := r.toOption.bind (·.map fun m => (List.range n).map m)

/-- Two ranges that do not overlap, with one element left over in the target. -/
example : look 9 (copy id { p := 1, n := 3 } { p := 5, n := 4 }) = some [0, 1, 2, 3, 4, 1, 2, 3, 8] := by decide +kernel
example : Spec.Ok { p := 1, n := 3 } ∧ Spec.Ok { p := 5, n := 4 } := ⟨.inr (by decide), .inr (by decide)⟩
/-- The target begins before and in the source. -/
example : look 8 (copy id { p := 3, n := 4 } { p := 2, n := 4 }) = some [0, 1, 3, 4, 5, 6, 6, 7] := by decide +kernel
example : look 8 (copy id { p := 2, n := 4 } { p := 4, n := 4 }) = some [0, 1, 2, 3, 2, 3, 2, 3] := by decide +kernel
example : copy (α := Nat) id { p := 1, n := 3 } { p := 5, n := 2 } = .error .assert := C81_copy_short _ _ _ (.inr (by decide)) (.inr (by decide)) (by decide)
/-- The value is an element of the range. -/
example : look 8 (fill id { p := 2, n := 4 } 4) = some [0, 1, 4, 4, 4, 4, 6, 7] := by decide +kernel
example : equal (fun a b => a % 4 != b % 4) id { p := 1, n := 3 } { p := 5, n := 3 } = .ok (some true) := by decide +kernel
example : equal (fun a b => a % 5 != b % 5) id { p := 1, n := 3 } { p := 5, n := 3 } = .ok (some false) := by decide +kernel
example : anyOfRange (· == ·) 4 [1, 4, 2] = true ∧ anyOfValues (· == ·) 3 1 4 [2] = false := by decide +kernel

def ints : Nat → Cmp Int := fun _ => { lt := fun a b => decide (a < b), ne := fun a b => decide (a ≠ b) }

example : less ints 1 (fun | 0 => 1 | _ => 5) (fun | 0 => 1 | _ => 7) = true ∧ less ints 1 (fun | 0 => 2 | _ => 5) (fun | 0 => 1 | _ => 7) = false := by decide +kernel
example : (∀ k a b, (ints k).ne a b = true ↔ a ≠ b) ∧ (∀ k a, (ints k).lt a a = false) ∧
    (∀ k a b c, (ints k).lt a b = true → (ints k).lt b c = true → (ints k).lt a c = true) ∧ ∀ k a b, a ≠ b → (ints k).lt a b = true ∨ (ints k).lt b a = true := by
  simp only [ints, decide_eq_true_eq, decide_eq_false_iff_not]
  exact ⟨by simp, fun _ _ => by omega, fun _ _ _ _ => by omega, fun _ _ _ => by omega⟩

end examples

end Verif.Algo
