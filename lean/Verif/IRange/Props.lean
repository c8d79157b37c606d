import Verif.IRange.Model

/-! C80: integer ranges visit exactly the numbers from begin to end, forwards and backwards. -/
namespace Verif.IRange

/-- Specification: the `n` numbers from `b` on. -/
def Spec.from_ (b : Int) : Nat → List Int
  | 0 => []
  | n + 1 => b :: Spec.from_ (b + 1) n

/-- Specification: the numbers at least `b` and below `e`, in ascending order. -/
def Spec.between (b e : Int) : List Int := Spec.from_ b (e - b).toNat

/-- It is what it says: exactly these numbers, and ascending. -/
theorem mem_from {b x : Int} {n : Nat} : x ∈ Spec.from_ b n ↔ b ≤ x ∧ x < b + n := by
  induction n generalizing b with
  | zero => simp [Spec.from_]
  | succ n ih => simp only [Spec.from_, List.mem_cons, ih]; omega

theorem C80_between (b e x : Int) : x ∈ Spec.between b e ↔ b ≤ x ∧ x < e := by
  unfold Spec.between
  rw [mem_from]
  omega

theorem C80_between_ascending (b e : Int) : (Spec.between b e).Pairwise (· < ·) := by
  unfold Spec.between
  generalize (e - b).toNat = n
  induction n generalizing b with
  | zero => exact .nil
  | succ n ih =>
    refine .cons (fun x hx => ?_) (ih _)
    have := (mem_from.1 hx).1
    omega

theorem between_cons {b e : Int} (h : b < e) : Spec.between b e = b :: Spec.between (b + 1) e := by
  unfold Spec.between
  have : (e - b).toNat = (e - (b + 1)).toNat + 1 := by omega
  rw [this]; rfl

theorem between_nil {b e : Int} (h : e ≤ b) : Spec.between b e = [] := by
  unfold Spec.between
  have : (e - b).toNat = 0 := by omega
  rw [this]; rfl

theorem from_concat (b : Int) (n : Nat) : Spec.from_ b (n + 1) = Spec.from_ b n ++ [b + n] := by
  induction n generalizing b with
  | zero => simp [Spec.from_]
  | succ n ih =>
    rw [Spec.from_, ih, Spec.from_]
    simp
    omega

theorem between_concat {b e : Int} (h : b < e) : Spec.between b e = Spec.between b (e - 1) ++ [e - 1] := by
  unfold Spec.between
  have h1 : (e - b).toNat = (e - 1 - b).toNat + 1 := by omega
  have h2 : b + (((e - 1 - b).toNat : Nat) : Int) = e - 1 := by omega
  rw [h1, from_concat, h2]

theorem inc_lt {T : Ty} {x e : Int} (he : T.has e) (h : x < e) : T.inc x = .ok (x + 1) := by
  unfold Ty.inc
  have := he.2
  rw [if_neg (by omega)]

theorem dec_gt {T : Ty} {x e : Int} (he : T.has e) (h : e < x) : T.dec x = .ok (x - 1) := by
  unfold Ty.dec
  have := he.1
  rw [if_neg (by omega)]

/-- C80: the loop visits the numbers from begin to end. -/
theorem C80_forward (T : Ty) (r : Rng) (he : T.has r.e) (h : r.b ≤ r.e) (n : Nat) (hn : r.e - r.b ≤ n) : loop T n r.b r.e = .ok (some (Spec.between r.b r.e)) := by
  obtain ⟨b, e⟩ := r
  simp only at *
  induction n generalizing b with
  | zero =>
    have : b = e := by omega
    unfold loop
    rw [if_pos this, between_nil (by omega)]
  | succ n ih =>
    unfold loop
    by_cases hb : b = e
    · rw [if_pos hb, between_nil (by omega)]
    · have hlt : b < e := by omega
      rw [if_neg hb]
      simp only
      rw [inc_lt he hlt, R.ok_bind, ih (b + 1) (by omega) (by omega), R.ok_bind, between_cons hlt]
      rfl

/-- What the last decrement of the backward loop gives. -/
theorem rev_loop (T : Ty) (b : Int) (hb : T.has b) (b' : Int) (hb' : T.dec b = .ok b') (n : Nat) : ∀ (e : Int), T.has e → b ≤ e → e - b ≤ n → ∀ e', T.dec e = .ok e' →
    revLoop T n e' b' = .ok (some (Spec.between b e).reverse) := by
  induction n with
  | zero =>
    intro e he h hn e' he'
    have : b = e := by omega
    subst this
    rw [hb'] at he'
    obtain rfl := Except.ok.inj he'
    unfold revLoop
    rw [if_pos rfl, between_nil (by omega)]
    rfl
  | succ n ih =>
    intro e he h hn e' he'
    by_cases hlt : b = e
    · subst hlt
      rw [hb'] at he'
      obtain rfl := Except.ok.inj he'
      unfold revLoop
      rw [if_pos rfl, between_nil (by omega)]
      rfl
    · have hlt' : b < e := by omega
      rw [dec_gt hb hlt'] at he'
      obtain rfl := Except.ok.inj he'
      have ne : e - 1 ≠ b' := by
        unfold Ty.dec at hb'
        have h1 := hb.1
        have h2 := he.2
        split at hb'
        · split at hb'
          · cases hb'
          · have := Except.ok.inj hb'; omega
        · have := Except.ok.inj hb'; omega
      unfold revLoop
      rw [if_neg ne]
      simp only
      have hd : ∃ y, T.dec (e - 1) = .ok y := by
        by_cases hx : e - 1 = b
        · rw [hx]; exact ⟨_, hb'⟩
        · exact ⟨_, dec_gt hb (by omega)⟩
      obtain ⟨y, hy⟩ := hd
      rw [hy, R.ok_bind, ih (e - 1) ⟨by have := hb.1; omega, by have := he.2; omega⟩ (by omega) (by omega) y hy, R.ok_bind, between_concat hlt']
      simp

/-- C80 (all but ranges that begin at the least value of a signed type): the reversed range visits the same numbers in descending order. -/
theorem C80_reversed_partial (T : Ty) (r : Rng) (hb : T.has r.b) (he : T.has r.e) (h : r.b ≤ r.e) (hub : T.ub = false ∨ T.lo < r.b) :
    ∃ q, reversed T r = .ok q ∧ ∀ n : Nat, r.e - r.b ≤ n → revLoop T n q.b q.e = .ok (some (Spec.between r.b r.e).reverse) := by
  have hd : ∀ x, r.b ≤ x → ∃ y, T.dec x = .ok y := by
    intro x hx
    unfold Ty.dec
    by_cases h1 : x = T.lo
    · have h2 : T.ub = false := by
        rcases hub with h2 | h2
        · exact h2
        · omega
      rw [if_pos h1, h2]
      exact ⟨_, rfl⟩
    · rw [if_neg h1]
      exact ⟨_, rfl⟩
  obtain ⟨e', he'⟩ := hd r.e h
  obtain ⟨b', hb'⟩ := hd r.b (Int.le_refl _)
  refine ⟨{ b := e', e := b' }, ?_, fun n hn => rev_loop T r.b hb b' hb' n r.e he h hn e' he'⟩
  unfold reversed
  rw [he', R.ok_bind, hb', R.ok_bind]

/-- C80: reversing twice gives the range again. -/
theorem C80_reversed_twice (T : Ty) (r q : Rng) (hb : T.has r.b) (he : T.has r.e) (h : reversed T r = .ok q) : revReversed T q = .ok r := by
  have key : ∀ x y, T.has x → T.dec x = .ok y → T.inc y = .ok x := by
    intro x y hx hy
    unfold Ty.dec at hy
    unfold Ty.inc
    have h1 := hx.1
    have h2 := hx.2
    split at hy
    · split at hy
      · cases hy
      · rename_i hx' hu
        obtain rfl := Except.ok.inj hy
        rw [if_pos rfl, if_neg hu, hx']
    · obtain rfl := Except.ok.inj hy
      rw [if_neg (by omega)]
      congr 1; omega
  unfold reversed at h
  obtain ⟨b', h1, h⟩ := R.bind_eq_ok.1 h
  obtain ⟨e', h2, h⟩ := R.bind_eq_ok.1 h
  obtain rfl := Except.ok.inj h
  unfold revReversed
  rw [key _ _ hb h2, R.ok_bind, key _ _ he h1, R.ok_bind]

/-- C80: `skip_first` leaves out the first number, and does nothing to an empty range. -/
theorem C80_skip_first (T : Ty) (r : Rng) (hb : T.has r.b) (he : T.has r.e) (h : r.b ≤ r.e) :
    ∃ q, skipFirst T r = .ok q ∧ T.has q.b ∧ T.has q.e ∧ q.b ≤ q.e ∧ Spec.between q.b q.e = (Spec.between r.b r.e).tail := by
  obtain ⟨b, e⟩ := r
  simp only at *
  unfold skipFirst
  have h1 := hb.1
  have h2 := he.2
  by_cases hbe : b = e
  · subst hbe
    rw [if_pos rfl]
    exact ⟨_, rfl, hb, hb, Int.le_refl _, by simp only [between_nil (Int.le_refl b)]; rfl⟩
  · rw [if_neg hbe]
    simp only
    rw [inc_lt he (by omega), R.ok_bind]
    refine ⟨_, rfl, ⟨by simp only; omega, by simp only; omega⟩, he, by simp only; omega, ?_⟩
    simp only
    rw [between_cons (b := b) (e := e) (by omega)]; rfl

/-- C80: `skip_last` leaves out the last number, and does nothing to an empty range. -/
theorem C80_skip_last (T : Ty) (r : Rng) (hb : T.has r.b) (he : T.has r.e) (h : r.b ≤ r.e) :
    ∃ q, skipLast T r = .ok q ∧ T.has q.b ∧ T.has q.e ∧ q.b ≤ q.e ∧ Spec.between q.b q.e = (Spec.between r.b r.e).dropLast := by
  obtain ⟨b, e⟩ := r
  simp only at *
  unfold skipLast
  have h1 := hb.1
  have h2 := he.2
  by_cases hbe : b = e
  · subst hbe
    rw [if_pos rfl]
    exact ⟨_, rfl, hb, hb, Int.le_refl _, by simp only [between_nil (Int.le_refl b)]; rfl⟩
  · rw [if_neg hbe]
    simp only
    rw [dec_gt hb (by omega), R.ok_bind]
    refine ⟨_, rfl, hb, ⟨by simp only; omega, by simp only; omega⟩, by simp only; omega, ?_⟩
    simp only
    rw [between_concat (b := b) (e := e) (by omega)]; simp

theorem filter_between (b e v : Int) : (Spec.between b e).filter (fun x => decide (x ≤ v)) = Spec.between b (if v + 1 < e then v + 1 else e) := by
  unfold Spec.between
  generalize hn : (e - b).toNat = n
  induction n generalizing b with
  | zero =>
    have : ((if v + 1 < e then v + 1 else e) - b).toNat = 0 := by split <;> omega
    rw [this]; rfl
  | succ n ih =>
    have ih' := ih (b + 1) (by omega)
    rw [Spec.from_, List.filter_cons]
    by_cases hb : b ≤ v
    · rw [if_pos (by simpa using hb), ih']
      have h1 : ((if v + 1 < e then v + 1 else e) - b).toNat = ((if v + 1 < e then v + 1 else e) - (b + 1)).toNat + 1 := by split <;> omega
      rw [h1]; rfl
    · rw [if_neg (by simpa using hb), ih']
      have h1 : ((if v + 1 < e then v + 1 else e) - b).toNat = 0 := by split <;> omega
      have h2 : ((if v + 1 < e then v + 1 else e) - (b + 1)).toNat = 0 := by split <;> omega
      rw [h1, h2]; rfl

/-- C80: `max(v)` leaves exactly the numbers that are at most `v`. -/
theorem C80_max (T : Ty) (h0 : T.has 0) (r : Rng) (hb : T.has r.b) (he : T.has r.e) (h : r.b ≤ r.e) (v : Int) :
    ∃ q, max T r v = .ok q ∧ T.has q.b ∧ T.has q.e ∧ q.b ≤ q.e ∧ Spec.between q.b q.e = (Spec.between r.b r.e).filter (fun x => decide (x ≤ v)) := by
  obtain ⟨b, e⟩ := r
  simp only at *
  rw [filter_between]
  unfold max
  by_cases h1 : v ≥ e
  · refine ⟨_, if_pos h1, hb, he, h, ?_⟩
    rw [if_neg (by omega)]
  · rw [if_neg h1]
    by_cases h2 : v < b
    · refine ⟨_, if_pos h2, h0, h0, Int.le_refl _, ?_⟩
      rw [between_nil (Int.le_refl _), between_nil]
      split <;> omega
    · rw [if_neg h2, inc_lt he (by omega), R.ok_bind]
      have a1 := hb.1
      have a2 := he.2
      refine ⟨_, rfl, hb, ⟨by simp only; omega, by simp only; omega⟩, by simp only; omega, ?_⟩
      by_cases h3 : v + 1 < e
      · rw [if_pos h3]
      · rw [if_neg h3]
        have : v + 1 = e := by omega
        simp only [this]

/-- C80: a loop over `indices_of(n)` visits `0` to `n - 1`. -/
theorem C80_indices (T : Ty) (k : Nat) (hk : T.has k) : loop T k (indicesOf k).b (indicesOf k).e = .ok (some ((List.range k).map Int.ofNat)) := by
  rw [C80_forward T (indicesOf k) hk (by simp [indicesOf]) k (by simp [indicesOf])]
  congr 2
  unfold Spec.between indicesOf
  simp only [Int.sub_zero, Int.toNat_natCast]
  clear hk
  induction k with
  | zero => rfl
  | succ k ih => rw [from_concat, ih, List.range_succ]; simp

/-- Disagreement: reversing a range that begins at the least value of a signed type overflows. -/
theorem C80_reversed_overflows (T : Ty) (hT : T.ub = true) (e : Int) : reversed T { b := T.lo, e := e } = .error .ub := by
  unfold reversed Ty.dec
  simp only [hT, if_true]
  by_cases h : e = T.lo
  · rw [if_pos h, R.error_bind]
  · rw [if_neg h, R.ok_bind, R.error_bind]

/-- 32-bit signed and unsigned numbers, and signed bytes. -/
def i32 : Ty := { lo := -2 ^ 31, hi := 2 ^ 31 - 1, ub := true }
def u32 : Ty := { lo := 0, hi := 2 ^ 32 - 1, ub := false }
def i8 : Ty := { lo := -128, hi := 127, ub := false }

example : loop i32 5 (-2) 3 = .ok (some [-2, -1, 0, 1, 2]) := by decide +kernel
example : i32.has 3 ∧ (-2 : Int) ≤ 3 := by unfold Ty.has; decide
/-- A range of unsigned numbers from zero, backwards: the end goes around. -/
example : (do let q ← reversed u32 { b := 0, e := 3 }; revLoop u32 3 q.b q.e) = .ok (some [2, 1, 0]) := by decide +kernel
example : (do let q ← reversed i8 { b := -128, e := -125 }; revLoop i8 3 q.b q.e) = .ok (some [-126, -127, -128]) := by decide +kernel
example : (u32.has 0 ∧ u32.has 3) ∧ u32.ub = false := by unfold Ty.has; decide
example : max i32 { b := 2, e := 9 } 4 = .ok { b := 2, e := 5 } ∧ max i32 { b := 2, e := 9 } 1 = .ok { b := 0, e := 0 } := by decide +kernel
example : reversed i32 { b := -2 ^ 31, e := 0 } = .error .ub := C80_reversed_overflows i32 rfl 0
/-- Begin above end breaks the rule `_end >= _begin`. -/
example : (loop i8 300 3 1).map (·.map List.length) = .ok (some 254) := by decide +kernel

end Verif.IRange
