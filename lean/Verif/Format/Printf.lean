import Verif.Format.Model
import Verif.Format.Spec
import Verif.Fmt.Parse
/-! # The printf-style specifications -/
namespace Verif.Format
open Verif.StrView (Chr)
open Verif.Num (isDigit isDigit_iff)
open Verif.Num.Spec (IsDigit value)
open Spec (Flag Conv Width Precision Length PrintfSpec)

/-- The position at the text `s` of the view, with `T` behind the view. -/
def P (T s : List Chr) : Pos := (s ++ T, (s.length : Int))

theorem P_drop (T : List Chr) (c : Chr) (s : List Chr) : ((P T (c :: s)).1.drop 1, (P T (c :: s)).2 - 1) = P T s := by
  unfold P
  refine Prod.ext rfl ?_
  change ((c :: s).length : Int) - 1 = s.length
  rw [List.length_cons]; omega

theorem rd_zero (c : Chr) (s : List Chr) : Str.rd (c :: s) 0 = .ok c := rfl

theorem skipWhile_ok (p : Chr → Bool) (T a b : List Chr) (ha : ∀ c ∈ a, p c = true) (hb : ∀ c, b.head? = some c → p c = false) :
    skipWhile p (a ++ b ++ T) ((a ++ b).length : Int) = .ok (P T b) := by
  induction a with
  | nil =>
    cases b with
    | nil =>
      cases T with
      | nil => rfl
      | cons x T => rfl
    | cons c b =>
      change skipWhile p (c :: (b ++ T)) _ = _
      rw [skipWhile, if_neg (by simp only [List.nil_append, List.length_cons]; omega), if_neg (by rw [hb c rfl]; decide)]
      rfl
  | cons c a ih =>
    change skipWhile p (c :: (a ++ b ++ T)) _ = _
    rw [skipWhile, if_neg (by simp only [List.cons_append, List.length_cons]; omega), if_pos (ha c List.mem_cons_self)]
    have e : (((c :: a) ++ b).length : Int) - 1 = ((a ++ b).length : Int) := by
      simp only [List.cons_append, List.length_cons]; omega
    rw [e]
    exact ih fun x hx => ha x (List.mem_cons_of_mem _ hx)

/-- A text is characters with `p` and then something that does not begin with one. -/
theorem split_while (p : Chr → Bool) (s : List Chr) : ∃ a b, s = a ++ b ∧ (∀ c ∈ a, p c = true) ∧ ∀ c, b.head? = some c → p c = false := by
  induction s with
  | nil => exact ⟨[], [], rfl, by simp, fun c h => nomatch h⟩
  | cons c t ih =>
    by_cases e : p c = true
    · obtain ⟨a, b, rfl, h1, h2⟩ := ih
      refine ⟨c :: a, b, rfl, ?_, h2⟩
      intro x hx
      rcases List.mem_cons.mp hx with g | g
      · rw [g]; exact e
      · exact h1 x g
    · refine ⟨[], c :: t, rfl, by simp, ?_⟩
      intro x hx
      rw [← Option.some.inj hx]
      exact Bool.eq_false_iff.mpr e

theorem isFlag_iff (c : Chr) : isFlag c = true ↔ Flag c := by
  unfold isFlag Flag
  simp only [Bool.or_eq_true, beq_iff_eq, List.mem_cons, List.not_mem_nil, or_false, or_assoc]

theorem isConv_iff (c : Chr) : isConv c = true ↔ Conv c := by
  unfold isConv Conv
  exact List.contains_iff_mem

theorem conv_props : ∀ c : Chr, Conv c → ¬ Flag c ∧ ¬ IsDigit c ∧ c ≠ 42#8 ∧ c ≠ 46#8 ∧
    c ∉ [122#8, 116#8, 106#8, 76#8, 104#8, 108#8] := by
  have : ∀ c ∈ [99#8, 115#8, 100#8, 105#8, 111#8, 120#8, 88#8, 117#8, 102#8, 70#8, 101#8, 69#8, 97#8, 65#8, 103#8, 71#8, 112#8],
      c ∉ [45#8, 43#8, 32#8, 35#8, 94#8, 60#8, 62#8, 48#8] ∧ ¬ (48 ≤ c.toNat ∧ c.toNat ≤ 57) ∧ c ≠ 42#8 ∧ c ≠ 46#8 ∧
      c ∉ [122#8, 116#8, 106#8, 76#8, 104#8, 108#8] := by decide +kernel
  exact this

theorem len_props : ∀ c : Chr, c ∈ [122#8, 116#8, 106#8, 76#8, 104#8, 108#8] → ¬ Flag c ∧ ¬ IsDigit c ∧ c ≠ 42#8 ∧ c ≠ 46#8 := by
  have : ∀ c ∈ [122#8, 116#8, 106#8, 76#8, 104#8, 108#8],
      c ∉ [45#8, 43#8, 32#8, 35#8, 94#8, 60#8, 62#8, 48#8] ∧ ¬ (48 ≤ c.toNat ∧ c.toNat ≤ 57) ∧ c ≠ 42#8 ∧ c ≠ 46#8 := by decide +kernel
  exact this

theorem flag_digit {c : Chr} (h : IsDigit c) (h0 : c ≠ 48#8) : ¬ Flag c := by
  unfold Flag
  unfold IsDigit at h
  have key : ∀ k : Nat, k < 256 → c.toNat ≠ k → c ≠ BitVec.ofNat 8 k := by
    intro k hk h1 h2
    rw [h2, BitVec.toNat_ofNat] at h1
    omega
  simp only [List.mem_cons, List.not_mem_nil, or_false]
  rintro (e | e | e | e | e | e | e | e)
  · exact key 45 (by decide) (by omega) e
  · exact key 43 (by decide) (by omega) e
  · exact key 32 (by decide) (by omega) e
  · exact key 35 (by decide) (by omega) e
  · exact key 94 (by decide) (by omega) e
  · exact key 60 (by decide) (by omega) e
  · exact key 62 (by decide) (by omega) e
  · exact h0 e

theorem digit_ne {c : Chr} (h : IsDigit c) : c ≠ 42#8 ∧ c ≠ 46#8 := by
  unfold IsDigit at h
  constructor
  · rintro rfl; exact absurd h (by decide)
  · rintro rfl; exact absurd h (by decide)

/-! ### The steps -/

theorem advWidth_ok (T w b : List Chr) (hw : Width w) (hb : ∀ c, b.head? = some c → ¬ IsDigit c ∧ c ≠ 42#8) :
    advWidth (P T (w ++ b)) = .ok (P T b) := by
  unfold advWidth
  rcases hw with rfl | ⟨hw, _⟩
  · rw [if_pos (by unfold P; simp only [List.cons_append, List.nil_append, List.length_cons]; omega)]
    change (Str.rd (42#8 :: (b ++ T)) 0 >>= _) = _
    rw [rd_zero, R.ok_bind, if_pos rfl]
    exact congrArg Except.ok (P_drop T 42#8 b)
  · by_cases h0 : w ++ b = []
    · obtain ⟨rfl, rfl⟩ := List.append_eq_nil_iff.mp h0
      rfl
    · have hl : (P T (w ++ b)).2 ≠ 0 := by
        have := List.length_pos_iff.mpr h0
        unfold P
        dsimp only
        omega
      rw [if_pos hl]
      have hsk := skipWhile_ok isDigit T w b (fun c hc => (isDigit_iff c).mpr (hw c hc)) (fun c hc => Bool.eq_false_iff.mpr fun e => (hb c hc).1 ((isDigit_iff c).mp e))
      have hrd : ∃ c, Str.rd (P T (w ++ b)).1 0 = .ok c ∧ c ≠ 42#8 := by
        cases w with
        | nil =>
          cases b with
          | nil => exact absurd rfl h0
          | cons c b => exact ⟨c, rfl, (hb c rfl).2⟩
        | cons c w => exact ⟨c, rfl, (digit_ne (hw c List.mem_cons_self)).1⟩
      obtain ⟨c, c1, c2⟩ := hrd
      rw [c1, R.ok_bind, if_neg c2]
      exact hsk

theorem advWidth_cases (T s : List Chr) (hs : s.head? ≠ some 48#8) : ∃ w b, s = w ++ b ∧ Width w ∧ advWidth (P T s) = .ok (P T b) := by
  cases s with
  | nil => exact ⟨[], [], rfl, Or.inr ⟨by simp, by simp⟩, rfl⟩
  | cons c t =>
    by_cases e : c = 42#8
    · subst e
      refine ⟨[42#8], t, rfl, Or.inl rfl, ?_⟩
      unfold advWidth
      rw [if_pos (by unfold P; simp only [List.length_cons]; omega)]
      change (Str.rd (42#8 :: (t ++ T)) 0 >>= _) = _
      rw [rd_zero, R.ok_bind, if_pos rfl]
      exact congrArg Except.ok (P_drop T 42#8 t)
    · obtain ⟨a, b, h1, h2, h3⟩ := split_while isDigit (c :: t)
      refine ⟨a, b, h1, Or.inr ⟨fun x hx => (isDigit_iff x).mp (h2 x hx), ?_⟩, ?_⟩
      · intro g
        cases a with
        | nil => cases g
        | cons x a =>
          rw [h1] at hs
          exact hs g
      · unfold advWidth
        rw [if_pos (by unfold P; simp only [List.length_cons]; omega)]
        change (Str.rd (c :: (t ++ T)) 0 >>= _) = _
        rw [rd_zero, R.ok_bind, if_neg e]
        have := skipWhile_ok isDigit T a b h2 h3
        rw [← h1] at this
        exact this

theorem advPrecision_none (T s : List Chr) (hs : s.head? ≠ some 46#8) : advPrecision (P T s) = .ok (P T s) := by
  cases s with
  | nil => rfl
  | cons c t =>
    unfold advPrecision
    rw [if_pos (by unfold P; simp only [List.length_cons]; omega)]
    change (Str.rd (c :: (t ++ T)) 0 >>= _) = _
    rw [rd_zero, R.ok_bind, if_neg (fun e => hs (by rw [e]; rfl))]
    rfl

theorem advPrecision_dot (T t : List Chr) : advPrecision (P T (46#8 :: t)) = (do
    ccAssert (decide ((t.length : Int) ≠ 0))
    let d ← Str.rd (t ++ T) 0
    if d = 42#8 then pure ((t ++ T).drop 1, (t.length : Int) - 1)
      else do
        ccAssert (isDigit d)
        skipWhile isDigit (t ++ T) (t.length : Int) : R Pos) := by
  unfold advPrecision
  rw [if_pos (by unfold P; simp only [List.length_cons]; omega)]
  change (Str.rd (46#8 :: (t ++ T)) 0 >>= _) = _
  rw [rd_zero, R.ok_bind, if_pos rfl]
  have e : (P T (46#8 :: t)).2 - 1 = (t.length : Int) := by
    unfold P; simp only [List.length_cons]; omega
  have e2 : (P T (46#8 :: t)).2 - 2 = (t.length : Int) - 1 := by
    unfold P; simp only [List.length_cons]; omega
  rw [e, e2]
  rfl

theorem advPrecision_ok (T p b : List Chr) (hp : Precision p) (hb : ∀ c, b.head? = some c → ¬ IsDigit c ∧ c ≠ 46#8) :
    advPrecision (P T (p ++ b)) = .ok (P T b) := by
  rcases hp with rfl | rfl | ⟨ds, rfl, h0, hd⟩
  · exact advPrecision_none T b fun e => (hb _ e).2 rfl
  · change advPrecision (P T (46#8 :: 42#8 :: b)) = _
    rw [advPrecision_dot, decide_eq_true (by simp only [List.length_cons]; omega), ccAssert_true rfl, R.ok_bind]
    change (Str.rd (42#8 :: (b ++ T)) 0 >>= _) = _
    rw [rd_zero, R.ok_bind, if_pos rfl]
    exact congrArg Except.ok (P_drop T 42#8 b)
  · change advPrecision (P T (46#8 :: (ds ++ b))) = _
    cases ds with
    | nil => exact absurd rfl h0
    | cons d ds =>
      have hdd := hd d List.mem_cons_self
      rw [advPrecision_dot, decide_eq_true (by simp only [List.cons_append, List.length_cons]; omega), ccAssert_true rfl, R.ok_bind]
      change (Str.rd (d :: (ds ++ b ++ T)) 0 >>= _) = _
      rw [rd_zero, R.ok_bind, if_neg (digit_ne hdd).1, (isDigit_iff d).mpr hdd, ccAssert_true rfl, R.ok_bind]
      exact skipWhile_ok isDigit T (d :: ds) b (fun c hc => (isDigit_iff c).mpr (hd c hc)) (fun c hc => Bool.eq_false_iff.mpr fun e => (hb c hc).1 ((isDigit_iff c).mp e))

theorem advPrecision_cases (T s : List Chr) :
    (∃ p b, s = p ++ b ∧ Precision p ∧ advPrecision (P T s) = .ok (P T b)) ∨ advPrecision (P T s) = .error .assert := by
  by_cases hs : s.head? = some 46#8
  · cases s with
    | nil => cases hs
    | cons c t =>
      have : c = 46#8 := Option.some.inj hs
      subst this
      rw [advPrecision_dot]
      cases t with
      | nil => exact Or.inr rfl
      | cons d t =>
        rw [decide_eq_true (by simp only [List.length_cons]; omega), ccAssert_true rfl, R.ok_bind]
        change (∃ p b, _ ∧ _ ∧ (Str.rd (d :: (t ++ T)) 0 >>= _) = _) ∨ (Str.rd (d :: (t ++ T)) 0 >>= _) = _
        rw [rd_zero, R.ok_bind]
        by_cases e : d = 42#8
        · subst e
          rw [if_pos rfl]
          exact Or.inl ⟨[46#8, 42#8], t, rfl, Or.inr (Or.inl rfl), congrArg Except.ok (P_drop T 42#8 t)⟩
        · rw [if_neg e]
          cases ed : isDigit d with
          | false => exact Or.inr rfl
          | true =>
            rw [ccAssert_true rfl, R.ok_bind]
            obtain ⟨a, b, h1, h2, h3⟩ := split_while isDigit (d :: t)
            have hsk := skipWhile_ok isDigit T a b h2 h3
            rw [← h1] at hsk
            refine Or.inl ⟨46#8 :: a, b, by rw [h1]; rfl, Or.inr (Or.inr ⟨a, rfl, ?_, fun x hx => (isDigit_iff x).mp (h2 x hx)⟩), hsk⟩
            rintro rfl
            rw [List.nil_append] at h1
            have := h3 d (by rw [← h1]; rfl)
            rw [ed] at this
            cases this
  · exact Or.inl ⟨[], s, rfl, Or.inl rfl, advPrecision_none T s hs⟩

theorem advTwice_ok (T : List Chr) (x : Chr) (m b : List Chr) (hm : m = [] ∨ m = [x]) (hb : m = [] → b.head? ≠ some x) :
    advTwice x (P T (m ++ b)) = .ok (P T b) := by
  rcases hm with rfl | rfl
  · have hb := hb rfl
    cases b with
    | nil => rfl
    | cons c b =>
      unfold advTwice
      rw [if_pos (by unfold P; simp only [List.nil_append, List.length_cons]; omega)]
      change (Str.rd (c :: (b ++ T)) 0 >>= _) = _
      rw [rd_zero, R.ok_bind, if_neg (fun e => hb (by rw [e]; rfl))]
      rfl
  · unfold advTwice
    rw [if_pos (by unfold P; simp only [List.cons_append, List.nil_append, List.length_cons]; omega)]
    change (Str.rd (x :: (b ++ T)) 0 >>= _) = _
    rw [rd_zero, R.ok_bind, if_pos rfl]
    exact congrArg Except.ok (P_drop T x b)

theorem advLength_cons (T : List Chr) (c : Chr) (t : List Chr) : advLength (P T (c :: t)) =
    (if c = 122#8 ∨ c = 116#8 ∨ c = 106#8 ∨ c = 76#8 then .ok (P T t)
    else if c = 104#8 then advTwice 104#8 (P T t)
    else if c = 108#8 then advTwice 108#8 (P T t)
    else .ok (P T (c :: t))) := by
  unfold advLength
  rw [if_pos (by unfold P; simp only [List.length_cons]; omega)]
  change (Str.rd (c :: (t ++ T)) 0 >>= _) = _
  rw [rd_zero, R.ok_bind, P_drop]
  rfl

theorem advLength_ok (T m : List Chr) (c : Chr) (r : List Chr) (hm : Length m) (hc : c ∉ [122#8, 116#8, 106#8, 76#8, 104#8, 108#8]) :
    advLength (P T (m ++ c :: r)) = .ok (P T (c :: r)) := by
  have hh : (c :: r).head? ≠ some 104#8 := fun e => hc (by rw [Option.some.inj e]; decide)
  have hl : (c :: r).head? ≠ some 108#8 := fun e => hc (by rw [Option.some.inj e]; decide)
  unfold Length at hm
  simp only [List.mem_cons, List.not_mem_nil, or_false] at hm
  rcases hm with rfl | rfl | rfl | rfl | rfl | rfl | rfl | rfl | rfl
  · simp only [List.mem_cons, List.not_mem_nil, or_false, not_or] at hc
    rw [List.nil_append, advLength_cons, if_neg (by rintro (e | e | e | e) <;> simp_all), if_neg hc.2.2.2.2.1, if_neg hc.2.2.2.2.2]
  · exact advLength_cons T _ _
  · exact advLength_cons T _ _
  · exact advLength_cons T _ _
  · exact advLength_cons T _ _
  · change advLength (P T (104#8 :: (c :: r))) = _
    rw [advLength_cons, if_neg (by decide), if_pos rfl]
    exact advTwice_ok T _ [] _ (Or.inl rfl) fun _ => hh
  · change advLength (P T (104#8 :: (104#8 :: (c :: r)))) = _
    rw [advLength_cons, if_neg (by decide), if_pos rfl]
    exact advTwice_ok T _ [104#8] _ (Or.inr rfl) (fun e => nomatch e)
  · change advLength (P T (108#8 :: (c :: r))) = _
    rw [advLength_cons, if_neg (by decide), if_neg (by decide), if_pos rfl]
    exact advTwice_ok T _ [] _ (Or.inl rfl) fun _ => hl
  · change advLength (P T (108#8 :: (108#8 :: (c :: r)))) = _
    rw [advLength_cons, if_neg (by decide), if_neg (by decide), if_pos rfl]
    exact advTwice_ok T _ [108#8] _ (Or.inr rfl) (fun e => nomatch e)

theorem advTwice_cases (T : List Chr) (x : Chr) (s : List Chr) : ∃ m b, s = m ++ b ∧ (m = [] ∨ m = [x]) ∧ advTwice x (P T s) = .ok (P T b) := by
  by_cases h : s.head? = some x
  · cases s with
    | nil => cases h
    | cons c t =>
      have : c = x := Option.some.inj h
      subst this
      exact ⟨[c], t, rfl, Or.inr rfl, advTwice_ok T c [c] t (Or.inr rfl) (fun e => nomatch e)⟩
  · exact ⟨[], s, rfl, Or.inl rfl, advTwice_ok T x [] s (Or.inl rfl) fun _ => h⟩

theorem advLength_cases (T s : List Chr) : ∃ m b, s = m ++ b ∧ Length m ∧ advLength (P T s) = .ok (P T b) := by
  cases s with
  | nil => exact ⟨[], [], rfl, by unfold Length; decide, rfl⟩
  | cons c t =>
    rw [advLength_cons]
    by_cases e1 : c = 122#8 ∨ c = 116#8 ∨ c = 106#8 ∨ c = 76#8
    · rw [if_pos e1]
      refine ⟨[c], t, rfl, ?_, rfl⟩
      rcases e1 with rfl | rfl | rfl | rfl <;> (unfold Length; decide)
    · rw [if_neg e1]
      by_cases e2 : c = 104#8
      · subst e2
        rw [if_pos rfl]
        obtain ⟨m, b, h1, h2, h3⟩ := advTwice_cases T 104#8 t
        refine ⟨104#8 :: m, b, by rw [h1]; rfl, ?_, h3⟩
        rcases h2 with rfl | rfl <;> (unfold Length; decide)
      · rw [if_neg e2]
        by_cases e3 : c = 108#8
        · subst e3
          rw [if_pos rfl]
          obtain ⟨m, b, h1, h2, h3⟩ := advTwice_cases T 108#8 t
          refine ⟨108#8 :: m, b, by rw [h1]; rfl, ?_, h3⟩
          rcases h2 with rfl | rfl <;> (unfold Length; decide)
        · rw [if_neg e3]
          exact ⟨[], c :: t, rfl, by unfold Length; decide, rfl⟩

theorem advConv_ok (T : List Chr) (c : Chr) (r : List Chr) (hc : Conv c) : advConv (P T (c :: r)) = .ok (P T r) := by
  unfold advConv
  change (Str.rd (c :: (r ++ T)) 0 >>= _) = _
  rw [rd_zero, R.ok_bind, if_pos ((isConv_iff c).mpr hc), P_drop]
  rfl

theorem advConv_cases (rest s : List Chr) :
    (∃ c r, s = c :: r ∧ Conv c ∧ advConv (P (0#8 :: rest) s) = .ok (P (0#8 :: rest) r)) ∨ advConv (P (0#8 :: rest) s) = .error .assert := by
  cases s with
  | nil =>
    refine Or.inr ?_
    unfold advConv
    change (Str.rd (0#8 :: rest) 0 >>= _) = _
    rw [rd_zero, R.ok_bind, if_neg (by decide)]
  | cons c r =>
    by_cases e : isConv c = true
    · exact Or.inl ⟨c, r, rfl, (isConv_iff c).mp e, advConv_ok _ c r ((isConv_iff c).mp e)⟩
    · refine Or.inr ?_
      unfold advConv
      change (Str.rd (c :: (r ++ _)) 0 >>= _) = _
      rw [rd_zero, R.ok_bind, if_neg e]

/-- A specification is passed over. -/
theorem advPrintf_ok (T sp r : List Chr) (h : PrintfSpec sp) : advPrintf (P T (sp ++ r)) = .ok (P T r) := by
  obtain ⟨fl, w, p, m, c, rfl, h1, h2, h3, h4, h5⟩ := h
  have hc := conv_props c h5
  -- what the rests begin with
  have hm : ∀ x, (m ++ c :: r).head? = some x → ¬ Flag x ∧ ¬ IsDigit x ∧ x ≠ 42#8 ∧ x ≠ 46#8 := by
    intro x hx
    cases m with
    | nil =>
      have : c = x := Option.some.inj hx
      subst this
      exact ⟨hc.1, hc.2.1, hc.2.2.1, hc.2.2.2.1⟩
    | cons y m =>
      have : y = x := Option.some.inj hx
      subst this
      refine len_props y ?_
      unfold Length at h4
      simp only [List.mem_cons, List.not_mem_nil, or_false, List.cons.injEq, reduceCtorEq, false_or] at h4 ⊢
      rcases h4 with ⟨e, _⟩ | ⟨e, _⟩ | ⟨e, _⟩ | ⟨e, _⟩ | ⟨e, _⟩ | ⟨e, _⟩ | ⟨e, _⟩ | ⟨e, _⟩ <;> simp [e]
  have hp : ∀ x, (p ++ (m ++ c :: r)).head? = some x → ¬ Flag x ∧ ¬ IsDigit x ∧ x ≠ 42#8 := by
    intro x hx
    rcases h3 with rfl | rfl | ⟨ds, rfl, _⟩
    · exact ⟨(hm x hx).1, (hm x hx).2.1, (hm x hx).2.2.1⟩
    · rw [← Option.some.inj hx]; unfold Flag IsDigit; decide
    · rw [← Option.some.inj hx]; unfold Flag IsDigit; decide
  have hw : ∀ x, (w ++ (p ++ (m ++ c :: r))).head? = some x → ¬ Flag x := by
    intro x hx
    cases w with
    | nil => exact (hp x hx).1
    | cons y w =>
      have : y = x := Option.some.inj hx
      subst this
      rcases h2 with e | ⟨e, e0⟩
      · have : y = 42#8 := (List.cons.inj e).1
        rw [this]; unfold Flag; decide
      · exact flag_digit (e y List.mem_cons_self) fun g => e0 (by rw [g]; rfl)
  have e : fl ++ (w ++ (p ++ (m ++ [c]))) ++ r = fl ++ (w ++ (p ++ (m ++ c :: r))) := by
    simp only [List.append_assoc, List.cons_append, List.nil_append]
  rw [e]
  unfold advPrintf
  have hsk := skipWhile_ok isFlag T fl (w ++ (p ++ (m ++ c :: r))) (fun x hx => (isFlag_iff x).mpr (h1 x hx))
    (fun x hx => Bool.eq_false_iff.mpr fun g => hw x hx ((isFlag_iff x).mp g))
  change (skipWhile isFlag (fl ++ (w ++ (p ++ (m ++ c :: r))) ++ T) _ >>= advWidth >>= advPrecision >>= advLength >>= advConv) = _
  have hsk' : skipWhile isFlag (fl ++ (w ++ (p ++ (m ++ c :: r))) ++ T) (P T (fl ++ (w ++ (p ++ (m ++ c :: r))))).2 = .ok (P T (w ++ (p ++ (m ++ c :: r)))) := hsk
  rw [hsk', R.ok_bind, advWidth_ok T w _ h2 (fun x hx => ⟨(hp x hx).2.1, (hp x hx).2.2⟩), R.ok_bind,
    advPrecision_ok T p _ h3 (fun x hx => ⟨(hm x hx).2.1, (hm x hx).2.2.2⟩), R.ok_bind, advLength_ok T m c r h4 hc.2.2.2.2, R.ok_bind]
  exact advConv_ok T c r h5

/-- In a zero-terminated text, only specifications are passed over, and everything else fails a contract. -/
theorem advPrintf_cases (rest s : List Chr) :
    (∃ sp r, s = sp ++ r ∧ PrintfSpec sp ∧ advPrintf (P (0#8 :: rest) s) = .ok (P (0#8 :: rest) r)) ∨
    advPrintf (P (0#8 :: rest) s) = .error .assert := by
  obtain ⟨fl, s1, e1, h1, h1'⟩ := split_while isFlag s
  have hsk := skipWhile_ok isFlag (0#8 :: rest) fl s1 h1 h1'
  obtain ⟨w, s2, e2, h2, k2⟩ := advWidth_cases (0#8 :: rest) s1 (fun g => by
    have := h1' _ g
    exact absurd this (by decide))
  have k1 : skipWhile isFlag (P (0#8 :: rest) s).1 (P (0#8 :: rest) s).2 = .ok (P (0#8 :: rest) s1) := by
    rw [e1]; exact hsk
  unfold advPrintf
  rw [k1, R.ok_bind, k2, R.ok_bind]
  rcases advPrecision_cases (0#8 :: rest) s2 with ⟨p, s3, e3, h3, k3⟩ | k3
  · rw [k3, R.ok_bind]
    obtain ⟨m, s4, e4, h4, k4⟩ := advLength_cases (0#8 :: rest) s3
    rw [k4, R.ok_bind]
    rcases advConv_cases rest s4 with ⟨c, r, e5, h5, k5⟩ | k5
    · refine Or.inl ⟨fl ++ (w ++ (p ++ (m ++ [c]))), r, ?_, ⟨fl, w, p, m, c, rfl, fun x hx => (isFlag_iff x).mp (h1 x hx), h2, h3, h4, h5⟩, k5⟩
      rw [e1, e2, e3, e4, e5]
      simp only [List.append_assoc, List.cons_append, List.nil_append]
    · exact Or.inr k5
  · rw [k3]
    exact Or.inr rfl

theorem printf_ne_nil {sp : List Chr} (h : PrintfSpec sp) : sp ≠ [] := by
  obtain ⟨fl, w, p, m, c, rfl, _⟩ := h
  simp

end Verif.Format
