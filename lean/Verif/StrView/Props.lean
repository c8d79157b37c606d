import Verif.StrView.Lemmas
/-!
# C42, C44: searching, comparing and subviews of `cc::string_view`
-/
namespace Verif.StrView
open Spec

/-! ### Comparison -/

/-- C42: equality, inequality and `equals` compare the character sequences. -/
theorem C42_equality {a b : View} (ha : a.Inside) (hb : b.Inside) :
    a.eq b = .ok (decide (a.chars = b.chars)) ∧ a.ne b = .ok (decide (a.chars ≠ b.chars)) := by
  refine ⟨eq_ok ha hb, ?_⟩
  unfold View.ne
  by_cases e : a.size = b.size
  · rw [if_neg (by simpa using e)]
    have hl : a.chars.length = b.chars.length := by rw [chars_length ha, chars_length hb, e]
    have := neLoop_ok ha hb a.chars b.chars 0 (List.drop_zero ..) (List.drop_zero ..) hl
    rw [chars_length ha] at this
    exact this
  · rw [if_pos (by simpa using e)]
    have : a.chars ≠ b.chars := fun h => e (by rw [← chars_length ha, ← chars_length hb, h])
    rw [decide_eq_true this]
    rfl

example : (View.mk [1#8, 2#8, 1#8, 2#8] 0 2).eq (View.mk [1#8, 2#8, 1#8, 2#8] 2 2) = .ok true ∧
    (View.mk [1#8, 2#8, 1#8, 2#8] 0 2).ne (View.mk [1#8, 2#8, 1#8, 2#8] 1 2) = .ok true := by decide +kernel

theorem toLower_eq (c : Chr) : toLower c = lowerChr c := by
  have h : ∀ c : Fin 256, toLower (BitVec.ofFin c) = lowerChr (BitVec.ofFin c) := by decide +kernel
  exact h c.toFin

theorem cmpIgnoreCase_iff (a b : Chr) : cmpIgnoreCase a b = true ↔ lowerChr a = lowerChr b := by
  unfold cmpIgnoreCase
  rw [toLower_eq, toLower_eq, Bool.or_eq_true, beq_iff_eq, beq_iff_eq]
  exact ⟨fun h => h.elim (fun h => by rw [h]) id, Or.inr⟩

theorem zip_all_lower {la lb : List Chr} (hl : la.length = lb.length) :
    ((la.zip lb).all fun p => cmpIgnoreCase p.1 p.2) = decide (la.map lowerChr = lb.map lowerChr) := by
  induction la generalizing lb with
  | nil => cases lb with
    | nil => rfl
    | cons _ _ => exact absurd hl (by simp)
  | cons x t ih =>
    cases lb with
    | nil => exact absurd hl (by simp)
    | cons y u =>
      have hl' : t.length = u.length := by simpa using hl
      rw [List.zip_cons_cons, List.all_cons, ih hl']
      by_cases e : lowerChr x = lowerChr y
      · simp [(cmpIgnoreCase_iff x y).mpr e, e]
      · have : cmpIgnoreCase x y = false := by
          cases h : cmpIgnoreCase x y with
          | false => rfl
          | true => exact absurd ((cmpIgnoreCase_iff x y).mp h) e
        simp [this, e]

/-- C42: comparison without regard to case compares the sequences with their upper-case letters lowered. -/
theorem C42_equals_ignore_case {a b : View} (ha : a.Inside) (hb : b.Inside) :
    a.equalsIgnoreCase b = .ok (decide (a.chars.map lowerChr = b.chars.map lowerChr)) := by
  unfold View.equalsIgnoreCase View.equals
  by_cases e : a.size = b.size
  · rw [if_neg (by simpa using e)]
    have hl : a.chars.length = b.chars.length := by rw [chars_length ha, chars_length hb, e]
    have := equalsLoop_ok (cmp := cmpIgnoreCase) ha hb a.chars b.chars 0 (List.drop_zero ..) (List.drop_zero ..) hl
    rw [chars_length ha] at this
    rw [this, zip_all_lower hl]
  · rw [if_pos (by simpa using e)]
    have : ¬ a.chars.map lowerChr = b.chars.map lowerChr := fun h => e (by
      have := congrArg List.length h
      rwa [List.length_map, List.length_map, chars_length ha, chars_length hb] at this)
    rw [decide_eq_false this]
    rfl

example : (View.mk [0x41#8, 0x62#8] 0 2).equalsIgnoreCase (View.mk [0x61#8, 0x42#8] 0 2) = .ok true ∧
    (View.mk [0x40#8] 0 1).equalsIgnoreCase (View.mk [0x60#8] 0 1) = .ok false := by decide +kernel

theorem min_eq (a b : Nat) : (if a < b then a else b) = Nat.min a b := by
  change _ = min a b
  split <;> omega

/-- C42: `is_lexicographically_less_than` is the lexicographic order of the sequences (by the signed value
of the characters). -/
theorem C42_lexicographic {a b : View} (ha : a.Inside) (hb : b.Inside) :
    ∃ r, a.lexLess b = .ok r ∧ (r = true ↔ LexLt (fun x y => x.toInt < y.toInt) a.chars b.chars) := by
  unfold View.lexLess
  rw [min_eq, ← chars_length ha, ← chars_length hb]
  exact lessLoop_ok ha hb _ _ 0 (List.drop_zero ..) (List.drop_zero ..) (by rw [chars_length ha]; omega)
    (by rw [chars_length hb]; omega)

example : (View.mk [97#8, 98#8, 99#8] 0 2).lexLess (View.mk [97#8, 98#8, 99#8] 0 3) = .ok true ∧
    (View.mk [97#8, 98#8, 99#8] 0 3).lexLess (View.mk [97#8, 99#8] 0 2) = .ok true ∧
    (View.mk [97#8, 98#8, 99#8] 0 3).lexLess (View.mk [97#8, 98#8, 99#8] 0 2) = .ok false := by decide +kernel

theorem lexLt_trichotomy (lt : Chr → Chr → Prop) (hirr : ∀ x, ¬ lt x x) (htot : ∀ x y, x ≠ y → lt x y ∨ lt y x)
    (a b : List Chr) : LexLt lt a b ∨ a = b ∨ LexLt lt b a := by
  induction a generalizing b with
  | nil =>
    cases b with
    | nil => exact Or.inr (Or.inl rfl)
    | cons y t => exact Or.inl (lexLt_nil_left.mpr (by simp))
  | cons x t ih =>
    cases b with
    | nil => exact Or.inr (Or.inr (lexLt_nil_left.mpr (by simp)))
    | cons y u =>
      rw [lexLt_cons hirr, lexLt_cons hirr]
      by_cases e : x = y
      · subst e
        rcases ih u with h | h | h
        · exact Or.inl (Or.inr ⟨rfl, h⟩)
        · exact Or.inr (Or.inl (by rw [h]))
        · exact Or.inr (Or.inr (Or.inr ⟨rfl, h⟩))
      · rcases htot x y e with h | h
        · exact Or.inl (Or.inl h)
        · exact Or.inr (Or.inr (Or.inl h))

theorem lexLt_trans {lt : Chr → Chr → Prop} (hirr : ∀ x, ¬ lt x x) (htr : ∀ x y z, lt x y → lt y z → lt x z)
    (a b c : List Chr) (h1 : LexLt lt a b) (h2 : LexLt lt b c) : LexLt lt a c := by
  induction a generalizing b c with
  | nil =>
    cases c with
    | nil => exact absurd h2 (not_lexLt_nil _)
    | cons _ _ => exact lexLt_nil_left.mpr (by simp)
  | cons x t ih =>
    cases b with
    | nil => exact absurd h1 (not_lexLt_nil _)
    | cons y u =>
      cases c with
      | nil => exact absurd h2 (not_lexLt_nil _)
      | cons z w =>
        rw [lexLt_cons hirr] at h1 h2 ⊢
        rcases h1 with h1 | ⟨rfl, h1⟩
        · rcases h2 with h2 | ⟨rfl, h2⟩
          · exact Or.inl (htr _ _ _ h1 h2)
          · exact Or.inl h1
        · rcases h2 with h2 | ⟨rfl, h2⟩
          · exact Or.inl h2
          · exact Or.inr ⟨rfl, ih u w h1 h2⟩

/-- C42: `is_lexicographically_less_than` is a strict total order on contents. -/
theorem C42_lexicographic_total {a b c : View} (ha : a.Inside) (hb : b.Inside) (hc : c.Inside) :
    (a.lexLess b = .ok true → b.lexLess a = .ok false) ∧
    (a.lexLess b = .ok true → b.lexLess c = .ok true → a.lexLess c = .ok true) ∧
    (a.lexLess b = .ok true ∨ a.eq b = .ok true ∨ b.lexLess a = .ok true) := by
  have hirr : ∀ x : Chr, ¬ x.toInt < x.toInt := fun x => Int.lt_irrefl _
  have htr : ∀ x y z : Chr, x.toInt < y.toInt → y.toInt < z.toInt → x.toInt < z.toInt := fun x y z => Int.lt_trans
  obtain ⟨r1, e1, q1⟩ := C42_lexicographic ha hb
  obtain ⟨r2, e2, q2⟩ := C42_lexicographic hb ha
  obtain ⟨r3, e3, q3⟩ := C42_lexicographic hb hc
  obtain ⟨r4, e4, q4⟩ := C42_lexicographic ha hc
  rw [e1, e2, e3, e4, eq_ok ha hb]
  simp only [Except.ok.injEq, decide_eq_true_eq]
  rw [q1, q3, q4, q2]
  refine ⟨fun h => ?_, fun h h' => lexLt_trans hirr htr _ _ _ h h', ?_⟩
  · cases r2 with
    | false => rfl
    | true => exact absurd (lexLt_trans hirr htr _ _ _ h (q2.mp rfl)) (lexLt_irrefl hirr _)
  · refine lexLt_trichotomy _ hirr (fun x y hne => ?_) _ _
    rcases Int.lt_trichotomy x.toInt y.toInt with h | h | h
    · exact Or.inl h
    · exact absurd (BitVec.eq_of_toInt_eq h) hne
    · exact Or.inr h

/-- C42: on text without zero characters `ascii_lexicographical_less` is the lexicographic order of the sequences
(by the unsigned value of the characters). -/
theorem C42_ascii_less_partial {a b : View} (ha : a.Inside) (hb : b.Inside) (hz : ∀ c ∈ a.chars, c ≠ 0#8) :
    ∃ r, asciiLess a b = .ok r ∧ (r = true ↔ LexLt (fun x y => x.toNat < y.toNat) a.chars b.chars) := by
  have hirr : ∀ x : Chr, ¬ x.toNat < x.toNat := fun x => Nat.lt_irrefl _
  obtain ⟨cmp, h1, h2⟩ := strncmp_ok ha hb a.chars b.chars 0 (List.drop_zero ..) (List.drop_zero ..) hz
  have hlen1 := chars_length ha
  have hlen2 := chars_length hb
  unfold asciiLess
  rw [min_eq, ← hlen1, ← hlen2, h1, R.ok_bind]
  rcases h2 with ⟨rfl, hp⟩ | ⟨h0, p, x, y, s, t, q1, q2, q3, q4⟩
  · refine ⟨decide (a.chars.length < b.chars.length), by rw [if_pos rfl]; rfl, ?_⟩
    rw [decide_eq_true_eq]
    rcases hp with ⟨w, hw⟩ | ⟨w, hw⟩
    · rw [← hw]
      cases w with
      | nil =>
        rw [List.append_nil]
        exact ⟨fun h => by omega, fun h => absurd h (lexLt_irrefl hirr _)⟩
      | cons z w => exact ⟨fun _ => Or.inl ⟨z, w, rfl⟩, fun _ => by rw [List.length_append, List.length_cons]; omega⟩
    · rw [← hw]
      refine ⟨fun h => by rw [List.length_append] at h; omega, fun h => ?_⟩
      exfalso
      generalize b.chars = l at h
      clear hw
      induction l with
      | nil => exact not_lexLt_nil _ h
      | cons z l ih =>
        rw [List.cons_append, lexLt_cons hirr] at h
        rcases h with h | ⟨_, h⟩
        · exact hirr _ h
        · exact ih h
  · refine ⟨decide (cmp < 0), by rw [if_neg h0]; rfl, ?_⟩
    rw [decide_eq_true_eq, q4, q1, q2]
    constructor
    · exact fun h => Or.inr ⟨p, x, y, s, t, rfl, rfl, h⟩
    · clear q1 q2
      induction p with
      | nil =>
        intro h
        rw [List.nil_append, List.nil_append, lexLt_cons hirr] at h
        rcases h with h | ⟨h, _⟩
        · exact h
        · exact absurd h q3
      | cons z p ih =>
        intro h
        rw [List.cons_append, List.cons_append, lexLt_cons hirr] at h
        rcases h with h | ⟨_, h⟩
        · exact absurd h (hirr _)
        · exact ih h

example : asciiLess (View.mk [97#8, 98#8] 0 2) (View.mk [97#8, 99#8] 0 2) = .ok true ∧
    asciiLess (View.mk [97#8, 98#8] 0 2) (View.mk [97#8, 98#8] 0 2) = .ok false := by decide +kernel

/-- Behind a zero character the comparison does not look: neither of two different texts comes before the other. -/
theorem C42_ascii_less_stops_at_zero :
    asciiLess (View.mk [97#8, 0#8, 98#8] 0 3) (View.mk [97#8, 0#8, 99#8] 0 3) = .ok false ∧
    asciiLess (View.mk [97#8, 0#8, 99#8] 0 3) (View.mk [97#8, 0#8, 98#8] 0 3) = .ok false ∧
    LexLt (fun x y => x.toNat < y.toNat) (View.mk [97#8, 0#8, 98#8] 0 3).chars (View.mk [97#8, 0#8, 99#8] 0 3).chars :=
  ⟨by decide +kernel, by decide +kernel, Or.inr ⟨[97#8, 0#8], 98#8, 99#8, [], [], rfl, rfl, by decide⟩⟩

/-! ### Searching -/

/-- C42: `contains(char)` says whether the character is in the sequence. -/
theorem C42_contains_char {v : View} (h : v.Inside) (c : Chr) : v.containsChar c = .ok (decide (c ∈ v.chars)) := by
  have := containsCharLoop_ok h c v.chars 0 (List.drop_zero ..)
  rwa [chars_length h] at this

example : (View.mk [1#8, 2#8, 3#8] 1 2).containsChar 3#8 = .ok true ∧ (View.mk [1#8, 2#8, 3#8] 1 2).containsChar 1#8 = .ok false := by
  decide +kernel

theorem subview_ok {v : View} (h : v.Inside) {i n : Nat} (hi : i + n ≤ v.size) :
    v.subview i n = .ok ⟨v.mem, v.off + i, n⟩ := by
  have := size_lt h
  unfold View.subview
  rw [ccAssert_true (decide_eq_true (by omega)), R.ok_bind,
    ccAssert_true (decide_eq_true (by rw [Nat.mod_eq_of_lt (by omega)]; exact hi)), R.ok_bind]
  rfl

theorem containsLoop_ok {eqf : View → View → R Bool} {v s : View} (hv : v.Inside) (hle : s.size ≤ v.size) (P : List Chr → Prop)
    (hP : ∀ w : View, w.Inside → ∃ e, eqf w s = .ok e ∧ (e = true ↔ P w.chars)) (n i : Nat)
    (hn : i + n = v.size - s.size + 1) :
    ∃ r, containsLoop eqf v s n i = .ok r ∧
      (r = true ↔ ∃ k, i ≤ k ∧ k + s.size ≤ v.size ∧ P ((v.chars.drop k).take s.size)) := by
  induction n generalizing i with
  | zero => exact ⟨false, rfl, ⟨(fun h => nomatch h), fun ⟨k, a, b, _⟩ => by omega⟩⟩
  | succ n ih =>
    have hi : i + s.size ≤ v.size := by omega
    obtain ⟨e, he, hPe⟩ := hP ⟨v.mem, v.off + i, s.size⟩ (sub_inside hv hi)
    rw [sub_chars hi] at hPe
    rw [containsLoop, subview_ok hv hi, R.ok_bind, he, R.ok_bind]
    cases e with
    | true => exact ⟨true, rfl, ⟨fun _ => ⟨i, Nat.le_refl _, hi, hPe.mp rfl⟩, fun _ => rfl⟩⟩
    | false =>
      obtain ⟨r, hr, h⟩ := ih (i + 1) (by omega)
      refine ⟨r, by simpa using hr, h.trans ⟨fun ⟨k, a, b, c⟩ => ⟨k, by omega, b, c⟩, fun ⟨k, a, b, c⟩ => ?_⟩⟩
      rcases Nat.eq_or_lt_of_le a with q | q
      · subst q
        exact nomatch hPe.mpr c
      · exact ⟨k, q, b, c⟩

/-- C42: `contains` says whether the needle occurs somewhere (an empty needle always does). -/
theorem C42_contains {v s : View} (hv : v.Inside) (hs : s.Inside) :
    ∃ r, v.contains s = .ok r ∧ (r = true ↔ ∃ i, OccursAt v.chars s.chars i) := by
  unfold View.contains
  by_cases c : s.size > v.size
  · rw [if_pos c]
    refine ⟨false, rfl, ⟨(fun h => nomatch h), fun ⟨i, h⟩ => ?_⟩⟩
    have := (occursAt_iff.mp h).1
    rw [chars_length hv, chars_length hs] at this
    omega
  · rw [if_neg c]
    obtain ⟨r, hr, h⟩ := containsLoop_ok (eqf := View.eq) (s := s) hv (by omega) (fun l => l = s.chars)
      (fun w hw => ⟨_, eq_ok hw hs, decide_eq_true_iff⟩) (v.size - s.size + 1) 0 (by omega)
    refine ⟨r, hr, h.trans ⟨fun ⟨k, _, a, b⟩ => ⟨k, ?_⟩, fun ⟨k, a⟩ => ⟨k, Nat.zero_le _, ?_⟩⟩⟩
    · rw [occursAt_drop_take, chars_length hv, chars_length hs]; exact ⟨a, b⟩
    · rw [occursAt_drop_take, chars_length hv, chars_length hs] at a; exact a

example : (View.mk [1#8, 1#8, 2#8] 0 3).contains (View.mk [1#8, 2#8] 0 2) = .ok true ∧
    (View.mk [1#8, 1#8, 2#8] 0 3).contains (View.mk [] 0 0) = .ok true ∧
    (View.mk [1#8, 1#8, 2#8] 0 2).contains (View.mk [1#8, 2#8] 0 2) = .ok false := by decide +kernel

/-- C42: `contains_ignore_case` says whether the lowered needle occurs in the lowered text. -/
theorem C42_contains_ignore_case {v s : View} (hv : v.Inside) (hs : s.Inside) :
    ∃ r, v.containsIgnoreCase s = .ok r ∧
      (r = true ↔ ∃ i, OccursAt (v.chars.map lowerChr) (s.chars.map lowerChr) i) := by
  unfold View.containsIgnoreCase
  by_cases c : s.size > v.size
  · rw [if_pos c]
    refine ⟨false, rfl, ⟨(fun h => nomatch h), fun ⟨i, h⟩ => ?_⟩⟩
    have := (occursAt_iff.mp h).1
    rw [List.length_map, List.length_map, chars_length hv, chars_length hs] at this
    omega
  · rw [if_neg c]
    obtain ⟨r, hr, h⟩ := containsLoop_ok (eqf := View.equalsIgnoreCase) (s := s) hv (by omega)
      (fun l => l.map lowerChr = s.chars.map lowerChr)
      (fun w hw => ⟨_, C42_equals_ignore_case hw hs, decide_eq_true_iff⟩) (v.size - s.size + 1) 0 (by omega)
    refine ⟨r, hr, h.trans ⟨fun ⟨k, _, a, b⟩ => ⟨k, ?_⟩, fun ⟨k, a⟩ => ⟨k, Nat.zero_le _, ?_⟩⟩⟩
    · rw [occursAt_drop_take, List.length_map, List.length_map, chars_length hv, chars_length hs, ← List.map_drop, ← List.map_take]
      exact ⟨a, b⟩
    · rw [occursAt_drop_take, List.length_map, List.length_map, chars_length hv, chars_length hs, ← List.map_drop,
        ← List.map_take] at a
      exact a

example : (View.mk [0x41#8, 0x61#8, 0x62#8] 0 3).containsIgnoreCase (View.mk [0x41#8, 0x42#8] 0 2) = .ok true := by decide +kernel

/-- C42: `index_of(char)` is the first position of the character, -1 if there is none. -/
theorem C42_index_of_char {v : View} (h : v.Inside) (c : Chr) :
    ∃ r, v.indexOfChar c = .ok r ∧ FirstIndex (fun i => v.chars[i]? = some c) r := by
  obtain ⟨r, hr, hi⟩ := indexOfCharLoop_ok h c v.chars 0 (List.drop_zero ..)
  rw [chars_length h] at hr
  refine ⟨r, hr, ?_⟩
  rcases hi with ⟨h1, h2⟩ | ⟨k, h1, h2, h3⟩
  · exact Or.inl ⟨h1, fun k hk => h2 (List.mem_of_getElem? hk)⟩
  · exact Or.inr ⟨k, by rw [h1, Nat.zero_add], h2, h3⟩

example : (View.mk [1#8, 2#8, 2#8] 0 3).indexOfChar 2#8 = .ok 1 ∧ (View.mk [1#8, 2#8, 2#8] 0 3).indexOfChar 3#8 = .ok (-1) := by
  decide +kernel

/-- C42: `last_index_of(char)` is the last position of the character, -1 if there is none. -/
theorem C42_last_index_of_char {v : View} (h : v.Inside) (c : Chr) :
    ∃ r, v.lastIndexOfChar c = .ok r ∧ LastIndex (fun i => v.chars[i]? = some c) r := by
  obtain ⟨r, hr, hi⟩ := lastIndexOfCharLoop_ok h c v.size (Nat.le_refl _)
  refine ⟨r, hr, ?_⟩
  have hlt : ∀ k, v.chars[k]? = some c → k < v.size := fun k hk => by
    have := (List.getElem?_eq_some_iff.mp hk).1
    rwa [chars_length h] at this
  rcases hi with ⟨h1, h2⟩ | ⟨k, h1, _, h2, h3⟩
  · exact Or.inl ⟨h1, fun k hk => h2 k (hlt k hk) hk⟩
  · exact Or.inr ⟨k, h1, h2, fun j hj hk => h3 j hj (hlt j hk) hk⟩

example : (View.mk [2#8, 1#8, 2#8, 1#8] 0 4).lastIndexOfChar 2#8 = .ok 2 ∧ (View.mk [2#8] 0 1).lastIndexOfChar 3#8 = .ok (-1) := by
  decide +kernel

/-- C42: `index_of` is the first position where the needle stands, -1 if there is none; an empty needle is refused. -/
theorem C42_index_of {v s : View} (hv : v.Inside) (hs : s.Inside) :
    (s.size = 0 → v.indexOf s = .error .assert) ∧
    (s.size ≠ 0 → ∃ r, v.indexOf s = .ok r ∧ FirstIndex (OccursAt v.chars s.chars) r) := by
  constructor
  · intro h
    unfold View.indexOf
    rw [ccAssert_false (by simp [h]), R.error_bind]
  · intro h
    unfold View.indexOf
    rw [ccAssert_true (decide_eq_true h), R.ok_bind]
    by_cases c : s.size > v.size
    · rw [if_pos c]
      refine ⟨-1, rfl, Or.inl ⟨rfl, fun k hk => ?_⟩⟩
      have := (occursAt_iff.mp hk).1
      rw [chars_length hv, chars_length hs] at this
      omega
    · rw [if_neg c]
      obtain ⟨r, hr, hi⟩ := indexLoop_ok hv hs h (by omega) (v.size - s.size + 1) 0 (by omega)
      refine ⟨r, hr, ?_⟩
      rcases hi with ⟨h1, h2⟩ | ⟨k, h1, _, h2, h3⟩
      · exact Or.inl ⟨h1, fun k => h2 k (Nat.zero_le _)⟩
      · exact Or.inr ⟨k, h1, h2, fun j => h3 j (Nat.zero_le _)⟩

example : (View.mk [1#8, 1#8, 2#8, 1#8, 2#8] 0 5).indexOf (View.mk [1#8, 2#8] 0 2) = .ok 1 := by decide +kernel

/-- C42: `last_index_of` is the last position where the needle stands, -1 if there is none; an empty needle is refused. -/
theorem C42_last_index_of {v s : View} (hv : v.Inside) (hs : s.Inside) :
    (s.size = 0 → v.lastIndexOf s = .error .assert) ∧
    (s.size ≠ 0 → ∃ r, v.lastIndexOf s = .ok r ∧ LastIndex (OccursAt v.chars s.chars) r) := by
  have hfit : ∀ k, OccursAt v.chars s.chars k → k + s.size ≤ v.size := fun k hk => by
    have := (occursAt_iff.mp hk).1
    rwa [chars_length hv, chars_length hs] at this
  constructor
  · intro h
    unfold View.lastIndexOf
    rw [ccAssert_false (by simp [h]), R.error_bind]
  · intro h
    unfold View.lastIndexOf
    rw [ccAssert_true (decide_eq_true h), R.ok_bind]
    by_cases c : s.size > v.size
    · rw [if_pos c]
      refine ⟨-1, rfl, Or.inl ⟨rfl, fun k hk => ?_⟩⟩
      have := hfit k hk
      omega
    · rw [if_neg c]
      obtain ⟨r, hr, hi⟩ := lastIndexLoop_ok hv hs h (by omega) (v.size - s.size + 1) 0 (by omega)
      refine ⟨r, hr, ?_⟩
      rcases hi with ⟨h1, h2⟩ | ⟨k, h1, h2, h3⟩
      · exact Or.inl ⟨h1, fun k hk => h2 k (by have := hfit k hk; omega) hk⟩
      · exact Or.inr ⟨k, h1, h2, fun j a b => h3 j (by have := hfit j b; omega) a b⟩

example : (View.mk [1#8, 1#8, 2#8, 1#8, 2#8] 0 5).lastIndexOf (View.mk [1#8, 2#8] 0 2) = .ok 3 := by decide +kernel

theorem nextIdx_ok {v s : View} (hv : v.Inside) (hs : s.Inside) (h0 : s.size ≠ 0) (start : Nat) (hst : start ≤ v.size) :
    ∃ r, nextIdx v s start = .ok r ∧
      ((r = -1 ∧ ∀ k, start ≤ k → ¬ OccursAt v.chars s.chars k) ∨
        ∃ k : Nat, r = (k : Int) ∧ start ≤ k ∧ OccursAt v.chars s.chars k ∧
          ∀ j, start ≤ j → j < k → ¬ OccursAt v.chars s.chars j) := by
  unfold nextIdx
  by_cases c : s.size > v.size - start
  · rw [if_pos c]
    refine ⟨-1, rfl, Or.inl ⟨rfl, fun k hk ho => ?_⟩⟩
    have := (occursAt_iff.mp ho).1
    rw [chars_length hv, chars_length hs] at this
    omega
  · rw [if_neg c]
    exact indexLoop_ok hv hs h0 (by omega) _ _ (by omega)

theorem indicesLoop_ok {v s : View} (hv : v.Inside) (hs : s.Inside) (h0 : s.size ≠ 0) (fuel k : Nat)
    (hk : OccursAt v.chars s.chars k) (hf : v.size < fuel + k) :
    ∃ l : List Nat, indicesLoop v s fuel (k : Int) = .ok (l.map Int.ofNat, true) ∧ l.Pairwise (· < ·) ∧
      ∀ i, i ∈ l ↔ (k ≤ i ∧ OccursAt v.chars s.chars i) := by
  have hfit : ∀ k, OccursAt v.chars s.chars k → k + s.size ≤ v.size := fun k hk => by
    have := (occursAt_iff.mp hk).1
    rwa [chars_length hv, chars_length hs] at this
  induction fuel generalizing k with
  | zero => have := hfit k hk; omega
  | succ fuel ih =>
    rw [indicesLoop, if_pos (by omega)]
    have hto : (k : Int).toNat = k := rfl
    rw [hto]
    obtain ⟨r, hr, hi⟩ := nextIdx_ok hv hs h0 (k + 1) (by have := hfit k hk; omega)
    rw [hr, R.ok_bind]
    rcases hi with ⟨rfl, h2⟩ | ⟨k', rfl, h2, h3, h4⟩
    · have hfuel : fuel ≠ 0 := by have := hfit k hk; omega
      obtain ⟨f, rfl⟩ : ∃ f, fuel = f + 1 := ⟨fuel - 1, by omega⟩
      rw [indicesLoop, if_neg (by omega)]
      refine ⟨[k], rfl, List.pairwise_singleton _ _, fun i => ?_⟩
      rw [List.mem_singleton]
      constructor
      · rintro rfl; exact ⟨Nat.le_refl _, hk⟩
      · rintro ⟨a, b⟩
        rcases Nat.eq_or_lt_of_le a with q | q
        · exact q.symm
        · exact absurd b (h2 i q)
    · obtain ⟨l, hl, hp, hm⟩ := ih k' h3 (by omega)
      rw [hl, R.ok_bind]
      refine ⟨k :: l, rfl, List.pairwise_cons.mpr ⟨fun i hi => ?_, hp⟩, fun i => ?_⟩
      · have := ((hm i).mp hi).1; omega
      · rw [List.mem_cons, hm]
        constructor
        · rintro (rfl | ⟨a, b⟩)
          · exact ⟨Nat.le_refl _, hk⟩
          · exact ⟨by omega, b⟩
        · rintro ⟨a, b⟩
          rcases Nat.eq_or_lt_of_le a with q | q
          · exact Or.inl q.symm
          · refine Or.inr ⟨?_, b⟩
            rcases Nat.lt_or_ge i k' with c | c
            · exact absurd b (h4 i q c)
            · exact c

/-- C42: iterating over `all_indices_of` ends and yields, in increasing order, exactly the positions where the
needle stands (overlapping ones included). -/
theorem C42_all_indices_of {v s : View} (hv : v.Inside) (hs : s.Inside) :
    (s.size = 0 → v.allIndicesOf s = .error .assert) ∧
    (s.size ≠ 0 → ∃ l : List Nat, v.allIndicesOf s = .ok (l.map Int.ofNat, true) ∧ l.Pairwise (· < ·) ∧
      ∀ i, i ∈ l ↔ OccursAt v.chars s.chars i) := by
  constructor
  · intro h
    unfold View.allIndicesOf
    rw [ccAssert_false (by simp [h]), R.error_bind]
  · intro h
    unfold View.allIndicesOf
    rw [ccAssert_true (decide_eq_true h), R.ok_bind]
    obtain ⟨r, hr, hi⟩ := nextIdx_ok hv hs h 0 (Nat.zero_le _)
    rw [hr, R.ok_bind]
    rcases hi with ⟨rfl, h2⟩ | ⟨k', rfl, h2, h3, h4⟩
    · rw [indicesLoop, if_neg (by omega)]
      exact ⟨[], rfl, List.Pairwise.nil, fun i => ⟨(fun h => nomatch h), fun h => absurd h (h2 i (Nat.zero_le _))⟩⟩
    · obtain ⟨l, hl, hp, hm⟩ := indicesLoop_ok hv hs h (v.size + 1) k' h3 (by omega)
      refine ⟨l, hl, hp, fun i => (hm i).trans ⟨(·.2), fun b => ⟨?_, b⟩⟩⟩
      rcases Nat.lt_or_ge i k' with c | c
      · exact absurd b (h4 i (Nat.zero_le _) c)
      · exact c

example : (View.mk [1#8, 1#8, 1#8, 2#8, 1#8, 1#8] 0 6).allIndicesOf (View.mk [1#8, 1#8] 0 2) = .ok ([0, 1, 4], true) := by
  decide +kernel

theorem commonLoop_ok {v s : View} (hv : v.Inside) (hs : s.Inside) (la lb : List Chr) (i : Nat)
    (h1 : v.chars.drop i = la) (h2 : s.chars.drop i = lb) :
    ∃ k p, commonLoop v s (Nat.min la.length lb.length) i = .ok (i + k) ∧ p.length = k ∧ p <+: la ∧ p <+: lb ∧
      ∀ q, q <+: la → q <+: lb → q.length ≤ k := by
  induction la generalizing lb i with
  | nil =>
    refine ⟨0, [], ?_, rfl, List.nil_prefix, List.nil_prefix, fun q hq _ => ?_⟩
    · rw [show Nat.min ([] : List Chr).length lb.length = 0 from Nat.zero_min _]; rfl
    · exact hq.length_le
  | cons x t ih =>
    cases lb with
    | nil => exact ⟨0, [], rfl, rfl, List.nil_prefix, List.nil_prefix, fun q _ hq => hq.length_le⟩
    | cons y u =>
      obtain ⟨e1, d1⟩ := drop_cons h1
      obtain ⟨e2, d2⟩ := drop_cons h2
      have hm : Nat.min (x :: t).length (y :: u).length = Nat.min t.length u.length + 1 := by
        change min (t.length + 1) (u.length + 1) = min t.length u.length + 1
        omega
      rw [hm, commonLoop, rd_of_get hv e1, R.ok_bind, rd_of_get hs e2, R.ok_bind]
      by_cases e : x = y
      · subst e
        obtain ⟨k, p, a, b, c, d, f⟩ := ih u (i + 1) d1 d2
        refine ⟨k + 1, x :: p, ?_, by rw [List.length_cons, b], ?_, ?_, fun q hq hq' => ?_⟩
        · rw [if_neg (by simp), a]
          exact congrArg Except.ok (by omega)
        · exact (List.prefix_cons_inj x).mpr c
        · exact (List.prefix_cons_inj x).mpr d
        · cases q with
          | nil => exact Nat.zero_le _
          | cons z q =>
            have z1 := (List.cons_prefix_cons.mp hq).2
            have z2 := (List.cons_prefix_cons.mp hq').2
            have := f q z1 z2
            rw [List.length_cons]; omega
      · refine ⟨0, [], ?_, rfl, List.nil_prefix, List.nil_prefix, fun q hq hq' => ?_⟩
        · rw [if_pos e]; rfl
        · cases q with
          | nil => exact Nat.le_refl _
          | cons z q =>
            have z1 := (List.cons_prefix_cons.mp hq).1
            have z2 := (List.cons_prefix_cons.mp hq').1
            exact absurd (z1.symm.trans z2) e

/-- C42: `common_prefix_with` is the longest sequence that both begin with. -/
theorem C42_common_prefix {v s : View} (hv : v.Inside) (hs : s.Inside) :
    ∃ w, v.commonPrefixWith s = .ok w ∧ w.Inside ∧ w.chars <+: v.chars ∧ w.chars <+: s.chars ∧
      ∀ q, q <+: v.chars → q <+: s.chars → q.length ≤ w.chars.length := by
  obtain ⟨k, p, h1, h2, h3, h4, h5⟩ := commonLoop_ok hv hs v.chars s.chars 0 (List.drop_zero ..) (List.drop_zero ..)
  rw [chars_length hv, chars_length hs] at h1
  have hk : k ≤ v.size := by
    have := h3.length_le
    rw [chars_length hv] at this
    omega
  have hk' : 0 + k ≤ v.size := by omega
  have hc : (View.mk v.mem v.off k).chars = p := by
    have := sub_chars hk'
    rw [Nat.add_zero, List.drop_zero] at this
    rw [this]
    obtain ⟨r, hr⟩ := h3
    rw [← hr, ← h2, List.take_left']
    rfl
  refine ⟨⟨v.mem, v.off, k⟩, ?_, ?_, ?_, ?_, ?_⟩
  · unfold View.commonPrefixWith
    rw [min_eq, h1, R.ok_bind, Nat.zero_add]
    rfl
  · have := sub_inside hv hk'
    rwa [Nat.add_zero] at this
  · rw [hc]; exact h3
  · rw [hc]; exact h4
  · rw [hc, h2]; exact h5

example : (View.mk [1#8, 2#8, 3#8] 0 3).commonPrefixWith (View.mk [1#8, 2#8, 4#8, 5#8] 0 4) = .ok ⟨[1#8, 2#8, 3#8], 0, 2⟩ := by
  decide +kernel

/-- C42: `starts_with` and `ends_with` say whether the sequence begins or ends with the other one. -/
theorem C42_starts_ends {v s : View} (hv : v.Inside) (hs : s.Inside) :
    (∃ r, v.startsWith s = .ok r ∧ (r = true ↔ s.chars <+: v.chars)) ∧
    (∃ r, v.endsWith s = .ok r ∧ (r = true ↔ s.chars <:+ v.chars)) := by
  constructor
  · unfold View.startsWith
    by_cases c : v.size ≥ s.size
    · have hi : 0 + s.size ≤ v.size := by omega
      rw [if_pos c, subview_ok hv hi, R.ok_bind, eq_ok (sub_inside hv hi) hs, sub_chars hi, List.drop_zero]
      refine ⟨_, rfl, ?_⟩
      rw [decide_eq_true_eq, ← chars_length hs]
      exact ⟨fun h => by rw [← h]; exact List.take_prefix _ _, fun ⟨r, hr⟩ => by rw [← hr, List.take_left']; rfl⟩
    · rw [if_neg c]
      refine ⟨false, rfl, ⟨(fun h => nomatch h), fun h => ?_⟩⟩
      have := h.length_le
      rw [chars_length hv, chars_length hs] at this
      omega
  · unfold View.endsWith
    by_cases c : v.size ≥ s.size
    · have hi : v.size - s.size + s.size ≤ v.size := by omega
      rw [if_pos c, subview_ok hv hi, R.ok_bind, eq_ok (sub_inside hv hi) hs, sub_chars hi]
      refine ⟨_, rfl, ?_⟩
      rw [decide_eq_true_eq, List.take_of_length_le (by rw [List.length_drop, chars_length hv]; omega)]
      refine ⟨fun h => by rw [← h]; exact List.drop_suffix _ _, fun ⟨r, hr⟩ => ?_⟩
      have hl : r.length = v.size - s.size := by
        have := congrArg List.length hr
        rw [List.length_append, chars_length hv, chars_length hs] at this
        omega
      rw [← hr, List.drop_left' hl]
    · rw [if_neg c]
      refine ⟨false, rfl, ⟨(fun h => nomatch h), fun h => ?_⟩⟩
      have := h.length_le
      rw [chars_length hv, chars_length hs] at this
      omega

example : (View.mk [1#8, 2#8, 3#8] 0 3).startsWith (View.mk [1#8, 2#8] 0 2) = .ok true ∧
    (View.mk [1#8, 2#8, 3#8] 0 3).endsWith (View.mk [2#8, 3#8] 0 2) = .ok true ∧
    (View.mk [1#8, 2#8, 3#8] 0 3).endsWith (View.mk [1#8, 2#8] 0 2) = .ok false := by decide +kernel

/-- C42: the variants for one character. -/
theorem C42_starts_ends_char {v : View} (hv : v.Inside) (c : Chr) :
    (∃ r, v.startsWithChar c = .ok r ∧ (r = true ↔ [c] <+: v.chars)) ∧
    (∃ r, v.endsWithChar c = .ok r ∧ (r = true ↔ [c] <:+ v.chars)) := by
  have hl := chars_length hv
  constructor
  · unfold View.startsWithChar View.front
    by_cases h : v.size > 0
    · obtain ⟨d, e1, e2⟩ := get_of_lt hv h
      rw [if_pos h, ccAssert_true (decide_eq_true h), R.ok_bind, e2, R.ok_bind]
      refine ⟨_, rfl, ?_⟩
      rw [beq_iff_eq]
      cases hc : v.chars with
      | nil => rw [hc] at hl; simp at hl; omega
      | cons x t =>
        rw [hc] at e1
        have : x = d := Option.some.inj e1
        subst this
        exact ⟨fun h => by rw [h]; exact ⟨t, rfl⟩, fun h => (List.cons_prefix_cons.mp h).1.symm⟩
    · rw [if_neg h]
      refine ⟨false, rfl, ⟨(fun h => nomatch h), fun h' => ?_⟩⟩
      have := h'.length_le
      rw [hl] at this
      simp at this; omega
  · unfold View.endsWithChar View.back
    by_cases h : v.size > 0
    · obtain ⟨d, e1, e2⟩ := get_of_lt hv (show v.size - 1 < v.size by omega)
      rw [if_pos h, ccAssert_true (decide_eq_true h), R.ok_bind, e2, R.ok_bind]
      refine ⟨_, rfl, ?_⟩
      rw [beq_iff_eq]
      constructor
      · rintro rfl
        refine ⟨v.chars.take (v.size - 1), ?_⟩
        obtain ⟨hlt, hget⟩ := List.getElem?_eq_some_iff.mp e1
        have := List.take_append_getElem hlt
        rw [hget] at this
        rw [this, List.take_of_length_le (by omega)]
      · rintro ⟨t, ht⟩
        have hl2 := congrArg List.length ht
        rw [List.length_append, hl] at hl2
        simp only [List.length_cons, List.length_nil] at hl2
        rw [← ht, List.getElem?_append_right (by omega), show v.size - 1 - t.length = 0 by omega] at e1
        exact (Option.some.inj e1).symm
    · rw [if_neg h]
      refine ⟨false, rfl, ⟨(fun h => nomatch h), fun h' => ?_⟩⟩
      have := h'.length_le
      rw [hl] at this
      simp at this; omega

example : (View.mk [1#8, 2#8, 3#8] 0 2).startsWithChar 1#8 = .ok true ∧ (View.mk [1#8, 2#8, 3#8] 0 2).endsWithChar 2#8 = .ok true ∧
    (View.mk [1#8, 2#8, 3#8] 0 0).endsWithChar 2#8 = .ok false := by decide +kernel

/-! ### Parts -/

/-- C44: `subview(offset, size)` with an end that is representable yields exactly that part of the view, and is
refused exactly when the part is not inside.  Missing: ends that are not representable, see
`C44_subview_wraps`. -/
theorem C44_subview_partial {v : View} (h : v.Inside) (offset size : Nat) (hno : offset + size < 2 ^ 64) :
    (offset + size ≤ v.size → ∃ w, v.subview offset size = .ok w ∧ w.Inside ∧ w.chars = (v.chars.drop offset).take size) ∧
    (v.size < offset + size → v.subview offset size = .error .assert) := by
  constructor
  · intro hi
    exact ⟨_, subview_ok h hi, sub_inside h hi, sub_chars hi⟩
  · intro hi
    unfold View.subview
    by_cases c : offset ≤ v.size
    · rw [ccAssert_true (decide_eq_true c), R.ok_bind,
        ccAssert_false (decide_eq_false (by rw [Nat.mod_eq_of_lt hno]; omega)), R.error_bind]
    · rw [ccAssert_false (decide_eq_false c), R.error_bind]

example : (View.mk [1#8, 2#8, 3#8] 0 3).subview 1 2 = .ok ⟨[1#8, 2#8, 3#8], 1, 2⟩ ∧
    (View.mk [1#8, 2#8, 3#8] 0 3).subview 2 2 = .error .assert := by decide +kernel

/-- The bounds check of `subview(offset, size)` wraps around: for every view and every positive offset inside it a
huge size passes, and the result reaches far behind the text. -/
theorem C44_subview_wraps {v : View} (h : v.Inside) (offset : Nat) (h0 : 0 < offset) (ho : offset ≤ v.size) :
    ∃ w, v.subview offset (2 ^ 64 - offset) = .ok w ∧ ¬ w.Inside ∧ v.size < w.size := by
  have := size_lt h
  refine ⟨⟨v.mem, v.off + offset, 2 ^ 64 - offset⟩, ?_, ?_, ?_⟩
  · unfold View.subview
    rw [ccAssert_true (decide_eq_true ho), R.ok_bind, ccAssert_true (decide_eq_true (by
      rw [show offset + (2 ^ 64 - offset) = 2 ^ 64 by omega, Nat.mod_self]; omega)), R.ok_bind]
    rfl
  · rintro ⟨h1, h2⟩
    have h1 : v.off + offset + (2 ^ 64 - offset) ≤ v.mem.length := h1
    have h2 : v.mem.length < 2 ^ 63 := h2
    omega
  · change v.size < 2 ^ 64 - offset
    omega

example : (View.mk [1#8, 2#8, 3#8] 0 3).subview 1 (2 ^ 64 - 1) = .ok ⟨[1#8, 2#8, 3#8], 1, 2 ^ 64 - 1⟩ := by decide +kernel

/-- C44: `subview_clamped` yields the part of the view inside the range, if the range's end is representable.
Missing: other ends, see `C44_clamped_wraps`; and for offsets behind the end the empty view it returns
points outside the text. -/
theorem C44_clamped_partial {v : View} (h : v.Inside) (offset size : Nat) (hno : offset + size < 2 ^ 64) :
    (v.subviewClamped offset size).chars = (v.chars.drop offset).take size ∧
    (offset ≤ v.size → (v.subviewClamped offset size).Inside) := by
  unfold View.subviewClamped
  rw [Nat.mod_eq_of_lt hno]
  by_cases c : offset > v.size
  · rw [if_pos c]
    refine ⟨?_, fun h => by omega⟩
    rw [List.drop_of_length_le (by rw [chars_length h]; omega), List.take_nil]
    unfold View.chars
    exact List.take_zero
  · rw [if_neg c]
    by_cases c2 : offset + size > v.size
    · rw [if_pos c2]
      have hi : offset + (v.size - offset) ≤ v.size := by omega
      refine ⟨?_, fun _ => sub_inside h hi⟩
      rw [sub_chars hi, List.take_of_length_le (by rw [List.length_drop, chars_length h]; omega),
        List.take_of_length_le (by rw [List.length_drop, chars_length h]; omega)]
    · rw [if_neg c2]
      have hi : offset + size ≤ v.size := by omega
      exact ⟨sub_chars hi, fun _ => sub_inside h hi⟩

example : (View.mk [1#8, 2#8, 3#8] 0 3).subviewClamped 1 7 = ⟨[1#8, 2#8, 3#8], 1, 2⟩ ∧
    (View.mk [1#8, 2#8, 3#8] 0 3).subviewClamped 9 7 = ⟨[1#8, 2#8, 3#8], 9, 0⟩ := by decide +kernel

/-- The clamping wraps around as well: "from position 1 on, as much as there is" asked for with the largest size
yields a view that is not inside the text. -/
theorem C44_clamped_wraps {v : View} (h : v.Inside) (h1 : 1 ≤ v.size) : ¬ (v.subviewClamped 1 (2 ^ 64 - 1)).Inside := by
  have := size_lt h
  rintro ⟨h2, h3⟩
  unfold View.subviewClamped at h2 h3
  rw [if_neg (by omega), show 1 + (2 ^ 64 - 1) = 2 ^ 64 by omega, Nat.mod_self, if_neg (by omega)] at h2
  have h2 : v.off + 1 + (2 ^ 64 - 1) ≤ v.mem.length := h2
  have h3 : v.mem.length < 2 ^ 63 := h3
  omega

example : (View.mk [1#8, 2#8, 3#8] 0 3).subviewClamped 1 (2 ^ 64 - 1) = ⟨[1#8, 2#8, 3#8], 1, 2 ^ 64 - 1⟩ := by decide +kernel

/-- C44: the parts named by one number. -/
theorem C44_parts {v : View} (h : v.Inside) (n : Nat) :
    (n ≤ v.size → ∃ w, v.subviewFrom n = .ok w ∧ w.Inside ∧ w.chars = v.chars.drop n) ∧
    (v.size < n → v.subviewFrom n = .error .assert) ∧
    (n ≤ v.size → ∃ w, v.removePrefixN n = .ok w ∧ w.Inside ∧ w.chars = v.chars.drop n) ∧
    (v.size < n → v.removePrefixN n = .error .assert) ∧
    (n ≤ v.size → ∃ w, v.removeSuffixN n = .ok w ∧ w.Inside ∧ w.chars = v.chars.take (v.size - n)) ∧
    (v.size < n → v.removeSuffixN n = .error .assert) ∧
    ((v.first n).Inside ∧ (v.first n).chars = v.chars.take n) ∧
    ((v.last n).Inside ∧ (v.last n).chars = v.chars.drop (v.size - n)) := by
  have hl := chars_length h
  have hdrop : ∀ n, n ≤ v.size → (View.mk v.mem (v.off + n) (v.size - n)).Inside ∧
      (View.mk v.mem (v.off + n) (v.size - n)).chars = v.chars.drop n := fun n hn => by
    have hi : n + (v.size - n) ≤ v.size := by omega
    refine ⟨sub_inside h hi, ?_⟩
    rw [sub_chars hi, List.take_of_length_le (by rw [List.length_drop, hl]; omega)]
  have htake : ∀ n, n ≤ v.size → (View.mk v.mem v.off n).Inside ∧ (View.mk v.mem v.off n).chars = v.chars.take n := fun n hn => by
    have hi : 0 + n ≤ v.size := by omega
    have a := sub_inside h hi
    have b := sub_chars hi
    rw [Nat.add_zero] at a b
    rw [List.drop_zero] at b
    exact ⟨a, b⟩
  refine ⟨fun hn => ?_, fun hn => ?_, fun hn => ?_, fun hn => ?_, fun hn => ?_, fun hn => ?_, ?_, ?_⟩
  · unfold View.subviewFrom
    rw [ccAssert_true (decide_eq_true hn), R.ok_bind]
    exact ⟨_, rfl, hdrop n hn⟩
  · unfold View.subviewFrom
    rw [ccAssert_false (decide_eq_false (by omega)), R.error_bind]
  · unfold View.removePrefixN
    rw [ccAssert_true (decide_eq_true hn), R.ok_bind]
    exact ⟨_, rfl, hdrop n hn⟩
  · unfold View.removePrefixN
    rw [ccAssert_false (decide_eq_false (by omega)), R.error_bind]
  · unfold View.removeSuffixN
    rw [ccAssert_true (decide_eq_true hn), R.ok_bind]
    exact ⟨_, rfl, htake _ (by omega)⟩
  · unfold View.removeSuffixN
    rw [ccAssert_false (decide_eq_false (by omega)), R.error_bind]
  · unfold View.first
    by_cases c : n < v.size
    · rw [if_pos c]; exact htake n (by omega)
    · rw [if_neg c]
      refine ⟨(htake v.size (Nat.le_refl _)).1, ?_⟩
      rw [(htake v.size (Nat.le_refl _)).2, List.take_of_length_le (by omega), List.take_of_length_le (by omega)]
  · unfold View.last
    by_cases c : n ≤ v.size
    · rw [if_pos c]
      have := hdrop (v.size - n) (by omega)
      rw [show v.size - (v.size - n) = n by omega, show v.off + (v.size - n) = v.off + v.size - n by omega] at this
      exact this
    · rw [if_neg c]
      refine ⟨h, ?_⟩
      rw [show v.size - n = 0 by omega, List.drop_zero]

example : (View.mk [1#8, 2#8, 3#8] 0 3).last 2 = ⟨[1#8, 2#8, 3#8], 1, 2⟩ ∧ (View.mk [1#8, 2#8, 3#8] 0 3).first 5 = ⟨[1#8, 2#8, 3#8], 0, 3⟩ ∧
    (View.mk [1#8, 2#8, 3#8] 0 3).removeSuffixN 1 = .ok ⟨[1#8, 2#8, 3#8], 0, 2⟩ := by decide +kernel

/-- C44: `remove_prefix(s)` and `remove_suffix(s)` take away exactly `s`, and are refused when it is not there. -/
theorem C44_remove_affix {v s : View} (hv : v.Inside) (hs : s.Inside) :
    (∀ r, v.chars = s.chars ++ r → ∃ w, v.removePrefix s = .ok w ∧ w.Inside ∧ w.chars = r) ∧
    (¬ s.chars <+: v.chars → v.removePrefix s = .error .assert) ∧
    (∀ r, v.chars = r ++ s.chars → ∃ w, v.removeSuffix s = .ok w ∧ w.Inside ∧ w.chars = r) ∧
    (¬ s.chars <:+ v.chars → v.removeSuffix s = .error .assert) := by
  obtain ⟨⟨b, hb, hbi⟩, ⟨e, he, hei⟩⟩ := C42_starts_ends hv hs
  have hlv := chars_length hv
  have hls := chars_length hs
  refine ⟨fun r hr => ?_, fun hn => ?_, fun r hr => ?_, fun hn => ?_⟩
  · have : b = true := hbi.mpr ⟨r, hr.symm⟩
    subst this
    have hle : s.size ≤ v.size := by
      have := congrArg List.length hr
      rw [List.length_append] at this; omega
    have hi : s.size + (v.size - s.size) ≤ v.size := by omega
    unfold View.removePrefix
    rw [hb, R.ok_bind, ccAssert_true rfl, R.ok_bind]
    refine ⟨_, rfl, sub_inside hv hi, ?_⟩
    rw [sub_chars hi, hr, List.drop_left' hls, List.take_of_length_le]
    have := congrArg List.length hr
    rw [List.length_append] at this; omega
  · cases b with
    | true => exact absurd (hbi.mp rfl) hn
    | false =>
      unfold View.removePrefix
      rw [hb, R.ok_bind, ccAssert_false rfl, R.error_bind]
  · have : e = true := hei.mpr ⟨r, hr.symm⟩
    subst this
    have hrl : r.length = v.size - s.size := by
      have := congrArg List.length hr
      rw [List.length_append] at this; omega
    have hi : 0 + (v.size - s.size) ≤ v.size := by omega
    have a := sub_inside hv hi
    have c := sub_chars hi
    rw [Nat.add_zero] at a c
    unfold View.removeSuffix
    rw [he, R.ok_bind, ccAssert_true rfl, R.ok_bind]
    refine ⟨_, rfl, a, ?_⟩
    rw [c, hr, List.drop_zero, List.take_left' hrl]
  · cases e with
    | true => exact absurd (hei.mp rfl) hn
    | false =>
      unfold View.removeSuffix
      rw [he, R.ok_bind, ccAssert_false rfl, R.error_bind]

example : (View.mk [1#8, 2#8, 3#8] 0 3).removePrefix (View.mk [1#8, 2#8] 0 2) = .ok ⟨[1#8, 2#8, 3#8], 2, 1⟩ ∧
    (View.mk [1#8, 2#8, 3#8] 0 3).removeSuffix (View.mk [1#8, 2#8] 0 2) = .error .assert := by decide +kernel

end Verif.StrView
