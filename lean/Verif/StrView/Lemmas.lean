import Verif.StrView.Spec
/-! Helper lemmas for the views. -/
namespace Verif.StrView
open Spec

theorem chars_length {v : View} (h : v.Inside) : v.chars.length = v.size := by
  have := h.fits
  unfold View.chars
  rw [List.length_take, List.length_drop]; omega

theorem chars_get {v : View} (i : Nat) (hi : i < v.size) : v.chars[i]? = v.mem[v.off + i]? := by
  unfold View.chars
  rw [List.getElem?_take, if_pos hi, List.getElem?_drop]

theorem rd_of_get {v : View} (h : v.Inside) {i : Nat} {c : Chr} (hc : v.chars[i]? = some c) : v.rd i = .ok c := by
  have hi : i < v.size := by
    have := (List.getElem?_eq_some_iff.mp hc).1
    rwa [chars_length h] at this
  unfold View.rd
  rw [← chars_get i hi, hc]

theorem get_of_lt {v : View} (h : v.Inside) {i : Nat} (hi : i < v.size) : ∃ c, v.chars[i]? = some c ∧ v.rd i = .ok c := by
  have hl : i < v.chars.length := by rw [chars_length h]; exact hi
  exact ⟨v.chars[i], List.getElem?_eq_getElem hl, rd_of_get h (List.getElem?_eq_getElem hl)⟩

theorem drop_cons {l : List Chr} {i : Nat} {x : Chr} {t : List Chr} (h : l.drop i = x :: t) :
    l[i]? = some x ∧ l.drop (i + 1) = t := by
  constructor
  · have : (l.drop i)[0]? = some x := by rw [h]; rfl
    rw [List.getElem?_drop] at this
    exact this
  · have : (l.drop i).drop 1 = t := by rw [h]; rfl
    rwa [List.drop_drop] at this

theorem drop_size {v : View} (h : v.Inside) : (v.chars.drop 0).length = v.size := by
  rw [List.drop_zero, chars_length h]

/-- A piece of a view. -/
theorem sub_inside {v : View} (h : v.Inside) {a n : Nat} (hn : a + n ≤ v.size) : (View.mk v.mem (v.off + a) n).Inside :=
  ⟨by have := h.fits; change v.off + a + n ≤ v.mem.length; omega, h.small⟩

theorem sub_chars {v : View} {a n : Nat} (hn : a + n ≤ v.size) :
    (View.mk v.mem (v.off + a) n).chars = (v.chars.drop a).take n := by
  unfold View.chars
  dsimp only
  rw [List.drop_take, List.take_take, Nat.min_eq_left (by omega), List.drop_drop]

theorem size_lt {v : View} (h : v.Inside) : v.size < 2 ^ 63 := by
  have := h.fits
  have := h.small
  omega

/-! ### Positions of a needle -/

theorem occursAt_iff {text needle : List Chr} {i : Nat} :
    OccursAt text needle i ↔ i + needle.length ≤ text.length ∧ ∀ k, k < needle.length → text[i + k]? = needle[k]? := by
  constructor
  · rintro ⟨a, b, rfl, rfl⟩
    refine ⟨by simp only [List.length_append]; omega, fun k hk => ?_⟩
    rw [List.append_assoc, List.getElem?_append_right (by omega), show a.length + k - a.length = k by omega,
      List.getElem?_append_left hk]
  · rintro ⟨h1, h2⟩
    refine ⟨text.take i, text.drop (i + needle.length), ?_, ?_⟩
    · apply List.ext_getElem?
      intro j
      have hl : (text.take i).length = i := by rw [List.length_take]; omega
      by_cases c1 : j < i
      · rw [List.append_assoc, List.getElem?_append_left (by omega), List.getElem?_take, if_pos c1]
      · by_cases c2 : j < i + needle.length
        · rw [List.append_assoc, List.getElem?_append_right (by omega), hl, List.getElem?_append_left (by omega),
            ← h2 (j - i) (by omega), show i + (j - i) = j by omega]
        · rw [List.getElem?_append_right (by rw [List.length_append]; omega), List.getElem?_drop, List.length_append, hl,
            show i + needle.length + (j - (i + needle.length)) = j by omega]
    · rw [List.length_take]; omega

theorem occursAt_drop_take {text needle : List Chr} {i : Nat} :
    OccursAt text needle i ↔ i + needle.length ≤ text.length ∧ (text.drop i).take needle.length = needle := by
  rw [occursAt_iff]
  refine and_congr_right fun h => ⟨fun hk => ?_, fun he k hk => ?_⟩
  · apply List.ext_getElem?
    intro j
    rw [List.getElem?_take]
    split
    · rename_i hj
      rw [List.getElem?_drop, hk j hj]
    · rename_i hj
      rw [List.getElem?_eq_none (by omega)]
  · have : ((text.drop i).take needle.length)[k]? = needle[k]? := by rw [he]
    rw [List.getElem?_take, if_pos hk, List.getElem?_drop] at this
    exact this

theorem infix_iff {text needle : List Chr} : needle <:+: text ↔ ∃ i, OccursAt text needle i := by
  constructor
  · rintro ⟨a, b, h⟩
    exact ⟨a.length, a, b, h.symm, rfl⟩
  · rintro ⟨_, a, b, h, _⟩
    exact ⟨a, b, h.symm⟩

/-! ### Comparison loops -/

theorem equalsLoop_ok {cmp : Chr → Chr → Bool} {a b : View} (ha : a.Inside) (hb : b.Inside) (la lb : List Chr) (i : Nat)
    (h1 : a.chars.drop i = la) (h2 : b.chars.drop i = lb) (hl : la.length = lb.length) :
    equalsLoop cmp a b la.length i = .ok ((la.zip lb).all fun p => cmp p.1 p.2) := by
  induction la generalizing lb i with
  | nil => rfl
  | cons x t ih =>
    cases lb with
    | nil => exact absurd hl (by simp)
    | cons y u =>
      obtain ⟨e1, d1⟩ := drop_cons h1
      obtain ⟨e2, d2⟩ := drop_cons h2
      have hl' : t.length = u.length := by simpa using hl
      rw [List.length_cons, equalsLoop, rd_of_get ha e1, R.ok_bind, rd_of_get hb e2, R.ok_bind, ih u (i + 1) d1 d2 hl']
      cases e : cmp x y <;> simp [e]

theorem zip_all_eq {la lb : List Chr} (hl : la.length = lb.length) :
    ((la.zip lb).all fun p => p.1 == p.2) = decide (la = lb) := by
  induction la generalizing lb with
  | nil => cases lb with
    | nil => rfl
    | cons _ _ => exact absurd hl (by simp)
  | cons x t ih =>
    cases lb with
    | nil => exact absurd hl (by simp)
    | cons y u =>
      have hl' : t.length = u.length := by simpa using hl
      rw [List.zip_cons_cons, List.all_cons, ih hl']
      by_cases e : x = y
      · subst e; simp
      · simp [e]

theorem eq_ok {a b : View} (ha : a.Inside) (hb : b.Inside) : a.eq b = .ok (decide (a.chars = b.chars)) := by
  unfold View.eq
  by_cases e : a.size = b.size
  · rw [if_neg (by simpa using e)]
    have hl : a.chars.length = b.chars.length := by rw [chars_length ha, chars_length hb, e]
    have := equalsLoop_ok (cmp := fun x y => x == y) ha hb a.chars b.chars 0 (List.drop_zero ..) (List.drop_zero ..) hl
    rw [chars_length ha] at this
    rw [this, zip_all_eq hl]
  · rw [if_pos (by simpa using e)]
    have : ¬ a.chars = b.chars := fun h => e (by rw [← chars_length ha, ← chars_length hb, h])
    rw [decide_eq_false this]
    rfl

theorem neLoop_ok {a b : View} (ha : a.Inside) (hb : b.Inside) (la lb : List Chr) (i : Nat)
    (h1 : a.chars.drop i = la) (h2 : b.chars.drop i = lb) (hl : la.length = lb.length) :
    neLoop a b la.length i = .ok (decide (la ≠ lb)) := by
  induction la generalizing lb i with
  | nil => cases lb with
    | nil => rfl
    | cons _ _ => exact absurd hl (by simp)
  | cons x t ih =>
    cases lb with
    | nil => exact absurd hl (by simp)
    | cons y u =>
      obtain ⟨e1, d1⟩ := drop_cons h1
      obtain ⟨e2, d2⟩ := drop_cons h2
      have hl' : t.length = u.length := by simpa using hl
      rw [List.length_cons, neLoop, rd_of_get ha e1, R.ok_bind, rd_of_get hb e2, R.ok_bind, ih u (i + 1) d1 d2 hl']
      by_cases e : x = y
      · subst e; simp
      · simp [e]

/-! ### Lexicographic comparison -/

theorem not_lexLt_nil {lt : Chr → Chr → Prop} (a : List Chr) : ¬ LexLt lt a [] := by
  rintro (⟨y, t, h⟩ | ⟨p, x, y, s, t, _, h, _⟩)
  · exact absurd h (by simp)
  · exact absurd h (by simp)

theorem lexLt_cons {lt : Chr → Chr → Prop} (hirr : ∀ x, ¬ lt x x) {x y : Chr} {t u : List Chr} :
    LexLt lt (x :: t) (y :: u) ↔ (lt x y ∨ (x = y ∧ LexLt lt t u)) := by
  constructor
  · rintro (⟨z, w, h⟩ | ⟨p, a, b, s, w, h1, h2, h3⟩)
    · rw [List.cons_append] at h
      have := List.cons.inj h
      exact Or.inr ⟨this.1.symm, Or.inl ⟨z, w, this.2⟩⟩
    · cases p with
      | nil =>
        have e1 := List.cons.inj h1
        have e2 := List.cons.inj h2
        rw [e1.1, e2.1]
        exact Or.inl h3
      | cons q p =>
        have e1 := List.cons.inj h1
        have e2 := List.cons.inj h2
        exact Or.inr ⟨e1.1.trans e2.1.symm, Or.inr ⟨p, a, b, s, w, e1.2, e2.2, h3⟩⟩
  · rintro (h | ⟨rfl, h⟩)
    · exact Or.inr ⟨[], x, y, t, u, rfl, rfl, h⟩
    · rcases h with ⟨z, w, h⟩ | ⟨p, a, b, s, w, h1, h2, h3⟩
      · exact Or.inl ⟨z, w, by rw [h]; rfl⟩
      · exact Or.inr ⟨x :: p, a, b, s, w, by rw [h1]; rfl, by rw [h2]; rfl, h3⟩

theorem lexLt_nil_left {lt : Chr → Chr → Prop} {b : List Chr} : LexLt lt [] b ↔ b ≠ [] := by
  constructor
  · intro h e
    subst e
    exact not_lexLt_nil _ h
  · intro h
    cases b with
    | nil => exact absurd rfl h
    | cons y t => exact Or.inl ⟨y, t, rfl⟩

theorem lexLt_irrefl {lt : Chr → Chr → Prop} (hirr : ∀ x, ¬ lt x x) (a : List Chr) : ¬ LexLt lt a a := by
  induction a with
  | nil => exact not_lexLt_nil _
  | cons x t ih =>
    rw [lexLt_cons hirr]
    rintro (h | ⟨_, h⟩)
    · exact hirr x h
    · exact ih h

theorem lessLoop_ok {a b : View} (ha : a.Inside) (hb : b.Inside) (la lb : List Chr) (i : Nat)
    (h1 : a.chars.drop i = la) (h2 : b.chars.drop i = lb) (hla : i + la.length = a.size) (hlb : i + lb.length = b.size) :
    ∃ r, lessLoop a b (Nat.min la.length lb.length) i = .ok r ∧
      (r = true ↔ LexLt (fun x y => x.toInt < y.toInt) la lb) := by
  induction la generalizing lb i with
  | nil =>
    refine ⟨decide (a.size < b.size), ?_, ?_⟩
    · rw [show Nat.min ([] : List Chr).length lb.length = 0 from Nat.zero_min _]; rfl
    · rw [lexLt_nil_left, decide_eq_true_eq]
      cases lb with
      | nil =>
        simp only [List.length_nil] at hla hlb
        exact ⟨fun h => by omega, fun h => absurd rfl h⟩
      | cons _ _ =>
        simp only [List.length_nil, List.length_cons] at hla hlb
        exact ⟨fun _ => by simp, fun _ => by omega⟩
  | cons x t ih =>
    cases lb with
    | nil =>
      refine ⟨decide (a.size < b.size), rfl, ?_⟩
      simp only [List.length_nil, List.length_cons] at hla hlb
      exact ⟨fun h => absurd (of_decide_eq_true h) (by omega), fun h => absurd h (not_lexLt_nil _)⟩
    | cons y u =>
      obtain ⟨e1, d1⟩ := drop_cons h1
      obtain ⟨e2, d2⟩ := drop_cons h2
      obtain ⟨r, hr, hi⟩ := ih u (i + 1) d1 d2 (by simp only [List.length_cons] at hla; omega)
        (by simp only [List.length_cons] at hlb; omega)
      have hm : Nat.min (x :: t).length (y :: u).length = Nat.min t.length u.length + 1 := by
        change min (t.length + 1) (u.length + 1) = min t.length u.length + 1
        omega
      rw [hm, lessLoop, rd_of_get ha e1, R.ok_bind, rd_of_get hb e2, R.ok_bind]
      rw [lexLt_cons (fun x => Int.lt_irrefl _)]
      by_cases e : x = y
      · subst e
        refine ⟨r, ?_, ?_⟩
        · rw [if_neg (by simp), hr]
        · rw [hi]
          exact ⟨fun h => Or.inr ⟨rfl, h⟩, fun h => h.elim (fun h => absurd h (Int.lt_irrefl _)) (·.2)⟩
      · refine ⟨decide (x.toInt < y.toInt), ?_, ?_⟩
        · rw [if_pos e]; rfl
        · rw [decide_eq_true_eq]
          exact ⟨Or.inl, fun h => h.elim id (fun h => absurd h.1 e)⟩

theorem strncmp_ok {a b : View} (ha : a.Inside) (hb : b.Inside) (la lb : List Chr) (i : Nat)
    (h1 : a.chars.drop i = la) (h2 : b.chars.drop i = lb) (hz : ∀ c ∈ la, c ≠ 0#8) :
    ∃ r, strncmp a b (Nat.min la.length lb.length) i = .ok r ∧
      ((r = 0 ∧ (la <+: lb ∨ lb <+: la)) ∨
       (r ≠ 0 ∧ ∃ p x y s t, la = p ++ x :: s ∧ lb = p ++ y :: t ∧ x ≠ y ∧ (r < 0 ↔ x.toNat < y.toNat))) := by
  induction la generalizing lb i with
  | nil =>
    refine ⟨0, ?_, Or.inl ⟨rfl, Or.inl (List.nil_prefix)⟩⟩
    rw [show Nat.min ([] : List Chr).length lb.length = 0 from Nat.zero_min _]; rfl
  | cons x t ih =>
    cases lb with
    | nil => exact ⟨0, rfl, Or.inl ⟨rfl, Or.inr (List.nil_prefix)⟩⟩
    | cons y u =>
      obtain ⟨e1, d1⟩ := drop_cons h1
      obtain ⟨e2, d2⟩ := drop_cons h2
      obtain ⟨r, hr, hi⟩ := ih u (i + 1) d1 d2 (fun c hc => hz c (List.mem_cons_of_mem _ hc))
      have hm : Nat.min (x :: t).length (y :: u).length = Nat.min t.length u.length + 1 := by
        change min (t.length + 1) (u.length + 1) = min t.length u.length + 1
        omega
      rw [hm, strncmp, rd_of_get ha e1, R.ok_bind, rd_of_get hb e2, R.ok_bind]
      by_cases e : x = y
      · subst e
        refine ⟨r, ?_, ?_⟩
        · rw [if_neg (by simp), if_neg (hz x List.mem_cons_self), hr]
        · rcases hi with ⟨h0, h⟩ | ⟨h0, p, a, b, s, w, q1, q2, q3, q4⟩
          · refine Or.inl ⟨h0, h.imp ?_ ?_⟩
            · rintro ⟨w, rfl⟩; exact ⟨w, rfl⟩
            · rintro ⟨w, rfl⟩; exact ⟨w, rfl⟩
          · exact Or.inr ⟨h0, x :: p, a, b, s, w, by rw [q1]; rfl, by rw [q2]; rfl, q3, q4⟩
      · refine ⟨if x.toNat < y.toNat then -1 else 1, ?_, Or.inr ⟨?_, [], x, y, t, u, rfl, rfl, e, ?_⟩⟩
        · rw [if_pos e]; rfl
        · split <;> decide
        · split
          · rename_i h; exact ⟨fun _ => h, fun _ => by decide⟩
          · rename_i h; exact ⟨fun h' => absurd h' (by decide), fun h' => absurd h' h⟩

/-! ### Search loops -/

theorem containsCharLoop_ok {v : View} (h : v.Inside) (c : Chr) (l : List Chr) (i : Nat) (hl : v.chars.drop i = l) :
    containsCharLoop v c l.length i = .ok (decide (c ∈ l)) := by
  induction l generalizing i with
  | nil => rfl
  | cons x t ih =>
    obtain ⟨e1, d1⟩ := drop_cons hl
    rw [List.length_cons, containsCharLoop, rd_of_get h e1, R.ok_bind, ih (i + 1) d1]
    by_cases e : x = c
    · subst e; simp
    · have : ¬ c = x := fun x => e x.symm
      simp [e, this]

theorem indexOfCharLoop_ok {v : View} (h : v.Inside) (c : Chr) (l : List Chr) (i : Nat) (hl : v.chars.drop i = l) :
    ∃ r, indexOfCharLoop v c l.length i = .ok r ∧
      ((r = -1 ∧ c ∉ l) ∨ ∃ k : Nat, r = ((i + k : Nat) : Int) ∧ l[k]? = some c ∧ ∀ j, j < k → l[j]? ≠ some c) := by
  induction l generalizing i with
  | nil => exact ⟨-1, rfl, Or.inl ⟨rfl, by simp⟩⟩
  | cons x t ih =>
    obtain ⟨e1, d1⟩ := drop_cons hl
    rw [List.length_cons, indexOfCharLoop, rd_of_get h e1, R.ok_bind]
    by_cases e : x = c
    · subst e
      exact ⟨(i : Int), by rw [if_pos rfl]; rfl, Or.inr ⟨0, rfl, rfl, fun j hj => by omega⟩⟩
    · rw [if_neg e]
      obtain ⟨r, hr, hi⟩ := ih (i + 1) d1
      refine ⟨r, hr, ?_⟩
      rcases hi with ⟨h1, h2⟩ | ⟨k, h1, h2, h3⟩
      · refine Or.inl ⟨h1, ?_⟩
        rw [List.mem_cons]
        rintro (x | x)
        · exact e x.symm
        · exact h2 x
      · refine Or.inr ⟨k + 1, by rw [h1]; congr 1; omega, h2, ?_⟩
        intro j hj
        cases j with
        | zero =>
          intro hx
          exact e (Option.some.inj hx)
        | succ j => exact h3 j (by omega)

theorem lastIndexOfCharLoop_ok {v : View} (h : v.Inside) (c : Chr) (n : Nat) (hn : n ≤ v.size) :
    ∃ r, lastIndexOfCharLoop v c n = .ok r ∧
      ((r = -1 ∧ ∀ k, k < n → v.chars[k]? ≠ some c) ∨
        ∃ k : Nat, r = (k : Int) ∧ k < n ∧ v.chars[k]? = some c ∧ ∀ j, k < j → j < n → v.chars[j]? ≠ some c) := by
  induction n with
  | zero => exact ⟨-1, rfl, Or.inl ⟨rfl, fun k hk => by omega⟩⟩
  | succ n ih =>
    obtain ⟨x, e1, e2⟩ := get_of_lt h (show n < v.size by omega)
    rw [lastIndexOfCharLoop, e2, R.ok_bind]
    by_cases e : x = c
    · subst e
      exact ⟨(n : Int), by rw [if_pos rfl]; rfl, Or.inr ⟨n, rfl, by omega, e1, fun j _ _ => by omega⟩⟩
    · rw [if_neg e]
      obtain ⟨r, hr, hi⟩ := ih (by omega)
      refine ⟨r, hr, ?_⟩
      have hne : v.chars[n]? ≠ some c := by
        rw [e1]; exact fun h => e (Option.some.inj h)
      rcases hi with ⟨h1, h2⟩ | ⟨k, h1, h2, h3, h4⟩
      · refine Or.inl ⟨h1, fun k hk => ?_⟩
        rcases Nat.lt_or_ge k n with a | a
        · exact h2 k a
        · rw [show k = n by omega]; exact hne
      · refine Or.inr ⟨k, h1, by omega, h3, fun j a b => ?_⟩
        rcases Nat.lt_or_ge j n with c | c
        · exact h4 j a c
        · rw [show j = n by omega]; exact hne

theorem matchLoop_ok {v s : View} (hv : v.Inside) (hs : s.Inside) (i : Nat) (hi : i + s.size ≤ v.size) (n j : Nat)
    (hn : j + n = s.size) (h0 : n ≠ 0) :
    ∃ r, matchLoop v s i n j = .ok r ∧ (r = true ↔ ∀ k, j ≤ k → k < s.size → v.chars[i + k]? = s.chars[k]?) := by
  induction n generalizing j with
  | zero => exact absurd rfl h0
  | succ n ih =>
    obtain ⟨x, ex, rx⟩ := get_of_lt hv (show i + j < v.size by omega)
    obtain ⟨y, ey, ry⟩ := get_of_lt hs (show j < s.size by omega)
    have hat : s.at j = .ok y := by
      unfold View.at
      rw [ccAssert_true (decide_eq_true (by omega)), R.ok_bind, ry]
    rw [matchLoop, rx, R.ok_bind, hat, R.ok_bind]
    by_cases e : x = y
    · subst e
      rw [if_neg (by simp)]
      by_cases c : j = s.size - 1
      · rw [if_pos c]
        refine ⟨true, rfl, ⟨fun _ k a b => ?_, fun _ => rfl⟩⟩
        rw [show k = j by omega, ex, ey]
      · rw [if_neg c]
        obtain ⟨r, hr, hi⟩ := ih (j + 1) (by omega) (by omega)
        refine ⟨r, hr, hi.trans ⟨fun h k a b => ?_, fun h k a b => h k (by omega) b⟩⟩
        rcases Nat.eq_or_lt_of_le a with q | q
        · rw [← q, ex, ey]
        · exact h k q b
    · rw [if_pos e]
      refine ⟨false, rfl, ⟨(fun h => nomatch h), fun h => ?_⟩⟩
      have := h j (Nat.le_refl _) (by omega)
      rw [ex, ey] at this
      exact absurd (Option.some.inj this) e

theorem match_occurs {v s : View} (hv : v.Inside) (hs : s.Inside) (i : Nat) (hi : i + s.size ≤ v.size) (h0 : s.size ≠ 0) :
    ∃ r, matchLoop v s i s.size 0 = .ok r ∧ (r = true ↔ OccursAt v.chars s.chars i) := by
  obtain ⟨r, hr, h⟩ := matchLoop_ok hv hs i hi s.size 0 (by omega) h0
  refine ⟨r, hr, h.trans ?_⟩
  rw [occursAt_iff, chars_length hv, chars_length hs]
  exact ⟨fun h => ⟨hi, fun k hk => h k (by omega) hk⟩, fun h k _ hk => h.2 k hk⟩

theorem indexLoop_ok {v s : View} (hv : v.Inside) (hs : s.Inside) (h0 : s.size ≠ 0) (hle : s.size ≤ v.size) (n i : Nat)
    (hn : i + n = v.size - s.size + 1) :
    ∃ r, indexLoop v s n i = .ok r ∧
      ((r = -1 ∧ ∀ k, i ≤ k → ¬ OccursAt v.chars s.chars k) ∨
        ∃ k : Nat, r = (k : Int) ∧ i ≤ k ∧ OccursAt v.chars s.chars k ∧ ∀ j, i ≤ j → j < k → ¬ OccursAt v.chars s.chars j) := by
  induction n generalizing i with
  | zero =>
    refine ⟨-1, rfl, Or.inl ⟨rfl, fun k hk ho => ?_⟩⟩
    have := (occursAt_iff.mp ho).1
    rw [chars_length hv, chars_length hs] at this
    omega
  | succ n ih =>
    obtain ⟨m, hm, hmo⟩ := match_occurs hv hs i (by omega) h0
    rw [indexLoop, hm, R.ok_bind]
    cases m with
    | true =>
      exact ⟨(i : Int), rfl, Or.inr ⟨i, rfl, Nat.le_refl _, hmo.mp rfl, fun j _ _ => by omega⟩⟩
    | false =>
      obtain ⟨r, hr, hi⟩ := ih (i + 1) (by omega)
      refine ⟨r, by simpa using hr, ?_⟩
      have hne : ¬ OccursAt v.chars s.chars i := fun h => nomatch hmo.mpr h
      rcases hi with ⟨h1, h2⟩ | ⟨k, h1, h2, h3, h4⟩
      · refine Or.inl ⟨h1, fun k hk => ?_⟩
        rcases Nat.eq_or_lt_of_le hk with a | a
        · rw [← a]; exact hne
        · exact h2 k a
      · refine Or.inr ⟨k, h1, by omega, h3, fun j a b => ?_⟩
        rcases Nat.eq_or_lt_of_le a with q | q
        · rw [← q]; exact hne
        · exact h4 j q b

theorem matchBackLoop_ok {v s : View} (hv : v.Inside) (hs : s.Inside) (i : Nat) (hi : i + s.size ≤ v.size) (n j : Nat)
    (hn : j + n = s.size) (h0 : n ≠ 0) :
    ∃ r, matchBackLoop v s i n j = .ok r ∧
      (r = true ↔ ∀ k, k < n → v.chars[v.size - (i + s.size) + k]? = s.chars[k]?) := by
  induction n generalizing j with
  | zero => exact absurd rfl h0
  | succ n ih =>
    have p1 : v.size - (i + j + 1) = v.size - (i + s.size) + n := by omega
    have p2 : s.size - (j + 1) = n := by omega
    obtain ⟨x, ex, rx⟩ := get_of_lt hv (show v.size - (i + s.size) + n < v.size by omega)
    obtain ⟨y, ey, ry⟩ := get_of_lt hs (show n < s.size by omega)
    have hat : s.at n = .ok y := by
      unfold View.at
      rw [ccAssert_true (decide_eq_true (by omega)), R.ok_bind, ry]
    rw [matchBackLoop, p1, rx, R.ok_bind, p2, hat, R.ok_bind]
    by_cases e : x = y
    · subst e
      rw [if_neg (by simp)]
      by_cases c : j = s.size - 1
      · rw [if_pos c]
        refine ⟨true, rfl, ⟨fun _ k a => ?_, fun _ => rfl⟩⟩
        rw [show k = n by omega, ex, ey]
      · rw [if_neg c]
        obtain ⟨r, hr, hi⟩ := ih (j + 1) (by omega) (by omega)
        refine ⟨r, hr, hi.trans ⟨fun h k a => ?_, fun h k a => h k (by omega)⟩⟩
        rcases Nat.lt_or_ge k n with q | q
        · exact h k q
        · rw [show k = n by omega, ex, ey]
    · rw [if_pos e]
      refine ⟨false, rfl, ⟨(fun h => nomatch h), fun h => ?_⟩⟩
      have := h n (by omega)
      rw [ex, ey] at this
      exact absurd (Option.some.inj this) e

theorem lastIndexLoop_ok {v s : View} (hv : v.Inside) (hs : s.Inside) (h0 : s.size ≠ 0) (hle : s.size ≤ v.size) (n i : Nat)
    (hn : i + n = v.size - s.size + 1) :
    ∃ r, lastIndexLoop v s n i = .ok r ∧
      ((r = -1 ∧ ∀ k, k + i + s.size ≤ v.size → ¬ OccursAt v.chars s.chars k) ∨
        ∃ k : Nat, r = (k : Int) ∧ OccursAt v.chars s.chars k ∧
          ∀ j, j + i + s.size ≤ v.size → k < j → ¬ OccursAt v.chars s.chars j) := by
  induction n generalizing i with
  | zero => exact ⟨-1, rfl, Or.inl ⟨rfl, fun k hk => by omega⟩⟩
  | succ n ih =>
    obtain ⟨m, hm, hmo⟩ := matchBackLoop_ok hv hs i (by omega) s.size 0 (by omega) h0
    have hocc : m = true ↔ OccursAt v.chars s.chars (v.size - (i + s.size)) := by
      rw [hmo, occursAt_iff, chars_length hv, chars_length hs]
      exact ⟨fun h => ⟨by omega, h⟩, fun h => h.2⟩
    rw [lastIndexLoop, hm, R.ok_bind]
    cases m with
    | true => exact ⟨_, rfl, Or.inr ⟨_, rfl, hocc.mp rfl, fun j _ _ => by omega⟩⟩
    | false =>
      obtain ⟨r, hr, hi⟩ := ih (i + 1) (by omega)
      refine ⟨r, by simpa using hr, ?_⟩
      have hne : ¬ OccursAt v.chars s.chars (v.size - (i + s.size)) := fun h => nomatch hocc.mpr h
      rcases hi with ⟨h1, h2⟩ | ⟨k, h1, h3, h4⟩
      · refine Or.inl ⟨h1, fun k hk => ?_⟩
        by_cases a : k + (i + 1) + s.size ≤ v.size
        · exact h2 k a
        · rw [show k = v.size - (i + s.size) by omega]; exact hne
      · refine Or.inr ⟨k, h1, h3, fun j a b => ?_⟩
        by_cases q : j + (i + 1) + s.size ≤ v.size
        · exact h4 j q b
        · rw [show j = v.size - (i + s.size) by omega]; exact hne

end Verif.StrView
