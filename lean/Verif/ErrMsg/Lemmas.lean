import Verif.ErrMsg.Spec

namespace Verif.ErrMsg
open Spec

/-! ### Painting -/

/-- What a cell shows after some writes. -/
def look (y x : Int) (ws : List Write) (d : Char) : Char := ws.foldl (fun d w => if w.1 = y ∧ w.2.1 = x then w.2.2 else d) d

theorem look_append (y x : Int) (a b : List Write) (d : Char) : look y x (a ++ b) d = look y x b (look y x a d) := by simp [look]

theorem look_none {y x : Int} {ws : List Write} (d : Char) (h : ∀ w, w ∈ ws → ¬(w.1 = y ∧ w.2.1 = x)) : look y x ws d = d := by
  induction ws generalizing d with
  | nil => rfl
  | cons w ws ih =>
    show look y x ws (if w.1 = y ∧ w.2.1 = x then w.2.2 else d) = d
    rw [if_neg (h w List.mem_cons_self)]
    exact ih d (fun v hv => h v (List.mem_cons_of_mem _ hv))

theorem look_cases (y x : Int) (ws : List Write) (d : Char) : look y x ws d = d ∧ (∀ w, w ∈ ws → w.1 = y → w.2.1 = x → w.2.2 = d) ∨ ∃ w, w ∈ ws ∧ w.1 = y ∧ w.2.1 = x ∧ look y x ws d = w.2.2 := by
  induction ws generalizing d with
  | nil => exact .inl ⟨rfl, fun _ h => nomatch h⟩
  | cons w ws ih =>
    have e : look y x (w :: ws) d = look y x ws (if w.1 = y ∧ w.2.1 = x then w.2.2 else d) := rfl
    rw [e]
    by_cases hw : w.1 = y ∧ w.2.1 = x
    · rw [if_pos hw]
      rcases ih w.2.2 with h | ⟨v, hv, h1, h2, h3⟩
      · exact .inr ⟨w, List.mem_cons_self, hw.1, hw.2, h.1⟩
      · exact .inr ⟨v, List.mem_cons_of_mem _ hv, h1, h2, h3⟩
    · rw [if_neg hw]
      rcases ih d with h | ⟨v, hv, h1, h2, h3⟩
      · refine .inl ⟨h.1, fun v hv h1 h2 => ?_⟩
        rcases List.mem_cons.1 hv with rfl | hv
        · exact absurd ⟨h1, h2⟩ hw
        · exact h.2 v hv h1 h2
      · exact .inr ⟨v, List.mem_cons_of_mem _ hv, h1, h2, h3⟩

theorem look_all {y x : Int} {ws : List Write} {c : Char} (d : Char) (w : Write) (hw : w ∈ ws) (hy : w.1 = y) (hx : w.2.1 = x)
    (h : ∀ w, w ∈ ws → w.1 = y → w.2.1 = x → w.2.2 = c) : look y x ws d = c := by
  rcases look_cases y x ws d with h1 | ⟨v, hv, h1, h2, h3⟩
  · rw [h1.1, ← h1.2 w hw hy hx]; exact h w hw hy hx
  · rw [h3]; exact h v hv h1 h2

/-- A grid of `H` rows with `W` columns. -/
def Uniform (g : List Str) (H W : Nat) : Prop := g.length = H ∧ ∀ r, r ∈ g → r.length = W

theorem put_ok {g : List Str} {H W : Nat} (hu : Uniform g H W) {y x : Int} (c : Char) (hy : 0 ≤ y ∧ y < H) (hx : 0 ≤ x ∧ x < W) :
    ∃ g', put g y x c = .ok g' ∧ Uniform g' H W ∧ ∀ i j : Nat, cell g' i j = (cell g i j).map (fun d => if y = i ∧ x = j then c else d) := by
  obtain ⟨hl, hr⟩ := hu
  have hyl : y.toNat < g.length := by omega
  have hget : g.getD y.toNat [] = g[y.toNat] := by simp [List.getD, hyl]
  have hrl : (g[y.toNat]).length = W := hr _ (List.getElem_mem hyl)
  refine ⟨g.set y.toNat ((g[y.toNat]).set x.toNat c), ?_, ⟨by simpa using hl, ?_⟩, ?_⟩
  · unfold put
    rw [ccAssert_true (by rw [decide_eq_true_eq]; omega), R.ok_bind]
    simp only [hget]
    rw [ccAssert_true (by rw [decide_eq_true_eq]; omega), R.ok_bind]
  · intro r h
    rcases List.mem_or_eq_of_mem_set h with h | h
    · exact hr r h
    · rw [h]; simpa using hrl
  · intro i j
    unfold cell
    rw [List.getElem?_set]
    by_cases hi : y.toNat = i
    · subst hi
      rw [if_pos rfl, if_pos hyl, List.getElem?_eq_getElem hyl]
      simp only [Option.bind_some]
      rw [List.getElem?_set]
      by_cases hj : x.toNat = j
      · subst hj
        have : x.toNat < (g[y.toNat]).length := by omega
        rw [if_pos rfl, if_pos this, List.getElem?_eq_getElem this, Option.map_some, if_pos (by omega)]
      · rw [if_neg hj]
        have : ¬(y = (y.toNat : Int) ∧ x = (j : Int)) := by omega
        simp only [this, if_false, Option.map_id']
    · rw [if_neg hi]
      have : ¬(y = (i : Int) ∧ x = (j : Int)) := by omega
      simp [this]

theorem paint_ok {H W : Nat} (ws : List Write) : ∀ {g : List Str}, Uniform g H W → (∀ w, w ∈ ws → (0 ≤ w.1 ∧ w.1 < H) ∧ 0 ≤ w.2.1 ∧ w.2.1 < W) →
    ∃ g', paint g ws = .ok g' ∧ Uniform g' H W ∧ ∀ i j : Nat, cell g' i j = (cell g i j).map (look i j ws) := by
  induction ws with
  | nil => intro g hu _; exact ⟨g, rfl, hu, fun i j => by cases cell g i j <;> rfl⟩
  | cons w ws ih =>
    intro g hu h
    obtain ⟨y, x, c⟩ := w
    obtain ⟨hy, hx⟩ := h _ List.mem_cons_self
    obtain ⟨g1, e1, u1, c1⟩ := put_ok hu c hy hx
    obtain ⟨g2, e2, u2, c2⟩ := ih u1 (fun w hw => h w (List.mem_cons_of_mem _ hw))
    refine ⟨g2, ?_, u2, fun i j => ?_⟩
    · show (put g y x c >>= fun g => paint g ws) = _
      rw [e1, R.ok_bind, e2]
    · rw [c2, c1]
      cases cell g i j <;> rfl

theorem paint_assert {g : List Str} (ws : List Write) : (∃ w, w ∈ ws ∧ (w.1 < 0 ∨ w.2.1 < 0)) → paint g ws = .error .assert := by
  induction ws generalizing g with
  | nil => rintro ⟨w, hw, _⟩; cases hw
  | cons w ws ih =>
    obtain ⟨y, x, c⟩ := w
    rintro ⟨v, hv, hb⟩
    show (put g y x c >>= fun g => paint g ws) = _
    by_cases h1 : 0 ≤ y ∧ y < g.length
    · by_cases h2 : 0 ≤ x ∧ x < (g.getD y.toNat []).length
      · have : put g y x c = .ok (g.set y.toNat ((g.getD y.toNat []).set x.toNat c)) := by
          unfold put
          rw [ccAssert_true (by rw [decide_eq_true_eq]; exact h1), R.ok_bind]
          dsimp only
          rw [ccAssert_true (by rw [decide_eq_true_eq]; exact h2), R.ok_bind]
        rw [this, R.ok_bind]
        rcases List.mem_cons.1 hv with rfl | hv
        · dsimp only at hb; omega
        · exact ih ⟨v, hv, hb⟩
      · have : put g y x c = .error .assert := by
          unfold put
          rw [ccAssert_true (by rw [decide_eq_true_eq]; exact h1), R.ok_bind]
          dsimp only
          rw [ccAssert_false (by rw [decide_eq_false_iff_not]; exact h2), R.error_bind]
        rw [this, R.error_bind]
    · have : put g y x c = .error .assert := by
        unfold put
        rw [ccAssert_false (by rw [decide_eq_false_iff_not]; exact h1), R.error_bind]
      rw [this, R.error_bind]

theorem mem_upFrom {a : Int} {n : Nat} {z : Int} : z ∈ upFrom a n ↔ a ≤ z ∧ z < a + n := by
  induction n generalizing a with
  | zero => simp only [upFrom, List.not_mem_nil, false_iff]; omega
  | succ n ih => simp only [upFrom, List.mem_cons, ih]; omega

theorem mem_textAt {y x : Int} {s : Str} {w : Write} : w ∈ textAt y x s ↔ w.1 = y ∧ x ≤ w.2.1 ∧ s[(w.2.1 - x).toNat]? = some w.2.2 := by
  induction s generalizing x with
  | nil => simp [textAt]
  | cons c s ih =>
    obtain ⟨wy, wx, wc⟩ := w
    simp only [textAt, List.mem_cons, ih, Prod.mk.injEq]
    constructor
    · rintro (⟨rfl, rfl, rfl⟩ | ⟨rfl, h, h2⟩)
      · simp
      · have : (wx - x).toNat = (wx - (x + 1)).toNat + 1 := by omega
        refine ⟨rfl, by omega, ?_⟩
        rw [this]; simpa using h2
    · rintro ⟨rfl, h, h2⟩
      by_cases hx : wx = x
      · subst hx
        simp at h2
        exact .inl ⟨rfl, rfl, h2.symm⟩
      · have : (wx - x).toNat = (wx - (x + 1)).toNat + 1 := by omega
        rw [this] at h2
        exact .inr ⟨rfl, by omega, by simpa using h2⟩

theorem mem_marker {i : Info} {w : Write} : w ∈ marker i ↔ w.1 = i.mo ∧ i.ms ≤ w.2.1 ∧ w.2.1 < i.me ∧ w.2.2 = '^' := by
  obtain ⟨y, x, c⟩ := w
  simp only [marker, List.mem_map, mem_upFrom, Prod.mk.injEq]
  constructor
  · rintro ⟨a, h, rfl, rfl, rfl⟩; exact ⟨rfl, by omega, by omega, rfl⟩
  · rintro ⟨rfl, h1, h2, rfl⟩; exact ⟨x, by omega, rfl, rfl, rfl⟩

theorem mem_connector {tm : Nat} {i : Info} {w : Write} : w ∈ connector tm i ↔ w.2.1 = i.ts ∧ i.mo + 1 ≤ w.1 ∧ w.1 ≤ tm + i.to_ - 1 ∧ w.2.2 = '|' := by
  obtain ⟨y, x, c⟩ := w
  simp only [connector, List.mem_map, mem_upFrom, Prod.mk.injEq]
  constructor
  · rintro ⟨a, h, rfl, rfl, rfl⟩; exact ⟨rfl, by omega, by omega, rfl⟩
  · rintro ⟨rfl, h1, h2, rfl⟩; exact ⟨y, by omega, rfl, rfl, rfl⟩

/-! ### Totals -/

theorem foldl_le {f : Nat → Info → Nat} (hf : ∀ m i, m ≤ f m i) (es : List Info) (m : Nat) : m ≤ es.foldl f m := by
  induction es generalizing m with
  | nil => exact Nat.le_refl _
  | cons e es ih => exact Nat.le_trans (hf m e) (ih _)

theorem lt_markerLines {es : List Info} {i : Info} (h : i ∈ es) : i.mo < markerLines es := by
  have : ∀ (es : List Info) m, i ∈ es → i.mo + 1 ≤ es.foldl (fun m i => max m (i.mo + 1)) m := by
    intro es
    induction es with
    | nil => intro m h; cases h
    | cons e es ih =>
      intro m h
      rcases List.mem_cons.1 h with rfl | h
      · exact Nat.le_trans (Nat.le_max_right _ _) (foldl_le (f := fun m i => max m (i.mo + 1)) (fun m i => Nat.le_max_left _ _) es _)
      · exact ih _ h
  exact this es 0 h

theorem lt_textLines {es : List Info} {i : Info} (h : i ∈ es) : i.to_ < textLines es := by
  have : ∀ (es : List Info) m, i ∈ es → i.to_ + 1 ≤ es.foldl (fun m i => max m (i.to_ + 1)) m := by
    intro es
    induction es with
    | nil => intro m h; cases h
    | cons e es ih =>
      intro m h
      rcases List.mem_cons.1 h with rfl | h
      · exact Nat.le_trans (Nat.le_max_right _ _) (foldl_le (f := fun m i => max m (i.to_ + 1)) (fun m i => Nat.le_max_left _ _) es _)
      · exact ih _ h
  exact this es 0 h

theorem le_lineSize {es : List Info} {i : Info} (h : i ∈ es) : i.me ≤ lineSize es ∧ i.te ≤ lineSize es := by
  have h0 : ∀ (es : List Info) (m : Int), m ≤ es.foldl (fun m i => max (max m i.me) i.te) m := by
    intro es
    induction es with
    | nil => intro m; exact Int.le_refl _
    | cons e es ih => intro m; have := ih (max (max m e.me) e.te); simp only [List.foldl_cons]; omega
  have : ∀ (es : List Info) (m : Int), i ∈ es → i.me ≤ es.foldl (fun m i => max (max m i.me) i.te) m ∧ i.te ≤ es.foldl (fun m i => max (max m i.me) i.te) m := by
    intro es
    induction es with
    | nil => intro m h; cases h
    | cons e es ih =>
      intro m h
      rcases List.mem_cons.1 h with rfl | h
      · have := h0 es (max (max m i.me) i.te); simp only [List.foldl_cons]; omega
      · exact ih _ h
  exact this es 0 h

/-! ### Finding rows -/

theorem allocMarker_ok {errs : List Info} (hb : ∀ e, e ∈ errs → e.mo < errs.length) : ∀ (n : Nat) (i : Info), i.mo ≤ errs.length → errs.length < i.mo + n →
    ∃ m, allocMarker errs n i = some { i with mo := m } ∧ m ≤ errs.length ∧ ∀ e, e ∈ errs → e.mo = m → overlapsMarker e { i with mo := m } = false := by
  intro n
  induction n with
  | zero => intro i h1 h2; omega
  | succ n ih =>
    intro i h1 h2
    unfold allocMarker
    by_cases h : errs.any (fun ee => ee.mo == i.mo && overlapsMarker ee i) = true
    · rw [if_pos h]
      obtain ⟨e, he, h3⟩ := List.any_eq_true.1 h
      simp only [Bool.and_eq_true, beq_iff_eq] at h3
      have := hb e he
      exact ih { i with mo := i.mo + 1 } (by show i.mo + 1 ≤ _; omega) (by show _ < i.mo + 1 + n; omega)
    · rw [if_neg h]
      refine ⟨i.mo, rfl, h1, fun e he hm => ?_⟩
      cases ho : overlapsMarker e i with
      | false => rfl
      | true => exact absurd (List.any_eq_true.2 ⟨e, he, by simp [hm, ho]⟩) h

theorem allocText_ok {errs : List Info} (hb : ∀ e, e ∈ errs → e.to_ < errs.length) : ∀ (n : Nat) (i : Info), i.to_ ≤ errs.length → errs.length < i.to_ + n →
    ∃ m, allocText errs n i = some { i with to_ := m } ∧ m ≤ errs.length ∧ ∀ e, e ∈ errs → e.to_ = m → overlapsText e { i with to_ := m } = false := by
  intro n
  induction n with
  | zero => intro i h1 h2; omega
  | succ n ih =>
    intro i h1 h2
    unfold allocText
    by_cases h : errs.any (fun ee => ee.to_ == i.to_ && overlapsText ee i) = true
    · rw [if_pos h]
      obtain ⟨e, he, h3⟩ := List.any_eq_true.1 h
      simp only [Bool.and_eq_true, beq_iff_eq] at h3
      have := hb e he
      exact ih { i with to_ := i.to_ + 1 } (by show i.to_ + 1 ≤ _; omega) (by show _ < i.to_ + 1 + n; omega)
    · rw [if_neg h]
      refine ⟨i.to_, rfl, h1, fun e he hm => ?_⟩
      cases ho : overlapsText e i with
      | false => rfl
      | true => exact absurd (List.any_eq_true.2 ⟨e, he, by simp [hm, ho]⟩) h

/-- The entry of an error, apart from its rows. -/
def Fits (off : Nat) (x : Sub) (i : Info) : Prop :=
  i.ms = x.b - off ∧ i.me = (if x.b = x.e then x.e - off + 1 else x.e - off) ∧ i.ts = (i.ms + i.me - 1).tdiv 2 ∧ i.te = i.ts + x.msg.length + 2 ∧ i.msg = x.msg ∧ 0 < i.me

theorem mkInfo_some {off : Nat} {line : Str} {x : Sub} {i : Info} (h : mkInfo off line x = some i) : Fits off x i ∧ i.mo = 0 ∧ i.to_ = 0 ∧ i.ms ≤ line.length := by
  unfold mkInfo at h
  dsimp only at h
  have e : (x.b - (off : Int) = x.e - off) = (x.b = x.e) := by apply propext; omega
  simp only [e] at h
  unfold Fits
  generalize (if x.b = x.e then x.e - (off : Int) + 1 else x.e - off) = me at h ⊢
  split at h
  · cases h
  · split at h
    · cases h
    · obtain rfl := Option.some.inj h
      refine ⟨⟨rfl, rfl, rfl, rfl, rfl, by dsimp only; omega⟩, rfl, rfl, by dsimp only; omega⟩

theorem mkInfo_none {off : Nat} {line : Str} {x : Sub} (h : mkInfo off line x = none) : (if x.b = x.e then x.e - (off : Int) + 1 else x.e - off) ≤ 0 ∨ x.b - off > line.length := by
  unfold mkInfo at h
  dsimp only at h
  have e : (x.b - (off : Int) = x.e - off) = (x.b = x.e) := by apply propext; omega
  simp only [e] at h
  generalize (if x.b = x.e then x.e - (off : Int) + 1 else x.e - off) = me at h ⊢
  by_cases h1 : me ≤ 0
  · exact .inl h1
  · rw [if_neg h1] at h
    by_cases h2 : x.b - off > line.length
    · exact .inr h2
    · rw [if_neg h2] at h; cases h

/-- The entries of the errors so far. -/
structure Inv (off : Nat) (xs : List Sub) (errs : List Info) : Prop where
  len : errs.length = xs.length
  fits : ∀ (k : Nat) x i, xs[k]? = some x → errs[k]? = some i → Fits off x i
  mo : ∀ e, e ∈ errs → e.mo < errs.length
  to_ : ∀ e, e ∈ errs → e.to_ < errs.length
  apart : errs.Pairwise fun a b => (a.mo = b.mo → overlapsMarker a b = false) ∧ (a.to_ = b.to_ → overlapsText a b = false)

theorem inv_snoc {off : Nat} {xs : List Sub} {errs : List Info} (hi : Inv off xs errs) {line : Str} {x : Sub} {i : Info} (h : mkInfo off line x = some i) :
    ∃ j k, allocMarker errs (errs.length + 1) i = some j ∧ allocText errs (errs.length + 1) j = some k ∧ Inv off (xs ++ [x]) (errs ++ [k]) := by
  obtain ⟨hf, hm, ht, -⟩ := mkInfo_some h
  obtain ⟨m, e1, l1, a1⟩ := allocMarker_ok hi.mo (errs.length + 1) i (by omega) (by omega)
  obtain ⟨t, e2, l2, a2⟩ := allocText_ok hi.to_ (errs.length + 1) { i with mo := m } (by show i.to_ ≤ _; omega) (by show _ < i.to_ + _; omega)
  refine ⟨_, _, e1, e2, ?_⟩
  refine ⟨by simp [hi.len], ?_, ?_, ?_, ?_⟩
  · intro k y j h1 h2
    rcases Nat.lt_trichotomy k xs.length with hk | hk | hk
    · rw [List.getElem?_append_left hk] at h1
      rw [List.getElem?_append_left (by rw [hi.len]; exact hk)] at h2
      exact hi.fits k y j h1 h2
    · subst hk
      rw [List.getElem?_append_right (Nat.le_refl _)] at h1
      rw [← hi.len, List.getElem?_append_right (Nat.le_refl _)] at h2
      simp at h1 h2
      subst h1 h2
      exact hf
    · rw [List.getElem?_append_right (by omega)] at h1
      have : k - xs.length = (k - xs.length - 1) + 1 := by omega
      rw [this] at h1; simp at h1
  · intro e he
    simp only [List.mem_append, List.mem_singleton, List.length_append, List.length_singleton] at he ⊢
    rcases he with he | rfl
    · have := hi.mo e he; omega
    · show m < _; omega
  · intro e he
    simp only [List.mem_append, List.mem_singleton, List.length_append, List.length_singleton] at he ⊢
    rcases he with he | rfl
    · have := hi.to_ e he; omega
    · show t < _; omega
  · rw [List.pairwise_append]
    refine ⟨hi.apart, by simp, ?_⟩
    intro a ha b hb
    simp only [List.mem_singleton] at hb
    subst hb
    exact ⟨fun h => a1 a ha h, fun h => a2 a ha h⟩

theorem prepare_ok {off : Nat} {line : Str} (rest : List Sub) : ∀ {xs : List Sub} {errs : List Info}, Inv off xs errs →
    ∃ errs', prepare off line rest errs = some errs' ∧ Inv off (xs ++ rest.filter (fun x => (mkInfo off line x).isSome)) errs' := by
  induction rest with
  | nil => intro xs errs hi; exact ⟨errs, rfl, by simpa using hi⟩
  | cons x rest ih =>
    intro xs errs hi
    unfold prepare
    cases h : mkInfo off line x with
    | none =>
      obtain ⟨e', h1, h2⟩ := ih hi
      refine ⟨e', h1, ?_⟩
      rw [List.filter_cons_of_neg (by simp [h])]
      exact h2
    | some i =>
      obtain ⟨j, k, e1, e2, hi'⟩ := inv_snoc hi h
      obtain ⟨e', h1, h2⟩ := ih hi'
      refine ⟨e', ?_, ?_⟩
      · show (allocMarker errs (errs.length + 1) i >>= _) = _
        rw [e1]
        show (allocText errs (errs.length + 1) j >>= _) = _
        rw [e2]
        exact h1
      · rw [List.filter_cons_of_pos (by simp [h])]
        simpa using h2

theorem inv_nil (off : Nat) : Inv off [] [] := ⟨rfl, by simp, by simp, by simp, List.Pairwise.nil⟩

/-- For a target that does not reach into this line from before. -/
theorem mkInfo_isSome {off : Nat} {line : Str} {x : Sub} (hle : x.b ≤ x.e) (h1 : x.b < off → x.e ≤ off) :
    (mkInfo off line x).isSome = decide ((off : Int) ≤ x.b ∧ x.b ≤ off + line.length) := by
  cases h : mkInfo off line x with
  | none =>
    have := mkInfo_none h
    symm
    show _ = false
    rw [decide_eq_false_iff_not]
    split at this <;> omega
  | some i =>
    obtain ⟨hf, -, -, hl⟩ := mkInfo_some h
    obtain ⟨f1, f2, -, -, -, f6⟩ := hf
    symm
    show _ = true
    rw [decide_eq_true_eq]
    split at f2 <;> omega

end Verif.ErrMsg
