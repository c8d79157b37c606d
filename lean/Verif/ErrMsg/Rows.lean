import Verif.ErrMsg.Lemmas

namespace Verif.ErrMsg
open Spec

theorem pair_of_mem {α : Type} {P : α → α → Prop} {l : List α} (h : l.Pairwise P) {a b : α} (ha : a ∈ l) (hb : b ∈ l) : a = b ∨ P a b ∨ P b a := by
  induction h with
  | nil => cases ha
  | cons h1 _ ih =>
    rcases List.mem_cons.1 ha with rfl | ha
    · rcases List.mem_cons.1 hb with rfl | hb
      · exact .inl rfl
      · exact .inr (.inl (h1 b hb))
    · rcases List.mem_cons.1 hb with e | hb
      · subst e; exact .inr (.inr (h1 a ‹_›))
      · exact ih ha hb

theorem not_overlapsMarker {a b : Info} (h : overlapsMarker a b = false) : b.me < a.ms - 1 ∨ b.ms > a.me := by
  unfold overlapsMarker at h
  split at h
  · left; assumption
  · split at h
    · right; assumption
    · cases h

theorem not_overlapsText {a b : Info} (h : overlapsText a b = false) : b.te < a.ts - 1 ∨ b.ts > a.te := by
  unfold overlapsText at h
  split at h
  · left; assumption
  · split at h
    · right; assumption
    · cases h

/-- Sizes of an entry in its line. -/
theorem fits_pos {off : Nat} {x : Sub} {i : Info} (h : Fits off x i) (hb : (off : Int) ≤ x.b) (hle : x.b ≤ x.e) :
    0 ≤ i.ms ∧ i.ms < i.me ∧ i.ms ≤ i.ts ∧ i.ts < i.me ∧ i.te = i.ts + i.msg.length + 2 := by
  obtain ⟨f1, f2, f3, f4, f5, f6⟩ := h
  have h1 : i.ms < i.me := by split at f2 <;> omega
  have h0 : 0 ≤ i.ms := by omega
  rw [Int.tdiv_eq_ediv_of_nonneg (by omega)] at f3
  rw [f5]
  refine ⟨h0, h1, by omega, by omega, f4⟩

theorem marked_iff {off : Nat} {x : Sub} {i : Info} (h : Fits off x i) (c : Nat) : marked off x c ↔ i.ms ≤ c ∧ (c : Int) < i.me := by
  obtain ⟨f1, f2, -⟩ := h
  unfold marked
  rw [f1, f2]
  split <;> omega

theorem mem_index {α : Type} {l : List α} {a : α} (h : a ∈ l) : ∃ k : Nat, l[k]? = some a := by
  obtain ⟨k, hk, e⟩ := List.getElem_of_mem h
  exact ⟨k, by rw [List.getElem?_eq_getElem hk, e]⟩

theorem rows_ok {off : Nat} {xs : List Sub} {errs : List Info} (hi : Inv off xs errs) (hx : ∀ x, x ∈ xs → (off : Int) ≤ x.b ∧ x.b ≤ x.e) :
    ∃ g, rows errs = .ok g ∧ (xs = [] → g = []) ∧ ∃ tm mr tr tc, Picture off xs g tm mr tr tc := by
  unfold rows
  by_cases he : errs = []
  · have hx0 : xs = [] := List.eq_nil_of_length_eq_zero (by rw [← hi.len, he]; rfl)
    subst he hx0
    exact ⟨[], rfl, fun _ => rfl, 0, fun _ => 0, fun _ => 0, fun _ => 0, ⟨fun _ _ h => by simp at h, fun _ _ h => absurd h (Nat.not_lt_zero _), fun _ _ _ _ h => by simp at h, fun _ _ h => by simp at h, fun _ _ h => by simp at h⟩⟩
  rw [if_neg (by simpa using he)]
  dsimp only
  have pos : ∀ i, i ∈ errs → 0 ≤ i.ms ∧ i.ms < i.me ∧ i.ms ≤ i.ts ∧ i.ts < i.me ∧ i.te = i.ts + i.msg.length + 2 := by
    intro i h
    obtain ⟨k, hk⟩ := mem_index h
    have hlt : k < xs.length := by rw [← hi.len]; exact (List.getElem?_eq_some_iff.1 hk).1
    have hx' := hx _ (List.getElem_mem hlt)
    exact fits_pos (hi.fits k _ i (List.getElem?_eq_getElem hlt) hk) hx'.1 hx'.2
  have sizes := fun i (h : i ∈ errs) => le_lineSize h
  have hmo := fun i (h : i ∈ errs) => lt_markerLines h
  have hto := fun i (h : i ∈ errs) => lt_textLines h
  generalize markerLines errs = tm at *
  generalize textLines errs = tl at *
  generalize lineSize errs = W at *
  have hu : Uniform (List.replicate (tm + tl) (List.replicate W.toNat ' ')) (tm + tl) W.toNat :=
    ⟨by simp, fun r h => by rw [List.eq_of_mem_replicate h]; simp⟩
  have txt : ∀ i, i ∈ errs → ∀ w, w ∈ text tm i → w.1 = tm + i.to_ ∧ i.ts ≤ w.2.1 ∧ w.2.1 < i.te ∧ ('*' :: ' ' :: i.msg)[(w.2.1 - i.ts).toNat]? = some w.2.2 := by
    intro i h w hw
    obtain ⟨h1, h2, h3⟩ := mem_textAt.1 hw
    have := (List.getElem?_eq_some_iff.1 h3).1
    simp only [List.length_cons] at this
    have := pos i h
    exact ⟨h1, h2, by omega, h3⟩
  obtain ⟨g, eg, ug, cg⟩ := paint_ok (errs.flatMap (connector tm) ++ errs.flatMap marker ++ errs.flatMap (text tm)) hu (by
    intro w hw
    simp only [List.mem_append, List.mem_flatMap] at hw
    rcases hw with (⟨i, h, hw⟩ | ⟨i, h, hw⟩) | ⟨i, h, hw⟩
    · have := mem_connector.1 hw
      have := pos i h; have := sizes i h; have := hmo i h; have := hto i h
      omega
    · have := mem_marker.1 hw
      have := pos i h; have := sizes i h; have := hmo i h; have := hto i h
      omega
    · have := txt i h w hw
      have := pos i h; have := sizes i h; have := hmo i h; have := hto i h
      omega)
  have base : ∀ y c : Nat, y < tm + tl → (c : Int) < W → cell (List.replicate (tm + tl) (List.replicate W.toNat ' ')) y c = some ' ' := by
    intro y c h1 h2
    unfold cell
    rw [List.getElem?_replicate, if_pos h1, Option.bind_some, List.getElem?_replicate, if_pos (by omega)]
  have base' : ∀ (y c : Nat) (d : Char), cell (List.replicate (tm + tl) (List.replicate W.toNat ' ')) y c = some d → d = ' ' := by
    intro y c d h
    unfold cell at h
    rw [List.getElem?_replicate] at h
    split at h
    · rw [Option.bind_some, List.getElem?_replicate] at h
      split at h
      · exact (Option.some.inj h).symm
      · cases h
    · cases h
  have notext : ∀ (y c : Nat) (d : Char), y < tm → look y c (errs.flatMap (text tm)) d = d := by
    intro y c d hy
    refine look_none d fun w hw hh => ?_
    obtain ⟨i, h, hw⟩ := List.mem_flatMap.1 hw
    have := txt i h w hw
    omega
  have allmark : ∀ w, w ∈ errs.flatMap marker → w.2.2 = '^' := by
    intro w hw
    obtain ⟨i, h, hw⟩ := List.mem_flatMap.1 hw
    exact (mem_marker.1 hw).2.2.2
  have ofk : ∀ (k : Nat) x, xs[k]? = some x → ∃ i, errs[k]? = some i ∧ i ∈ errs ∧ Fits off x i := by
    intro k x hk
    have hlt : k < errs.length := by rw [hi.len]; exact (List.getElem?_eq_some_iff.1 hk).1
    exact ⟨errs[k], List.getElem?_eq_getElem hlt, List.getElem_mem hlt, hi.fits k x _ hk (List.getElem?_eq_getElem hlt)⟩
  refine ⟨g, eg, fun h => absurd (List.eq_nil_of_length_eq_zero (by rw [hi.len, h]; rfl)) he, tm,
    fun k => (errs[k]?).elim 0 (·.mo), fun k => (errs[k]?).elim 0 (fun i => tm + i.to_), fun k => (errs[k]?).elim 0 (·.ts.toNat), ⟨?_, ?_, ?_, ?_, ?_⟩⟩
  · intro k x hk
    obtain ⟨i, ek, him, hf⟩ := ofk k x hk
    simp only [ek, Option.elim_some]
    refine ⟨hmo i him, fun c hc => ?_⟩
    rw [marked_iff hf] at hc
    have p := pos i him; have s := sizes i him; have m := hmo i him
    rw [cg, base _ _ (by omega) (by omega), Option.map_some, look_append, notext _ _ _ m, look_append]
    refine congrArg some (look_all _ (i.mo, c, '^') (List.mem_flatMap.2 ⟨i, him, mem_marker.2 ⟨rfl, hc.1, hc.2, rfl⟩⟩) rfl rfl fun w hw _ _ => allmark w hw)
  · intro y c hy hc
    rw [cg] at hc
    obtain ⟨d, hd, hl⟩ := Option.map_eq_some_iff.1 hc
    obtain rfl := base' _ _ _ hd
    rw [look_append, notext _ _ _ hy, look_append] at hl
    rcases look_cases y c (errs.flatMap marker) (look y c (errs.flatMap (connector tm)) ' ') with h1 | ⟨w, hw, h1, h2, -⟩
    · rw [h1.1] at hl
      rcases look_cases y c (errs.flatMap (connector tm)) ' ' with h2 | ⟨w, hw, -, -, h2⟩
      · rw [h2.1] at hl; exact absurd hl (by decide)
      · obtain ⟨i, -, hw⟩ := List.mem_flatMap.1 hw
        rw [h2, (mem_connector.1 hw).2.2.2] at hl
        exact absurd hl (by decide)
    · obtain ⟨i, him, hw⟩ := List.mem_flatMap.1 hw
      obtain ⟨m1, m2, m3, -⟩ := mem_marker.1 hw
      obtain ⟨k, hk⟩ := mem_index him
      have hlt : k < xs.length := by rw [← hi.len]; exact (List.getElem?_eq_some_iff.1 hk).1
      refine ⟨k, xs[k], List.getElem?_eq_getElem hlt, ?_, ?_⟩
      · simp only [hk, Option.elim_some]; omega
      · rw [marked_iff (hi.fits k _ i (List.getElem?_eq_getElem hlt) hk)]; omega
  · intro k l x y hk hl hlt hr c d hc hd
    obtain ⟨i, ek, him, hf⟩ := ofk k x hk
    obtain ⟨j, el, hjm, hg⟩ := ofk l y hl
    simp only [ek, el, Option.elim_some] at hr
    rw [marked_iff hf] at hc
    rw [marked_iff hg] at hd
    obtain ⟨h1, e1⟩ := List.getElem?_eq_some_iff.1 ek
    obtain ⟨h2, e2⟩ := List.getElem?_eq_some_iff.1 el
    have := List.pairwise_iff_getElem.1 hi.apart k l h1 h2 hlt
    rw [e1, e2] at this
    have := not_overlapsMarker (this.1 hr)
    omega
  · intro k x hk
    obtain ⟨i, ek, him, hf⟩ := ofk k x hk
    simp only [ek, Option.elim_some]
    have p := pos i him; have s := sizes i him; have m := hmo i him; have t := hto i him
    refine ⟨by omega, by rw [marked_iff hf]; omega, fun j c hj => ?_⟩
    have hmsg : i.msg = x.msg := hf.2.2.2.2.1
    rw [← hmsg] at hj
    have hjl := (List.getElem?_eq_some_iff.1 hj).1
    simp only [List.length_cons] at hjl
    rw [cg, base _ _ (by omega) (by omega), Option.map_some, look_append]
    refine congrArg some (look_all _ (tm + i.to_, i.ts + j, c) (List.mem_flatMap.2 ⟨i, him, mem_textAt.2 ⟨rfl, by dsimp only; omega, ?_⟩⟩) (by dsimp only; omega) (by dsimp only; omega) ?_)
    · dsimp only
      rw [show (i.ts + (j : Int) - i.ts).toNat = j by omega]
      exact hj
    · intro w hw hy hx'
      obtain ⟨i', him', hw⟩ := List.mem_flatMap.1 hw
      obtain ⟨t1, t2, t3, t4⟩ := txt i' him' w hw
      rcases pair_of_mem hi.apart him him' with rfl | h | h
      · rw [show (w.2.1 - i.ts).toNat = j by omega] at t4
        exact Option.some.inj (t4.symm.trans hj)
      · have := not_overlapsText (h.2 (by omega)); omega
      · have := not_overlapsText (h.2 (by omega)); omega
  · intro k x hk y h1 h2
    obtain ⟨i, ek, him, hf⟩ := ofk k x hk
    simp only [ek, Option.elim_some] at h1 h2 ⊢
    have p := pos i him; have s := sizes i him; have m := hmo i him; have t := hto i him
    rw [cg, base _ _ (by omega) (by omega), Option.map_some, look_append, look_append]
    rcases look_cases y i.ts.toNat (errs.flatMap (text tm)) (look y i.ts.toNat (errs.flatMap marker) (look y i.ts.toNat (errs.flatMap (connector tm)) ' ')) with q1 | ⟨w, hw, q1, q2, -⟩
    · rw [q1.1]
      rcases look_cases y i.ts.toNat (errs.flatMap marker) (look y i.ts.toNat (errs.flatMap (connector tm)) ' ') with q2 | ⟨w, hw, -, -, q2⟩
      · left
        rw [q2.1]
        refine congrArg some (look_all _ (y, i.ts, '|') (List.mem_flatMap.2 ⟨i, him, mem_connector.2 ⟨rfl, by dsimp only; omega, by dsimp only; omega, rfl⟩⟩) rfl (by dsimp only; omega) ?_)
        intro w hw _ _
        obtain ⟨i', -, hw⟩ := List.mem_flatMap.1 hw
        exact (mem_connector.1 hw).2.2.2
      · right; left
        rw [q2, allmark w hw]
    · right; right
      obtain ⟨i', him', hw⟩ := List.mem_flatMap.1 hw
      obtain ⟨t1, t2, t3, -⟩ := txt i' him' w hw
      obtain ⟨l, el⟩ := mem_index him'
      have hlt : l < xs.length := by rw [← hi.len]; exact (List.getElem?_eq_some_iff.1 el).1
      have hg := hi.fits l _ i' (List.getElem?_eq_getElem hlt) el
      have hmsg : i'.msg = (xs[l]).msg := hg.2.2.2.2.1
      have p' := pos i' him'
      refine ⟨l, xs[l], List.getElem?_eq_getElem hlt, ?_⟩
      rw [← hmsg]
      simp only [el, Option.elim_some]
      omega

theorem paint_or (g : List Str) (ws : List Write) : (∃ g', paint g ws = .ok g') ∨ paint g ws = .error .assert := by
  induction ws generalizing g with
  | nil => exact .inl ⟨g, rfl⟩
  | cons w ws ih =>
    obtain ⟨y, x, c⟩ := w
    show (∃ g', (put g y x c >>= fun g => paint g ws) = _) ∨ (put g y x c >>= fun g => paint g ws) = _
    have : (∃ g', put g y x c = .ok g') ∨ put g y x c = .error .assert := by
      unfold put
      by_cases h1 : decide (0 ≤ y ∧ y < g.length) = true
      · rw [ccAssert_true h1, R.ok_bind]
        dsimp only
        by_cases h2 : decide (0 ≤ x ∧ x < (g.getD y.toNat []).length) = true
        · rw [ccAssert_true h2, R.ok_bind]; exact .inl ⟨_, rfl⟩
        · rw [ccAssert_false (Bool.eq_false_iff.2 h2), R.error_bind]; exact .inr rfl
      · rw [ccAssert_false (Bool.eq_false_iff.2 h1), R.error_bind]; exact .inr rfl
    rcases this with ⟨g', e⟩ | e
    · rw [e, R.ok_bind]; exact ih g'
    · rw [e, R.error_bind]; exact .inr rfl

theorem rows_or (errs : List Info) : (∃ g, rows errs = .ok g) ∨ rows errs = .error .assert := by
  unfold rows
  split
  · exact .inl ⟨_, rfl⟩
  · exact paint_or _ _

theorem rows_assert {errs : List Info} {i : Info} (h : i ∈ errs) (h1 : i.ms < 0) (h2 : 0 < i.me) : rows errs = .error .assert := by
  unfold rows
  rw [if_neg (by intro he; rw [List.isEmpty_iff] at he; subst he; cases h)]
  refine paint_assert _ ⟨(i.mo, i.ms, '^'), ?_, .inr h1⟩
  simp only [List.mem_append, List.mem_flatMap]
  exact .inl (.inr ⟨i, h, mem_marker.2 ⟨rfl, Int.le_refl _, by dsimp only; omega, rfl⟩⟩)

theorem addRows_eq (g : List Str) (res : Str) : addRows res g = res ++ g.flatMap (fun r => ['\n', ' ', ' '] ++ r) := by
  induction g generalizing res with
  | nil => simp [addRows]
  | cons r g ih => simp [addRows, ih]

theorem addMessages_eq (xs : List Sub) (res : Str) : addMessages res xs = res ++ xs.flatMap (fun x => ['\n', '*', ' '] ++ x.msg) := by
  induction xs generalizing res with
  | nil => simp [addMessages]
  | cons x xs ih => simp [addMessages, ih]

/-- Lines with their pictures, each after a line break. -/
def glue (ls : List (Nat × Str)) (gs : List (List Str)) : Str := (List.zipWith (fun l g => block l.2 g) ls gs).flatMap ('\n' :: ·)

theorem filter_onLine {off : Nat} {line : Str} {errors : List Sub} (hle : ∀ x, x ∈ errors → x.b ≤ x.e) (h1 : ∀ x, x ∈ errors → x.b < off → x.e ≤ off) :
    errors.filter (fun x => (mkInfo off line x).isSome) = onLine off line errors := by
  unfold onLine
  exact List.filter_congr fun x hx => mkInfo_isSome (hle x hx) (h1 x hx)

theorem loop_ok {errors : List Sub} (hle : ∀ x, x ∈ errors → x.b ≤ x.e) (ls : List (Nat × Str)) : ∀ (first : Bool) (res : Str), (∀ x, x ∈ errors → ∀ l, l ∈ ls → x.b < l.1 → x.e ≤ l.1) →
    ∃ gs : List (List Str), gs.length = ls.length ∧ (∀ (k : Nat) l g, ls[k]? = some l → gs[k]? = some g → Good l.1 l.2 errors g) ∧
      loop errors first res ls = some (.ok (res ++ (if first then (glue ls gs).tail else glue ls gs))) := by
  induction ls with
  | nil => intro first res _; refine ⟨[], rfl, by simp, ?_⟩; simp [loop, glue]
  | cons l ls ih =>
    intro first res h
    obtain ⟨off, line⟩ := l
    obtain ⟨errs, e1, hi⟩ := prepare_ok (off := off) (line := line) errors (inv_nil off)
    rw [List.nil_append, filter_onLine hle (fun x hx => h x hx (off, line) List.mem_cons_self)] at hi
    obtain ⟨g, e2, h2, h3⟩ := rows_ok hi (by
      intro x hx
      unfold onLine at hx
      simp only [List.mem_filter, decide_eq_true_eq] at hx
      exact ⟨hx.2.1, hle x hx.1⟩)
    obtain ⟨gs, l1, g1, e3⟩ := ih false (addRows (((if first then res else res ++ ['\n']) ++ ['>', ' ']) ++ line) g) (fun x hx l hl => h x hx l (List.mem_cons_of_mem _ hl))
    refine ⟨g :: gs, by simp [l1], ?_, ?_⟩
    · intro k l g' hk hg
      cases k with
      | zero =>
        simp at hk hg
        subst hk hg
        exact ⟨h2, h3⟩
      | succ k => exact g1 k l g' (by simpa using hk) (by simpa using hg)
    · unfold loop
      rw [e1]
      show (match rows errs with | Except.error f => some (Except.error f) | Except.ok r => loop errors false _ ls) = _
      rw [e2]
      dsimp only
      rw [e3, addRows_eq]
      cases first <;> simp [glue, block]

theorem loop_assert {errors : List Sub} (ls : List (Nat × Str)) : ∀ (first : Bool) (res : Str), (∃ x, x ∈ errors ∧ ∃ l, l ∈ ls ∧ x.b < l.1 ∧ (l.1 : Int) < x.e) →
    loop errors first res ls = some (.error .assert) := by
  induction ls with
  | nil => rintro _ _ ⟨_, _, _, h, _⟩; cases h
  | cons l ls ih =>
    rintro first res ⟨x, hx, l', hl', h1, h2⟩
    obtain ⟨off, line⟩ := l
    obtain ⟨errs, e1, hi⟩ := prepare_ok (off := off) (line := line) errors (inv_nil off)
    unfold loop
    rw [e1]
    show (match rows errs with | Except.error f => some (Except.error f) | Except.ok r => loop errors false _ ls) = _
    rcases List.mem_cons.1 hl' with rfl | hl'
    · have : rows errs = .error .assert := by
        dsimp only at h1 h2
        have hsome : (mkInfo off line x).isSome = true := by
          cases hm : mkInfo off line x with
          | some _ => rfl
          | none =>
            have := mkInfo_none hm
            split at this <;> omega
        rw [List.nil_append] at hi
        obtain ⟨k, hk⟩ := mem_index ((List.mem_filter (p := fun x => (mkInfo off line x).isSome)).2 ⟨hx, hsome⟩)
        have hlt : k < errs.length := by rw [hi.len]; exact (List.getElem?_eq_some_iff.1 hk).1
        obtain ⟨f1, f2, -⟩ := hi.fits k x _ hk (List.getElem?_eq_getElem hlt)
        refine rows_assert (List.getElem_mem hlt) (by omega) (by split at f2 <;> omega)
      rw [this]
    · rcases rows_or errs with ⟨g, e⟩ | e
      · rw [e]; exact ih _ _ ⟨x, hx, l', hl', h1, h2⟩
      · rw [e]

theorem lines_ne (off : Nat) (s : Str) : lines off s ≠ [] := by
  induction s generalizing off with
  | nil => simp [lines]
  | cons c s ih =>
    unfold lines
    split
    · simp
    · have := ih (off + 1)
      split
      · simp
      · contradiction

theorem glue_tail (ls : List (Nat × Str)) (gs : List (List Str)) : (glue ls gs).tail = ['\n'].intercalate (List.zipWith (fun l g => block l.2 g) ls gs) := by
  unfold glue
  generalize List.zipWith (fun (l : Nat × Str) g => block l.2 g) ls gs = bs
  cases bs with
  | nil => rfl
  | cons b bs =>
    simp only [List.flatMap_cons, List.cons_append, List.tail_cons]
    induction bs generalizing b with
    | nil => simp [List.intercalate]
    | cons c bs ih =>
      rw [List.flatMap_cons, List.cons_append, ih c]
      simp [List.intercalate, List.intersperse]

end Verif.ErrMsg
