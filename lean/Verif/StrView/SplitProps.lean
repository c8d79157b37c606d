import Verif.StrView.Props
/-!
# C43: splitting and trimming of `cc::string_view`
-/
namespace Verif.StrView
open Spec

/-! ### What `pieces` is -/

theorem pieces_ne_nil (p : Chr → Bool) (l : List Chr) : pieces p l ≠ [] := by
  cases l with
  | nil => simp [pieces]
  | cons c t =>
    unfold pieces
    split
    · simp
    · split <;> simp

theorem pieces_cons_sep {p : Chr → Bool} {c : Chr} {t : List Chr} (h : p c = true) : pieces p (c :: t) = [] :: pieces p t := by
  rw [pieces, if_pos h]

theorem pieces_cons_other {p : Chr → Bool} {c : Chr} {t : List Chr} (h : p c = false) :
    ∃ q qs, pieces p t = q :: qs ∧ pieces p (c :: t) = (c :: q) :: qs := by
  cases e : pieces p t with
  | nil => exact absurd e (pieces_ne_nil p t)
  | cons q qs => exact ⟨q, qs, rfl, by rw [pieces, if_neg (by simp [h]), e]⟩

theorem weave_cons (x : Chr) (q : List Chr) (qs : List (List Chr)) (ss : List Chr) :
    weave ((x :: q) :: qs) ss = x :: weave (q :: qs) ss := by
  cases qs with
  | nil => rfl
  | cons r rs => cases ss <;> rfl

theorem weave_nil_cons (q : List Chr) (qs : List (List Chr)) (s : Chr) (ss : List Chr) :
    weave ([] :: q :: qs) (s :: ss) = s :: weave (q :: qs) ss := rfl

/-- C43: cutting loses nothing: the pieces and the separators put together are the text, and no piece contains a
separator. -/
theorem C43_pieces (p : Chr → Bool) (l : List Chr) :
    weave (pieces p l) (l.filter p) = l ∧ (pieces p l).length = (l.filter p).length + 1 ∧
    (∀ q ∈ pieces p l, ∀ c ∈ q, p c = false) := by
  induction l with
  | nil => exact ⟨rfl, rfl, fun q hq c hc => by simp [pieces] at hq; subst hq; cases hc⟩
  | cons x t ih =>
    obtain ⟨h1, h2, h3⟩ := ih
    cases hp : p x with
    | true =>
      rw [pieces_cons_sep hp, List.filter_cons_of_pos hp]
      refine ⟨?_, by rw [List.length_cons, List.length_cons, h2], fun q hq c hc => ?_⟩
      · cases e : pieces p t with
        | nil => exact absurd e (pieces_ne_nil p t)
        | cons q qs => rw [weave_nil_cons, ← e, h1]
      · rcases List.mem_cons.mp hq with rfl | hq
        · cases hc
        · exact h3 q hq c hc
    | false =>
      obtain ⟨q, qs, e1, e2⟩ := pieces_cons_other (t := t) hp
      rw [e1] at h1 h2 h3
      rw [e2, List.filter_cons_of_neg (by simp [hp]), weave_cons, h1]
      refine ⟨rfl, h2, fun r hr c hc => ?_⟩
      rcases List.mem_cons.mp hr with rfl | hr
      · rcases List.mem_cons.mp hc with rfl | hc
        · exact hp
        · exact h3 q List.mem_cons_self c hc
      · exact h3 r (List.mem_cons_of_mem _ hr) c hc

example : pieces (isEqual 0#8) [0#8, 1#8, 2#8, 0#8, 0#8, 3#8] = [[], [1#8, 2#8], [], [3#8]] := by decide +kernel

/-- C43: joining the pieces of a text cut at a character with that character gives the text back. -/
theorem C43_join (sep : Chr) (l : List Chr) : [sep].intercalate (pieces (isEqual sep) l) = l := by
  induction l with
  | nil => rfl
  | cons x t ih =>
    cases hp : isEqual sep x with
    | true =>
      have hx : sep = x := by simpa [isEqual] using hp
      subst hx
      rw [pieces_cons_sep hp]
      cases e : pieces (isEqual sep) t with
      | nil => exact absurd e (pieces_ne_nil _ t)
      | cons q qs =>
        rw [e] at ih
        simp only [List.intercalate] at ih ⊢
        rw [List.intersperse_cons₂, List.flatten_cons, List.flatten_cons, ih]
        rfl
    | false =>
      obtain ⟨q, qs, e1, e2⟩ := pieces_cons_other (t := t) hp
      rw [e1] at ih
      rw [e2]
      cases qs with
      | nil =>
        simp only [List.intercalate, List.intersperse_single, List.flatten_cons, List.flatten_nil, List.append_nil] at ih ⊢
        rw [ih]
      | cons r rs =>
        simp only [List.intercalate, List.intersperse_cons₂, List.flatten_cons, List.cons_append] at ih ⊢
        rw [ih]

example : [0#8].intercalate [[], [1#8, 2#8], [], [3#8]] = [0#8, 1#8, 2#8, 0#8, 0#8, (3#8 : Chr)] := by decide +kernel

/-! ### The loops -/

theorem takeWhile_append (q : Chr → Bool) (l : List Chr) : l.takeWhile q ++ l.dropWhile q = l := List.takeWhile_append_dropWhile

theorem skipLoop_ok {v : View} (h : v.Inside) (q : Chr → Bool) (l : List Chr) (i : Nat) (hl : v.chars.drop i = l) :
    skipLoop v q l.length i = .ok (i + (l.takeWhile q).length) := by
  induction l generalizing i with
  | nil => rfl
  | cons x t ih =>
    obtain ⟨e1, d1⟩ := drop_cons hl
    rw [List.length_cons, skipLoop, rd_of_get h e1, R.ok_bind]
    cases e : q x with
    | true =>
      rw [if_pos rfl, ih (i + 1) d1, List.takeWhile_cons_of_pos e, List.length_cons]
      exact congrArg Except.ok (by omega)
    | false =>
      rw [if_neg (by simp), List.takeWhile_cons_of_neg (by simp [e])]
      rfl

theorem drop_len {v : View} (h : v.Inside) (i : Nat) : (v.chars.drop i).length = v.size - i := by
  rw [List.length_drop, chars_length h]

/-- Cutting off the first piece. -/
theorem pieces_unfold (p : Chr → Bool) (l : List Chr) :
    pieces p l = l.takeWhile (fun c => !p c) :: (match l.dropWhile (fun c => !p c) with
      | [] => []
      | _ :: t => pieces p t) := by
  induction l with
  | nil => rfl
  | cons x t ih =>
    cases hp : p x with
    | true =>
      rw [pieces_cons_sep hp, List.takeWhile_cons_of_neg (by simp [hp]), List.dropWhile_cons_of_neg (by simp [hp])]
    | false =>
      obtain ⟨q, qs, e1, e2⟩ := pieces_cons_other (t := t) hp
      rw [e2, List.takeWhile_cons_of_pos (by simp [hp]), List.dropWhile_cons_of_pos (by simp [hp])]
      rw [e1] at ih
      have := List.cons.inj ih
      rw [this.1, this.2]

theorem dropWhile_eq_drop (q : Chr → Bool) (l : List Chr) : l.dropWhile q = l.drop (l.takeWhile q).length := by
  induction l with
  | nil => rfl
  | cons x t ih =>
    cases e : q x with
    | true => rw [List.takeWhile_cons_of_pos e, List.dropWhile_cons_of_pos e, ih]; rfl
    | false => rw [List.takeWhile_cons_of_neg (by simp [e]), List.dropWhile_cons_of_neg (by simp [e])]; rfl

theorem takeWhile_length_le (q : Chr → Bool) (l : List Chr) : (l.takeWhile q).length ≤ l.length := (List.takeWhile_prefix q).length_le

/-- The piece shown by an iterator. -/
theorem piece_ok {v : View} (h : v.Inside) (q : Chr → Bool) (i k : Nat) (hk : k = ((v.chars.drop i).takeWhile q).length) (hi : i ≤ v.size) :
    (View.mk v.mem (v.off + i) (i + k - i)).Inside ∧
    (View.mk v.mem (v.off + i) (i + k - i)).chars = (v.chars.drop i).takeWhile q := by
  have hle : i + (i + k - i) ≤ v.size := by
    have := takeWhile_length_le q (v.chars.drop i)
    rw [drop_len h, ← hk] at this
    omega
  refine ⟨sub_inside h hle, ?_⟩
  rw [sub_chars hle, show i + k - i = k by omega]
  have := takeWhile_append q (v.chars.drop i)
  generalize (v.chars.drop i) = l at this hk
  rw [← this, List.take_left' hk.symm]
  rw [this]

theorem splitLoop_keep {v : View} (h : v.Inside) (p : Chr → Bool) (n i fuel : Nat) (hn : n = v.size - i) (hi : i ≤ v.size)
    (hf : n + 2 ≤ fuel) :
    ∃ ws : List View, splitLoop v p false fuel ⟨i, i + ((v.chars.drop i).takeWhile fun c => !p c).length, false⟩ = .ok (ws, true) ∧
      (∀ w ∈ ws, w.Inside) ∧ ws.map View.chars = pieces p (v.chars.drop i) := by
  induction n using Nat.strongRecOn generalizing i fuel with
  | ind n ih =>
    obtain ⟨f, rfl⟩ : ∃ f, fuel = f + 1 := ⟨fuel - 1, by omega⟩
    obtain ⟨hin, hch⟩ := piece_ok h (fun c => !p c) i _ rfl hi
    generalize hk : ((v.chars.drop i).takeWhile fun c => !p c).length = k at hin hch
    have hkle : k ≤ v.size - i := by
      rw [← hk, ← drop_len h i]; exact takeWhile_length_le _ _
    have hdw : (v.chars.drop i).dropWhile (fun c => !p c) = v.chars.drop (i + k) := by
      rw [dropWhile_eq_drop, hk, List.drop_drop]
    rw [splitLoop, if_neg (by simp)]
    unfold splitNext
    dsimp only
    by_cases c : i + k = v.size
    · rw [if_pos c, R.pure_eq, R.ok_bind]
      obtain ⟨f', rfl⟩ : ∃ f', f = f' + 1 := ⟨f - 1, by omega⟩
      rw [splitLoop, if_pos rfl]
      refine ⟨[_], rfl, fun w hw => ?_, ?_⟩
      · rw [List.mem_singleton.mp hw]; exact hin
      · have hnil : v.chars.drop (i + k) = [] := List.drop_of_length_le (by rw [chars_length h]; omega)
        rw [List.map_cons, List.map_nil, hch, pieces_unfold, hdw, hnil]
    · rw [if_neg c, if_neg (by simp), R.pure_eq, R.ok_bind, if_neg (by simp)]
      have hskip := skipLoop_ok h (fun c => !p c) (v.chars.drop (i + k + 1)) (i + k + 1) rfl
      rw [drop_len h] at hskip
      rw [hskip, R.ok_bind, R.pure_eq, R.ok_bind]
      obtain ⟨ws, e1, e2, e3⟩ := ih (v.size - (i + k + 1)) (by omega) (i + k + 1) f rfl (by omega) (by omega)
      rw [e1, R.ok_bind]
      refine ⟨_ :: ws, rfl, fun w hw => ?_, ?_⟩
      · rcases List.mem_cons.mp hw with rfl | hw
        · exact hin
        · exact e2 w hw
      · rw [List.map_cons, hch, e3, pieces_unfold p (v.chars.drop i), hdw]
        cases e : v.chars.drop (i + k) with
        | nil =>
          have := drop_len h (i + k)
          rw [e] at this
          simp at this; omega
        | cons x t =>
          rw [(drop_cons e).2]

/-- C43: `split` without skipping ends and yields the pieces between the separators in order, each inside the text;
the empty text has no pieces. -/
theorem C43_split_keep {v : View} (h : v.Inside) (p : Chr → Bool) :
    (v.size = 0 → v.split p false = .ok ([], true)) ∧
    (v.size ≠ 0 → ∃ ws : List View, v.split p false = .ok (ws, true) ∧ (∀ w ∈ ws, w.Inside) ∧
      ws.map View.chars = pieces p v.chars) := by
  unfold View.split splitBegin
  constructor
  · intro h0
    rw [if_neg (by simp), R.pure_eq, R.ok_bind]
    dsimp only
    rw [if_pos h0.symm, R.pure_eq, R.ok_bind, splitLoop, if_pos rfl]
    rfl
  · intro h0
    rw [if_neg (by simp), R.pure_eq, R.ok_bind]
    dsimp only
    rw [if_neg (fun e : 0 = v.size => h0 e.symm)]
    have hskip := skipLoop_ok h (fun c => !p c) (v.chars.drop 0) 0 rfl
    rw [drop_len h] at hskip
    rw [hskip, R.ok_bind, R.pure_eq, R.ok_bind]
    obtain ⟨ws, e1, e2, e3⟩ := splitLoop_keep h p v.size 0 (v.size + 2) rfl (Nat.zero_le _) (Nat.le_refl _)
    rw [List.drop_zero] at e3
    exact ⟨ws, e1, e2, e3⟩

example : (View.mk [0#8, 1#8, 2#8, 0#8, 0#8] 0 5).split (isEqual 0#8) false =
    .ok ([⟨[0#8, 1#8, 2#8, 0#8, 0#8], 0, 0⟩, ⟨[0#8, 1#8, 2#8, 0#8, 0#8], 1, 2⟩, ⟨[0#8, 1#8, 2#8, 0#8, 0#8], 4, 0⟩,
      ⟨[0#8, 1#8, 2#8, 0#8, 0#8], 5, 0⟩], true) := by decide +kernel

/-- The pieces that are not empty. -/
def full (p : Chr → Bool) (l : List Chr) : List (List Chr) := (pieces p l).filter (fun q => !q.isEmpty)

theorem full_nil (p : Chr → Bool) : full p [] = [] := rfl

theorem full_skip (p : Chr → Bool) (l : List Chr) : full p l = full p (l.dropWhile p) := by
  induction l with
  | nil => rfl
  | cons x t ih =>
    cases e : p x with
    | true =>
      rw [List.dropWhile_cons_of_pos e, ← ih]
      unfold full
      rw [pieces_cons_sep e]
      rfl
    | false => rw [List.dropWhile_cons_of_neg (by simp [e])]

theorem full_unfold {p : Chr → Bool} {x : Chr} {t : List Chr} (hx : p x = false) :
    full p (x :: t) = (x :: t).takeWhile (fun c => !p c) :: (match (x :: t).dropWhile (fun c => !p c) with
      | [] => []
      | _ :: u => full p u) := by
  unfold full
  rw [pieces_unfold, List.filter_cons_of_pos (by rw [List.takeWhile_cons_of_pos (by simp [hx])]; rfl)]
  refine congrArg _ ?_
  split <;> rfl

theorem splitLoop_skip {v : View} (h : v.Inside) (p : Chr → Bool) (n i fuel : Nat) (hn : n = v.size - i) (hi : i < v.size)
    (hx : ∀ x t, v.chars.drop i = x :: t → p x = false) (hf : n + 2 ≤ fuel) :
    ∃ ws : List View, splitLoop v p true fuel ⟨i, i + ((v.chars.drop i).takeWhile fun c => !p c).length, false⟩ = .ok (ws, true) ∧
      (∀ w ∈ ws, w.Inside) ∧ ws.map View.chars = full p (v.chars.drop i) := by
  induction n using Nat.strongRecOn generalizing i fuel with
  | ind n ih =>
    obtain ⟨f, rfl⟩ : ∃ f, fuel = f + 1 := ⟨fuel - 1, by omega⟩
    obtain ⟨hin, hch⟩ := piece_ok h (fun c => !p c) i _ rfl (Nat.le_of_lt hi)
    generalize hk : ((v.chars.drop i).takeWhile fun c => !p c).length = k at hin hch
    have hkle : k ≤ v.size - i := by
      rw [← hk, ← drop_len h i]; exact takeWhile_length_le _ _
    have hdw : (v.chars.drop i).dropWhile (fun c => !p c) = v.chars.drop (i + k) := by
      rw [dropWhile_eq_drop, hk, List.drop_drop]
    have hfull : full p (v.chars.drop i) = (v.chars.drop i).takeWhile (fun c => !p c) :: (match v.chars.drop (i + k) with
        | [] => []
        | _ :: u => full p u) := by
      rw [← hdw]
      cases e : v.chars.drop i with
      | nil =>
        have := drop_len h i
        rw [e] at this
        simp at this; omega
      | cons x t => exact full_unfold (hx x t e)
    rw [splitLoop, if_neg (by simp)]
    unfold splitNext
    dsimp only
    by_cases c : i + k = v.size
    · rw [if_pos c, R.pure_eq, R.ok_bind]
      obtain ⟨f', rfl⟩ : ∃ f', f = f' + 1 := ⟨f - 1, by omega⟩
      rw [splitLoop, if_pos rfl]
      refine ⟨[_], rfl, fun w hw => ?_, ?_⟩
      · rw [List.mem_singleton.mp hw]; exact hin
      · have hnil : v.chars.drop (i + k) = [] := List.drop_of_length_le (by rw [chars_length h]; omega)
        rw [List.map_cons, List.map_nil, hch, hfull, hnil]
    · rw [if_neg c, if_pos rfl]
      have hs1 := skipLoop_ok h p (v.chars.drop (i + k + 1)) (i + k + 1) rfl
      rw [drop_len h] at hs1
      rw [hs1, R.ok_bind]
      have hfull' : full p (v.chars.drop i) = (v.chars.drop i).takeWhile (fun c => !p c) :: full p (v.chars.drop (i + k + 1)) := by
        rw [hfull]
        cases e : v.chars.drop (i + k) with
        | nil =>
          have := drop_len h (i + k)
          rw [e] at this
          simp at this; omega
        | cons x t => rw [(drop_cons e).2]
      generalize hm : ((v.chars.drop (i + k + 1)).takeWhile p).length = m at hs1
      have hmle : m ≤ v.size - (i + k + 1) := by
        rw [← hm, ← drop_len h (i + k + 1)]; exact takeWhile_length_le _ _
      have hdw2 : (v.chars.drop (i + k + 1)).dropWhile p = v.chars.drop (i + k + 1 + m) := by
        rw [dropWhile_eq_drop, hm, List.drop_drop]
      by_cases c2 : i + k + 1 + m = v.size
      · rw [if_pos ⟨rfl, c2⟩, R.pure_eq, R.ok_bind]
        obtain ⟨f', rfl⟩ : ∃ f', f = f' + 1 := ⟨f - 1, by omega⟩
        rw [splitLoop, if_pos rfl]
        refine ⟨[_], rfl, fun w hw => ?_, ?_⟩
        · rw [List.mem_singleton.mp hw]; exact hin
        · have hnil : v.chars.drop (i + k + 1 + m) = [] := List.drop_of_length_le (by rw [chars_length h]; omega)
          rw [List.map_cons, List.map_nil, hch, hfull', full_skip p (v.chars.drop (i + k + 1)), hdw2, hnil, full_nil]
      · rw [if_neg (fun x => c2 x.2)]
        have hs2 := skipLoop_ok h (fun c => !p c) (v.chars.drop (i + k + 1 + m)) (i + k + 1 + m) rfl
        rw [drop_len h] at hs2
        rw [hs2, R.ok_bind, R.pure_eq, R.ok_bind]
        obtain ⟨ws, e1, e2, e3⟩ := ih (v.size - (i + k + 1 + m)) (by omega) (i + k + 1 + m) f rfl (by omega)
          (fun x t ext => by
            rw [← hdw2] at ext
            cases e : p x with
            | false => rfl
            | true =>
              exfalso
              have : ((v.chars.drop (i + k + 1)).dropWhile p).head? = some x := by rw [ext]; rfl
              have := List.head?_dropWhile_not p (v.chars.drop (i + k + 1))
              rw [ext] at this
              simp [e] at this) (by omega)
        rw [e1, R.ok_bind]
        refine ⟨_ :: ws, rfl, fun w hw => ?_, ?_⟩
        · rcases List.mem_cons.mp hw with rfl | hw
          · exact hin
          · exact e2 w hw
        · rw [List.map_cons, hch, e3, hfull', full_skip p (v.chars.drop (i + k + 1)), hdw2]

/-- C43: `split` with `skip_empty` yields exactly the non-empty pieces in order. -/
theorem C43_split_skip {v : View} (h : v.Inside) (p : Chr → Bool) :
    ∃ ws : List View, v.split p true = .ok (ws, true) ∧ (∀ w ∈ ws, w.Inside) ∧
      ws.map View.chars = (pieces p v.chars).filter (fun q => !q.isEmpty) := by
  change ∃ ws : List View, v.split p true = .ok (ws, true) ∧ (∀ w ∈ ws, w.Inside) ∧ ws.map View.chars = full p v.chars
  unfold View.split splitBegin
  rw [if_pos rfl]
  have hs1 := skipLoop_ok h p (v.chars.drop 0) 0 rfl
  rw [drop_len h] at hs1
  change skipLoop v p v.size 0 = _ at hs1
  rw [hs1, R.ok_bind]
  rw [List.drop_zero, Nat.zero_add]
  generalize hm : (v.chars.takeWhile p).length = m
  have hmle : m ≤ v.size := by
    rw [← hm, ← chars_length h]; exact takeWhile_length_le _ _
  have hdw : v.chars.dropWhile p = v.chars.drop m := by rw [dropWhile_eq_drop, hm]
  dsimp only
  by_cases c : m = v.size
  · rw [if_pos c, R.pure_eq, R.ok_bind, splitLoop, if_pos rfl]
    refine ⟨[], rfl, (fun w hw => nomatch hw), ?_⟩
    rw [full_skip, hdw, List.drop_of_length_le (by rw [chars_length h]; omega), full_nil]
    rfl
  · rw [if_neg c]
    have hs2 := skipLoop_ok h (fun c => !p c) (v.chars.drop m) m rfl
    rw [drop_len h] at hs2
    rw [hs2, R.ok_bind, R.pure_eq, R.ok_bind]
    obtain ⟨ws, e1, e2, e3⟩ := splitLoop_skip h p (v.size - m) m (v.size + 2) rfl (by omega) (fun x t ext => by
      rw [← hdw] at ext
      cases e : p x with
      | false => rfl
      | true =>
        exfalso
        have := List.head?_dropWhile_not p v.chars
        rw [ext] at this
        simp [e] at this) (by omega)
    refine ⟨ws, e1, e2, ?_⟩
    rw [e3, full_skip p v.chars, hdw]

example : (View.mk [0#8, 1#8, 2#8, 0#8, 0#8, 3#8] 0 6).split (isEqual 0#8) true =
    .ok ([⟨[0#8, 1#8, 2#8, 0#8, 0#8, 3#8], 1, 2⟩, ⟨[0#8, 1#8, 2#8, 0#8, 0#8, 3#8], 5, 1⟩], true) := by decide +kernel

/-- C43: `split_once` cuts at the first occurrence of the pattern and is refused when there is none. -/
theorem C43_split_once {v s : View} (hv : v.Inside) (hs : s.Inside) (h0 : s.size ≠ 0) :
    (∀ i, OccursAt v.chars s.chars i → (∀ j, j < i → ¬ OccursAt v.chars s.chars j) →
      ∃ a b, v.splitOnce s = .ok (a, b) ∧ a.Inside ∧ b.Inside ∧ v.chars = a.chars ++ s.chars ++ b.chars ∧ a.chars.length = i) ∧
    ((∀ i, ¬ OccursAt v.chars s.chars i) → v.splitOnce s = .error .assert) := by
  obtain ⟨r, hr, hf⟩ := (C42_index_of hv hs).2 h0
  constructor
  · intro i hi hmin
    have hri : r = (i : Int) := by
      rcases hf with ⟨_, h⟩ | ⟨k, h1, h2, h3⟩
      · exact absurd hi (h i)
      · rw [h1]
        rcases Nat.lt_trichotomy k i with c | c | c
        · exact absurd h2 (hmin k c)
        · rw [c]
        · exact absurd hi (h3 i c)
    subst hri
    obtain ⟨hle, hdt⟩ := occursAt_drop_take.mp hi
    rw [chars_length hv, chars_length hs] at hle
    rw [chars_length hs] at hdt
    have hi1 : 0 + i ≤ v.size := by omega
    have hsub : v.subviewFrom (i + s.size) = .ok ⟨v.mem, v.off + (i + s.size), v.size - (i + s.size)⟩ := by
      unfold View.subviewFrom
      rw [ccAssert_true (decide_eq_true hle), R.ok_bind]; rfl
    have hi2 : (i + s.size) + (v.size - (i + s.size)) ≤ v.size := by omega
    refine ⟨⟨v.mem, v.off + 0, i⟩, ⟨v.mem, v.off + (i + s.size), v.size - (i + s.size)⟩, ?_, sub_inside hv hi1, sub_inside hv hi2, ?_, ?_⟩
    · unfold View.splitOnce
      rw [hr, R.ok_bind, ccAssert_true (decide_eq_true (by omega)), R.ok_bind]
      change (v.subview 0 i >>= fun a => v.subviewFrom (i + s.size) >>= fun b => pure (a, b)) = _
      rw [subview_ok hv hi1, R.ok_bind, hsub, R.ok_bind]
      rfl
    · have hrest : (v.chars.drop (i + s.size)).take (v.size - (i + s.size)) = v.chars.drop (i + s.size) :=
        List.take_of_length_le (by rw [List.length_drop, chars_length hv]; omega)
      rw [sub_chars hi1, sub_chars hi2, List.drop_zero, hrest, ← hdt, List.append_assoc]
      have : (v.chars.drop i).take s.size ++ v.chars.drop (i + s.size) = v.chars.drop i := by
        rw [← List.drop_drop, List.take_append_drop]
      rw [this, List.take_append_drop]
    · rw [chars_length (sub_inside hv hi1)]
  · intro h
    have hri : r = -1 := by
      rcases hf with ⟨h1, _⟩ | ⟨k, _, h2, _⟩
      · exact h1
      · exact absurd h2 (h k)
    subst hri
    unfold View.splitOnce
    rw [hr, R.ok_bind, ccAssert_false (by decide), R.error_bind]

example : (View.mk [1#8, 2#8, 0#8, 0#8, 3#8] 0 5).splitOnce (View.mk [0#8] 0 1) =
    .ok (⟨[1#8, 2#8, 0#8, 0#8, 3#8], 0, 2⟩, ⟨[1#8, 2#8, 0#8, 0#8, 3#8], 3, 2⟩) := by decide +kernel

/-! ### Trimming -/

theorem trimStartLoop_ok {v : View} (h : v.Inside) (p : Chr → Bool) (l : List Chr) (d : Nat) (hl : v.chars.drop d = l) (hd : d ≤ v.size) :
    ∃ w, trimStartLoop p v l.length d = .ok w ∧ w.Inside ∧ TrimmedStart p l w.chars := by
  induction l generalizing d with
  | nil =>
    have hi : d + 0 ≤ v.size := hd
    refine ⟨⟨v.mem, v.off + d, 0⟩, rfl, sub_inside h hi, ?_⟩
    rw [sub_chars hi, List.take_zero]
    exact ⟨[], rfl, (fun c hc => nomatch hc), (fun c t e => nomatch e)⟩
  | cons x t ih =>
    obtain ⟨e1, d1⟩ := drop_cons hl
    have hlen := drop_len h d
    rw [hl, List.length_cons] at hlen
    rw [List.length_cons, trimStartLoop, rd_of_get h e1, R.ok_bind]
    cases e : p x with
    | true =>
      obtain ⟨w, hw, hwi, a, ha1, ha2, ha3⟩ := ih (d + 1) d1 (by omega)
      refine ⟨w, by rw [if_pos rfl, hw], hwi, x :: a, by rw [ha1]; rfl, fun c hc => ?_, ha3⟩
      rcases List.mem_cons.mp hc with rfl | hc
      · exact e
      · exact ha2 c hc
    | false =>
      have hi : d + (t.length + 1) ≤ v.size := by omega
      refine ⟨⟨v.mem, v.off + d, t.length + 1⟩, by rw [if_neg (by simp)]; rfl, sub_inside h hi, ?_⟩
      rw [sub_chars hi, hl, List.take_of_length_le (by rw [List.length_cons]; omega)]
      refine ⟨[], rfl, (fun c hc => nomatch hc), fun c u eq => ?_⟩
      rw [← (List.cons.inj eq).1]; exact e

/-- C43: `trim_start` takes away exactly the longest prefix of matching characters. -/
theorem C43_trim_start {v : View} (h : v.Inside) (p : Chr → Bool) :
    ∃ w, v.trimStart p = .ok w ∧ w.Inside ∧ TrimmedStart p v.chars w.chars := by
  have := trimStartLoop_ok h p v.chars 0 (List.drop_zero ..) (Nat.zero_le _)
  rwa [chars_length h] at this

example : (View.mk [0x20#8, 0x09#8, 1#8, 0x20#8] 0 4).trimStart isSpace = .ok ⟨[0x20#8, 0x09#8, 1#8, 0x20#8], 2, 2⟩ := by decide +kernel

theorem trimEndLoop_ok {v : View} (h : v.Inside) (p : Chr → Bool) (n : Nat) (hn : n ≤ v.size) :
    ∃ w, trimEndLoop p v n = .ok w ∧ w.Inside ∧ TrimmedEnd p (v.chars.take n) w.chars := by
  have hpre : ∀ n, n ≤ v.size → (View.mk v.mem v.off n).Inside ∧ (View.mk v.mem v.off n).chars = v.chars.take n := fun n hn => by
    have hi : 0 + n ≤ v.size := by omega
    have a := sub_inside h hi
    have b := sub_chars hi
    rw [Nat.add_zero] at a b
    rw [List.drop_zero] at b
    exact ⟨a, b⟩
  induction n with
  | zero =>
    obtain ⟨a, b⟩ := hpre 0 hn
    refine ⟨_, rfl, a, ?_⟩
    rw [b, List.take_zero]
    exact ⟨[], rfl, (fun c hc => nomatch hc), fun c t e => by simp at e⟩
  | succ n ih =>
    obtain ⟨x, e1, e2⟩ := get_of_lt h (show n < v.size by omega)
    have hsplit : v.chars.take (n + 1) = v.chars.take n ++ [x] := by
      obtain ⟨hlt, hget⟩ := List.getElem?_eq_some_iff.mp e1
      rw [← List.take_append_getElem hlt, hget]
    rw [trimEndLoop, e2, R.ok_bind]
    cases e : p x with
    | true =>
      obtain ⟨w, hw, hwi, a, ha1, ha2, ha3⟩ := ih (by omega)
      refine ⟨w, by rw [if_pos rfl, hw], hwi, a ++ [x], by rw [hsplit, ha1, List.append_assoc], fun c hc => ?_, ha3⟩
      rcases List.mem_append.mp hc with hc | hc
      · exact ha2 c hc
      · rw [List.mem_singleton.mp hc]; exact e
    | false =>
      obtain ⟨a, b⟩ := hpre (n + 1) hn
      refine ⟨_, by rw [if_neg (by simp)]; rfl, a, ?_⟩
      rw [b, hsplit]
      refine ⟨[], by rw [List.append_nil], (fun c hc => nomatch hc), fun c u eq => ?_⟩
      have := (List.append_inj' eq rfl).2
      rw [← (List.cons.inj this).1]; exact e

/-- C43: `trim_end` takes away exactly the longest suffix of matching characters. -/
theorem C43_trim_end {v : View} (h : v.Inside) (p : Chr → Bool) :
    ∃ w, v.trimEnd p = .ok w ∧ w.Inside ∧ TrimmedEnd p v.chars w.chars := by
  have := trimEndLoop_ok h p v.size (Nat.le_refl _)
  rwa [List.take_of_length_le (by rw [chars_length h]; exact Nat.le_refl _)] at this

example : (View.mk [0x20#8, 0x09#8, 1#8, 0x20#8] 0 4).trimEnd isSpace = .ok ⟨[0x20#8, 0x09#8, 1#8, 0x20#8], 0, 3⟩ := by decide +kernel

/-- C43: `trim` takes away both, the prefix first. -/
theorem C43_trim {v : View} (h : v.Inside) (p : Chr → Bool) :
    ∃ w m, v.trim p = .ok w ∧ w.Inside ∧ TrimmedStart p v.chars m ∧ TrimmedEnd p m w.chars := by
  obtain ⟨u, hu, hui, hut⟩ := C43_trim_start h p
  obtain ⟨w, hw, hwi, hwt⟩ := C43_trim_end hui p
  exact ⟨w, u.chars, by unfold View.trim; change v.trimStart p >>= _ = _; rw [hu, R.ok_bind]; exact hw, hwi, hut, hwt⟩

example : (View.mk [0x20#8, 0x09#8, 1#8, 0x20#8, 2#8, 0x0A#8] 0 6).trim isSpace = .ok ⟨[0x20#8, 0x09#8, 1#8, 0x20#8, 2#8, 0x0A#8], 2, 3⟩ ∧
    (View.mk [0x20#8, 0x09#8] 0 2).trim isSpace = .ok ⟨[0x20#8, 0x09#8], 2, 0⟩ := by decide +kernel

/-- C43: `trim()`, `trim_start()`, `trim_end()` and `split()` without an argument go by the six white space characters of the "C"
locale: the space and the codes 9 to 13. No byte from 128 on is one. -/
theorem C43_white_space (c : Chr) : isSpace c = true ↔ c.toNat = 32 ∨ (9 ≤ c.toNat ∧ c.toNat ≤ 13) := by
  have key : ∀ n : Fin 256, isSpace (BitVec.ofFin n) = true ↔ n.val = 32 ∨ (9 ≤ n.val ∧ n.val ≤ 13) := by decide +kernel
  exact key c.toFin

example : (View.mk [0x0D#8, 0x0B#8, 0x0C#8, 0xA0#8, 0x0D#8] 0 5).trim isSpace =
    .ok ⟨[0x0D#8, 0x0B#8, 0x0C#8, 0xA0#8, 0x0D#8], 3, 1⟩ := by decide +kernel

end Verif.StrView
