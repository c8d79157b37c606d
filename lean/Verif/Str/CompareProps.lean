import Verif.Str.Compare
import Verif.Str.FormsProps
/-!
# C143: all forms of `==` and `!=` on strings compare the texts
-/
namespace Verif.Str
open Verif.StrView (Chr View ofCstr cstrLoop)

theorem cstrLoop_text {pre l post : List Chr} (hz : 0#8 ∉ l) (fuel : Nat) : ∀ (k : Nat) (m : List Chr), l.drop k = m → k ≤ l.length →
    m.length < fuel →
    cstrLoop (pre ++ (l ++ 0#8 :: post)) pre.length fuel k = .ok ⟨pre ++ (l ++ 0#8 :: post), pre.length, l.length⟩ := by
  induction fuel with
  | zero => intro k m _ _ h; cases h
  | succ fuel ih =>
    intro k m hd hk hf
    rw [cstrLoop]
    cases m with
    | nil =>
      have := List.drop_eq_nil_iff.mp hd
      have : k = l.length := by omega
      subst this
      have hg : (pre ++ (l ++ 0#8 :: post))[pre.length + l.length]? = some 0#8 := by
        rw [List.getElem?_append_right (by omega), List.getElem?_append_right (by omega)]
        simp
      unfold View.rd
      dsimp only
      rw [hg]
      rfl
    | cons c m =>
      obtain ⟨hc, hm⟩ := StrView.drop_cons hd
      have hlt : k < l.length := (List.getElem?_eq_some_iff.mp hc).1
      have hg : (pre ++ (l ++ 0#8 :: post))[pre.length + k]? = some c := by
        rw [List.getElem?_append_right (by omega), List.getElem?_append_left (by omega), Nat.add_sub_cancel_left]
        exact hc
      have hne : c ≠ 0#8 := fun e => hz (e ▸ List.mem_of_getElem? hc)
      have hr : (View.mk (pre ++ (l ++ 0#8 :: post)) pre.length 0).rd k = .ok c := by
        unfold View.rd
        dsimp only
        rw [hg]
      rw [hr, R.ok_bind, if_neg hne]
      exact ih (k + 1) m hm hlt (by rw [List.length_cons] at hf; omega)

theorem ofCstr_text {pre l post : List Chr} (hz : 0#8 ∉ l) (hs : (pre ++ (l ++ 0#8 :: post)).length < 2 ^ 63) :
    ∃ v, ofCstr (pre ++ (l ++ 0#8 :: post)) pre.length = .ok v ∧ v.Inside ∧ v.chars = l := by
  refine ⟨_, cstrLoop_text hz _ 0 l rfl (Nat.zero_le _) (by simp only [List.length_append, List.length_cons]; omega), ⟨?_, hs⟩, ?_⟩
  · simp only [List.length_append, List.length_cons]; omega
  · unfold View.chars
    dsimp only
    rw [List.drop_left' rfl, List.take_left' rfl]

theorem toView_ok {a : Text} {l : List Chr} (h : a.Shows l) : ∃ v, a.toView = .ok v ∧ v.Inside ∧ v.chars = l := by
  cases a with
  | view v => exact ⟨v, rfl, h.1, h.2⟩
  | str s =>
    obtain ⟨C, junk, n, i, ops, σ, st, z, h7, hC, hs, hr, hv, hst⟩ := h
    obtain ⟨st', h1, hI⟩ := run_ok h7 hC (junk := junk) ops (init_inv C n) hs
    rw [hr] at h1
    cases h1
    obtain ⟨o, ho, s', rfl, hl, k, hg⟩ := inv_get hI hv
    rw [hst] at ho
    cases ho
    obtain ⟨x, e, hin, hch⟩ := view_ok hg
    exact ⟨_, e, hin, hch⟩
  | cstr mem off =>
    obtain ⟨hz, hs, pre, post, rfl, rfl⟩ := h
    exact ofCstr_text hz hs
  | literal arr =>
    obtain ⟨hz, hs, post, rfl⟩ := h
    exact ofCstr_text (pre := []) hz hs

/-- **C143**: whatever the two sides are (view, string of any capacity and history, pointer, literal), `==` tells whether their texts are
the same, and `!=` whether they are not. -/
theorem C143_texts {a b : Text} {l m : List Chr} (ha : a.Shows l) (hb : b.Shows m) :
    eqText a b = .ok (decide (l = m)) ∧ neText a b = .ok (decide (l ≠ m)) := by
  obtain ⟨v, ev, hv, rfl⟩ := toView_ok ha
  obtain ⟨w, ew, hw, rfl⟩ := toView_ok hb
  obtain ⟨q1, q2⟩ := StrView.C42_equality hv hw
  unfold eqText neText
  rw [ev, R.ok_bind, ew, R.ok_bind]
  exact ⟨q1, q2⟩

/-- **C143**: hence equality is symmetric and transitive across all the forms. -/
theorem C143_equivalence {a b c : Text} {l m n : List Chr} (ha : a.Shows l) (hb : b.Shows m) (hc : c.Shows n) :
    eqText a b = eqText b a ∧ neText a b = neText b a ∧
      (eqText a b = .ok true → eqText b c = .ok true → eqText a c = .ok true) ∧
      (eqText a b = .ok true ↔ neText a b = .ok false) := by
  rw [(C143_texts ha hb).1, (C143_texts hb ha).1, (C143_texts ha hb).2, (C143_texts hb ha).2, (C143_texts hb hc).1, (C143_texts ha hc).1]
  refine ⟨?_, ?_, fun h1 h2 => ?_, ?_⟩
  · simp only [eq_comm]
  · simp only [ne_eq, eq_comm]
  · have e1 : l = m := by simpa using h1
    have e2 : m = n := by simpa using h2
    simp [e1, e2]
  · simp

theorem char_ok {v : View} (h : v.Inside) (c : Chr) : eqViewChar v c = .ok (decide (v.chars = [c])) := by
  have hl := StrView.chars_length h
  unfold eqViewChar
  by_cases e : v.size = 1
  · rw [if_pos e]
    rw [e] at hl
    obtain ⟨d, hd⟩ := List.length_eq_one_iff.mp hl
    rw [StrView.rd_of_get h (i := 0) (c := d) (by rw [hd]; rfl), R.ok_bind, hd]
    by_cases x : d = c <;> simp [x, R.pure_eq]
  · rw [if_neg e]
    have : v.chars ≠ [c] := fun x => e (by rw [← hl, x]; rfl)
    rw [decide_eq_false this]
    rfl

/-- **C143**: a view and a character are equal, in either order, exactly if the view shows that one character; the empty view, whose
pointer may be null, is not read. -/
theorem C143_char {v : View} (h : v.Inside) (c : Chr) :
    eqViewChar v c = .ok (decide (v.chars = [c])) ∧ neViewChar v c = .ok (decide (v.chars ≠ [c])) ∧
      eqCharView c v = .ok (decide (v.chars = [c])) ∧ neCharView c v = .ok (decide (v.chars ≠ [c])) := by
  have h1 := char_ok h c
  have h2 : eqCharView c v = .ok (decide (v.chars = [c])) := h1
  refine ⟨h1, ?_, h2, ?_⟩
  · unfold neViewChar
    rw [h1, R.ok_bind]
    simp [R.pure_eq]
  · unfold neCharView
    rw [h2, R.ok_bind]
    simp [R.pure_eq]

/-- **C143**: comparing with a character is comparing with the text of that one character. -/
theorem C143_char_as_text {v : View} (h : v.Inside) {c : Chr} {b : Text} (hb : b.Shows [c]) :
    eqViewChar v c = eqText (.view v) b ∧ neViewChar v c = neText (.view v) b := by
  rw [(C143_char h c).1, (C143_char h c).2.1, (C143_texts (a := .view v) ⟨h, rfl⟩ hb).1, (C143_texts (a := .view v) ⟨h, rfl⟩ hb).2]
  exact ⟨rfl, rfl⟩

theorem cstrLoop_none {mem : List Chr} {off : Nat} (hz : 0#8 ∉ mem.drop off) (fuel k : Nat) : cstrLoop mem off fuel k = .error .ub := by
  induction fuel generalizing k with
  | zero => rfl
  | succ fuel ih =>
    rw [cstrLoop]
    unfold View.rd
    dsimp only
    cases e : mem[off + k]? with
    | none => rfl
    | some c =>
      have : c ≠ 0#8 := fun x => hz (by
        have : (mem.drop off)[k]? = some c := by rw [List.getElem?_drop, e]
        exact x ▸ List.mem_of_getElem? this)
      dsimp only
      rw [R.ok_bind, if_neg this, ih]

/-- **C143**: an array without a zero must not be compared: whatever is on the other side (even an empty view, or a text that differs at
the first character), the memory behind the array is read. -/
theorem C143_unterminated {b : Text} {m mem : List Chr} {off : Nat} (hb : b.Shows m) (hz : 0#8 ∉ mem.drop off) :
    eqText (.cstr mem off) b = .error .ub ∧ eqText b (.cstr mem off) = .error .ub ∧
      neText (.cstr mem off) b = .error .ub ∧ neText b (.cstr mem off) = .error .ub ∧
      (0#8 ∉ mem → eqText (.literal mem) b = .error .ub ∧ neText b (.literal mem) = .error .ub) := by
  obtain ⟨w, ew, -, -⟩ := toView_ok hb
  have h1 : (Text.cstr mem off).toView = .error .ub := cstrLoop_none hz _ _
  unfold eqText neText
  rw [h1, ew]
  refine ⟨rfl, rfl, rfl, rfl, fun hz' => ?_⟩
  have h2 : (Text.literal mem).toView = .error .ub := cstrLoop_none (off := 0) hz' _ _
  rw [h2]
  exact ⟨rfl, rfl⟩

/-- **C143**: a literal with a zero inside is not equal to the view of all its characters, but to the part before the zero. -/
theorem C143_literal_with_zero {p q : List Chr} (hp : 0#8 ∉ p) (hs : (p ++ 0#8 :: (q ++ [0#8])).length < 2 ^ 63) {v w : View}
    (hv : v.Inside) (hw : w.Inside) (ev : v.chars = p ++ 0#8 :: q) (ew : w.chars = p) :
    eqText (.literal (p ++ 0#8 :: (q ++ [0#8]))) (.view v) = .ok false ∧
      eqText (.literal (p ++ 0#8 :: (q ++ [0#8]))) (.view w) = .ok true := by
  have hl : (Text.literal (p ++ 0#8 :: (q ++ [0#8]))).Shows p := ⟨hp, hs, _, rfl⟩
  rw [(C143_texts hl (b := .view v) ⟨hv, rfl⟩).1, (C143_texts hl (b := .view w) ⟨hw, rfl⟩).1, ev, ew]
  simp

/-! ### Cases that meet the hypotheses -/

/-- The string left in variable 0 after growing past its inline capacity and shrinking again. -/
def cmpOps : List Op := [.make 0 (txt "a text that is longer"), .removeSuffix 0 19, .append 0 (txt "!")]

def cmpStr : R Str := do
  let st ← Sys.run 15 (fun i => BitVec.ofNat 8 i) (Sys.init 1) cmpOps
  st.get 0

/-- The same text as a string, a view into the middle of an array, a pointer and a literal; and texts that differ only in length. -/
example :
    (do let s ← cmpStr
        let r1 ← eqText (.str s) (.literal (txt "a !" ++ [0#8]))
        let r2 ← eqText (.view ⟨txt "xa !y", 1, 3⟩) (.str s)
        let r3 ← eqText (.cstr (txt "xa !" ++ [0#8, 7#8]) 1) (.view ⟨txt "xa !y", 1, 3⟩)
        let r4 ← neText (.str s) (.literal (txt "a !!" ++ [0#8]))
        let r5 ← eqText (.view ⟨txt "xa !y", 1, 2⟩) (.str s)
        pure [r1, r2, r3, r4, r5]) = .ok [true, true, true, true, false] := by decide +kernel

example : ∃ s, cmpStr = .ok s ∧ (Text.str s).Shows (txt "a !") := by
  have h : (Sys.run 15 (fun i => BitVec.ofNat 8 i) (Sys.init 1) cmpOps).isOk = true := by decide +kernel
  obtain ⟨st, hst⟩ : ∃ st, Sys.run 15 (fun i => BitVec.ofNat 8 i) (Sys.init 1) cmpOps = .ok st := by
    cases e : Sys.run 15 (fun i => BitVec.ofNat 8 i) (Sys.init 1) cmpOps with
    | ok st => exact ⟨st, rfl⟩
    | error x => rw [e] at h; cases h
  have hσ : Spec.run (Spec.init 1) cmpOps = some [.val (txt "a !") true] := by decide +kernel
  obtain ⟨st', h1, hI⟩ := run_ok (by decide) (by decide) (junk := fun i => BitVec.ofNat 8 i) cmpOps (init_inv 15 1) hσ
  rw [hst] at h1
  cases h1
  obtain ⟨o, ho, s, rfl, -, -, -⟩ := inv_get hI (d := 0) (c := .val (txt "a !") true) rfl
  refine ⟨s, ?_, 15, _, 1, 0, cmpOps, _, st, true, by decide, by decide, hσ, hst, rfl, ho⟩
  unfold cmpStr
  rw [hst, R.ok_bind]
  unfold Sys.get
  rw [ho]

example : (Text.cstr (txt "xa !" ++ [0#8, 7#8]) 1).Shows (txt "a !") ∧ (Text.literal (txt "a !" ++ [0#8])).Shows (txt "a !") ∧
    (Text.literal (txt "a" ++ 0#8 :: (txt "b" ++ [0#8]))).Shows (txt "a") :=
  ⟨⟨by decide, by decide, txt "x", [7#8], rfl, rfl⟩, ⟨by decide, by decide, [], rfl⟩, ⟨by decide, by decide, txt "b" ++ [0#8], rfl⟩⟩

/-- `'x'` beside the views `""` (null), `"x"` in the middle of an array, `"xx"`; and `'\0'` beside the empty view. -/
example : eqViewChar ⟨[], 0, 0⟩ 120#8 = .ok false ∧ eqViewChar ⟨txt "axb", 1, 1⟩ 120#8 = .ok true ∧
    eqCharView 120#8 ⟨txt "xx", 0, 2⟩ = .ok false ∧ neCharView 0#8 ⟨[], 0, 0⟩ = .ok true := by decide +kernel

/-- `"a\0b"` beside the view of its three characters. -/
example : eqText (.literal [97#8, 0#8, 98#8, 0#8]) (.view ⟨[97#8, 0#8, 98#8], 0, 3⟩) = .ok false ∧
    eqText (.literal [97#8, 0#8, 98#8, 0#8]) (.view ⟨[97#8], 0, 1⟩) = .ok true := by decide +kernel

/-- A `char[2]` without a zero beside the empty view. -/
example : eqText (.literal [97#8, 98#8]) (.view ⟨[], 0, 0⟩) = .error .ub := by decide +kernel

end Verif.Str
