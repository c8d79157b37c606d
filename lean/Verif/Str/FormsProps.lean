import Verif.Str.Forms
import Verif.Str.Props
import Verif.StrView.SplitProps

/-! Property C124: the copying functions of strings give what the changing ones give. -/
namespace Verif.Str
open Verif.StrView (Chr View isEqual isSpace)
open Verif.StrView.Spec (TrimmedStart TrimmedEnd OccursAt pieces)
open Spec

/-- What each function makes of the text `l`; no `r` if the arguments break its contract. -/
def Form.Text : Form → List Chr → List Chr → Prop
  | .trimStart p, l, r => TrimmedStart p l r
  | .trimEnd p, l, r => TrimmedEnd p l r
  | .trim p, l, r => ∃ m, TrimmedStart p l m ∧ TrimmedEnd p m r
  | .removePrefix n, l, r => ∃ a, l = a ++ r ∧ a.length = n
  | .removeSuffix n, l, r => ∃ a, l = r ++ a ∧ a.length = n
  | .removePrefixStr q, l, r => l = q ++ r
  | .removeSuffixStr q, l, r => l = r ++ q
  | .append m, l, r => r = l ++ m
  | .appendChar c, l, r => r = l ++ [c]

/-- The text given as an argument has fewer than `2^61` characters. -/
def Form.ArgSmall : Form → Prop
  | .removePrefixStr q => q.length < 2 ^ 61
  | .removeSuffixStr q => q.length < 2 ^ 61
  | _ => True

/-! ### Trimming determines the text -/

theorem trimmedStart_dropWhile {p : Chr → Bool} {l r : List Chr} (h : TrimmedStart p l r) : l.dropWhile p = r := by
  obtain ⟨a, rfl, ha, hr⟩ := h
  induction a with
  | nil =>
    cases r with
    | nil => rfl
    | cons c t => rw [List.nil_append, List.dropWhile_cons, hr c t rfl]; rfl
  | cons x a ih =>
    rw [List.cons_append, List.dropWhile_cons, ha x (List.mem_cons_self ..), if_pos rfl]
    exact ih fun c hc => ha c (List.mem_cons_of_mem _ hc)

theorem dropWhile_trimmedStart (p : Chr → Bool) (l : List Chr) : TrimmedStart p l (l.dropWhile p) := by
  induction l with
  | nil => exact ⟨[], rfl, (fun _ h => nomatch h), (fun _ _ h => nomatch h)⟩
  | cons x t ih =>
    rw [List.dropWhile_cons]
    by_cases hx : p x = true
    · rw [if_pos hx]
      obtain ⟨a, e, h1, h2⟩ := ih
      refine ⟨x :: a, by rw [List.cons_append, ← e], fun c hc => ?_, h2⟩
      rcases List.mem_cons.mp hc with rfl | hc
      · exact hx
      · exact h1 c hc
    · rw [if_neg hx]
      refine ⟨[], rfl, (fun _ h => nomatch h), fun c t' h => ?_⟩
      cases h
      exact Bool.not_eq_true _ ▸ hx

theorem trimmedEnd_dropEnd {p : Chr → Bool} {l r : List Chr} (h : TrimmedEnd p l r) : Verif.Str.dropEnd p l = r := by
  obtain ⟨a, rfl, ha, hr⟩ := h
  have : TrimmedStart p (r ++ a).reverse r.reverse :=
    ⟨a.reverse, List.reverse_append, fun c hc => ha c (List.mem_reverse.mp hc), fun c t e => hr c t.reverse (by
      rw [← List.reverse_reverse r, e, List.reverse_cons])⟩
  unfold Verif.Str.dropEnd
  rw [trimmedStart_dropWhile this, List.reverse_reverse]

theorem dropEnd_trimmedEnd (p : Chr → Bool) (l : List Chr) : TrimmedEnd p l (Verif.Str.dropEnd p l) := by
  obtain ⟨a, e, h1, h2⟩ := dropWhile_trimmedStart p l.reverse
  unfold Verif.Str.dropEnd
  refine ⟨a.reverse, ?_, fun c hc => h1 c (List.mem_reverse.mp hc), fun c t h => ?_⟩
  · rw [← List.reverse_append, ← e, List.reverse_reverse]
  · refine h2 c t.reverse ?_
    rw [← List.reverse_reverse (List.dropWhile p l.reverse), h, List.reverse_append]
    rfl

/-! ### Through the view -/

theorem slice_chars {w : View} (h : w.Inside) : slice w.mem w.off w.size = .ok w.chars := by
  unfold slice
  rw [if_pos h.1]
  rfl

theorem viaView_ok {C : Nat} (h7 : 7 ≤ C) (hC : C < 2 ^ 61) {junk : Nat → Chr} {s : Str} {l r : List Chr} {t : Bool} {k : Int}
    (h : Good C s l t k) (f : View → R View) (hr : r.length < 2 ^ 61)
    (hf : ∀ v : View, v.Inside → v.chars = l → ∃ w, f v = .ok w ∧ w.Inside ∧ w.chars = r) :
    ∃ s', s.viaView C junk f = .ok s' ∧ Good C s' r true 0 := by
  obtain ⟨x, hv, hin, hch⟩ := view_ok h
  obtain ⟨w, e, wi, wc⟩ := hf _ hin hch
  obtain ⟨s', e', g'⟩ := fromView_ok h7 hC junk r hr
  refine ⟨s', ?_, g'⟩
  unfold Str.viaView
  rw [hv, R.ok_bind, e, R.ok_bind, slice_chars wi, R.ok_bind, wc]
  exact e'

theorem viaView_err {C : Nat} {junk : Nat → Chr} {s : Str} {l : List Chr} {t : Bool} {k : Int}
    (h : Good C s l t k) (f : View → R View) (hf : ∀ v : View, v.Inside → v.chars = l → f v = .error .assert) :
    s.viaView C junk f = .error .assert := by
  obtain ⟨x, hv, hin, hch⟩ := view_ok h
  unfold Str.viaView
  rw [hv, R.ok_bind, hf _ hin hch]
  rfl

theorem vsize {v : View} (h : v.Inside) {l : List Chr} (e : v.chars = l) : v.size = l.length := by
  rw [← e, StrView.chars_length h]

theorem removePrefixStr_err {C : Nat} {s : Str} {l q : List Chr} {t : Bool} {k : Int} (h : Good C s l t k) (hq : q.length < 2 ^ 61)
    (hn : ¬ q <+: l) : s.removePrefixStr q = .error .assert := by
  obtain ⟨x, hv, hin, hch⟩ := view_ok h
  obtain ⟨qi, qc⟩ := ext_inside hq
  obtain ⟨⟨b, hb, hbi⟩, -⟩ := StrView.C42_starts_ends hin qi
  rw [qc, hch] at hbi
  have : b = false := by cases b with | false => rfl | true => exact absurd (hbi.mp rfl) hn
  unfold Str.removePrefixStr
  rw [hv, R.ok_bind, hb, R.ok_bind, this]
  rfl

theorem removeSuffixStr_err {C : Nat} {s : Str} {l q : List Chr} {t : Bool} {k : Int} (h : Good C s l t k) (hq : q.length < 2 ^ 61)
    (hn : ¬ q <:+ l) : s.removeSuffixStr q = .error .assert := by
  obtain ⟨x, hv, hin, hch⟩ := view_ok h
  obtain ⟨qi, qc⟩ := ext_inside hq
  obtain ⟨-, ⟨b, hb, hbi⟩⟩ := StrView.C42_starts_ends hin qi
  rw [qc, hch] at hbi
  have : b = false := by cases b with | false => rfl | true => exact absurd (hbi.mp rfl) hn
  unfold Str.removeSuffixStr
  rw [hv, R.ok_bind, hb, R.ok_bind, this]
  rfl

/-- Both forms on a string with text `l`. -/
theorem forms_ok {C : Nat} (h7 : 7 ≤ C) (hC : C < 2 ^ 61) {junk : Nat → Chr} {s : Str} {l r : List Chr} {t : Bool} {k : Int}
    (h : Good C s l t k) (hl : l.length < 2 ^ 61) (hr : r.length < 2 ^ 61) (f : Form) (ha : f.ArgSmall) (hf : f.Text l r) :
    (∃ s1 t1, s.change C junk f = .ok s1 ∧ Good C s1 r t1 k) ∧ ∃ s2 k2, s.copying C junk f = .ok s2 ∧ Good C s2 r true k2 := by
  cases f with
  | trimStart p =>
    have e := trimmedStart_dropWhile hf
    refine ⟨?_, ?_⟩
    · obtain ⟨s1, a, b⟩ := trimStart_ok h p
      exact ⟨s1, t, a, e ▸ b⟩
    · obtain ⟨s2, a, b⟩ := viaView_ok h7 hC (junk := junk) h (·.trimStart p) hr fun v hv hc => by
        obtain ⟨w, a, b, c⟩ := StrView.C43_trim_start hv p
        rw [hc] at c
        exact ⟨w, a, b, by rw [← trimmedStart_dropWhile c, e]⟩
      exact ⟨s2, 0, a, b⟩
  | trimEnd p =>
    have e := trimmedEnd_dropEnd hf
    refine ⟨?_, ?_⟩
    · obtain ⟨s1, a, b⟩ := trimEnd_ok h p
      exact ⟨s1, true, a, e ▸ b⟩
    · obtain ⟨s2, a, b⟩ := viaView_ok h7 hC (junk := junk) h (·.trimEnd p) hr fun v hv hc => by
        obtain ⟨w, a, b, c⟩ := StrView.C43_trim_end hv p
        rw [hc] at c
        exact ⟨w, a, b, by rw [← trimmedEnd_dropEnd c, e]⟩
      exact ⟨s2, 0, a, b⟩
  | trim p =>
    obtain ⟨m, h1, h2⟩ := hf
    have e1 := trimmedStart_dropWhile h1
    have e2 := trimmedEnd_dropEnd h2
    refine ⟨?_, ?_⟩
    · obtain ⟨s1, a, b⟩ := trim_ok h p
      rw [e1, e2] at b
      exact ⟨s1, true, a, b⟩
    · obtain ⟨s2, a, b⟩ := viaView_ok h7 hC (junk := junk) h (·.trim p) hr fun v hv hc => by
        obtain ⟨w, m', a, b, c, d⟩ := StrView.C43_trim hv p
        rw [hc] at c
        have : m' = m := by rw [← trimmedStart_dropWhile c, e1]
        subst this
        exact ⟨w, a, b, by rw [← trimmedEnd_dropEnd d, e2]⟩
      exact ⟨s2, 0, a, b⟩
  | removePrefix n =>
    obtain ⟨a, rfl, rfl⟩ := hf
    have e : (a ++ r).drop a.length = r := List.drop_left
    refine ⟨?_, ?_⟩
    · obtain ⟨s1, x, y⟩ := removePrefix_ok h a.length (by rw [List.length_append]; omega)
      rw [e] at y
      exact ⟨s1, false, x, y⟩
    · obtain ⟨s2, x, y⟩ := viaView_ok h7 hC (junk := junk) h (·.removePrefixN a.length) hr fun v hv hc => by
        obtain ⟨-, -, q, -⟩ := StrView.C44_parts hv a.length
        obtain ⟨w, a1, a2, a3⟩ := q (by rw [vsize hv hc, List.length_append]; omega)
        exact ⟨w, a1, a2, by rw [a3, hc, e]⟩
      exact ⟨s2, 0, x, y⟩
  | removeSuffix n =>
    obtain ⟨a, rfl, rfl⟩ := hf
    have e : (r ++ a).take ((r ++ a).length - a.length) = r := by
      rw [show (r ++ a).length - a.length = r.length by rw [List.length_append]; omega]
      exact List.take_left
    refine ⟨?_, ?_⟩
    · obtain ⟨s1, x, y⟩ := removeSuffix_ok h a.length (by rw [List.length_append]; omega)
      rw [e] at y
      exact ⟨s1, false, x, y⟩
    · obtain ⟨s2, x, y⟩ := viaView_ok h7 hC (junk := junk) h (·.removeSuffixN a.length) hr fun v hv hc => by
        obtain ⟨-, -, -, -, q, -⟩ := StrView.C44_parts hv a.length
        obtain ⟨w, a1, a2, a3⟩ := q (by rw [vsize hv hc, List.length_append]; omega)
        exact ⟨w, a1, a2, by rw [a3, hc, vsize hv hc, e]⟩
      exact ⟨s2, 0, x, y⟩
  | removePrefixStr q =>
    cases (hf : l = q ++ r)
    refine ⟨?_, ?_⟩
    · obtain ⟨s1, x, y⟩ := removePrefixStr_ok h ha
      exact ⟨s1, false, x, y⟩
    · obtain ⟨s2, x, y⟩ := viaView_ok h7 hC (junk := junk) h (·.removePrefix ⟨q, 0, q.length⟩) hr fun v hv hc => by
        obtain ⟨qi, qc⟩ := ext_inside ha
        exact (StrView.C44_remove_affix hv qi).1 r (by rw [hc, qc])
      exact ⟨s2, 0, x, y⟩
  | removeSuffixStr q =>
    cases (hf : l = r ++ q)
    refine ⟨?_, ?_⟩
    · obtain ⟨s1, x, y⟩ := removeSuffixStr_ok h ha
      exact ⟨s1, false, x, y⟩
    · obtain ⟨s2, x, y⟩ := viaView_ok h7 hC (junk := junk) h (·.removeSuffix ⟨q, 0, q.length⟩) hr fun v hv hc => by
        obtain ⟨qi, qc⟩ := ext_inside ha
        exact (StrView.C44_remove_affix hv qi).2.2.1 r (by rw [hc, qc])
      exact ⟨s2, 0, x, y⟩
  | append m =>
    cases (hf : r = l ++ m)
    rw [List.length_append] at hr
    refine ⟨?_, ?_⟩
    · obtain ⟨s1, x, y⟩ := append_ok h7 (junk := junk) h (.ext m) hr (Or.inl rfl)
      exact ⟨s1, true, x, y⟩
    · obtain ⟨c, x, y⟩ := copyCtor_ok h7 hC (junk := junk) h hl
      obtain ⟨c2, x2, y2⟩ := append_ok h7 (junk := junk) y (.ext m) hr (Or.inl rfl)
      obtain ⟨d, g, -⟩ := moveCtor_ok h7 y2
      refine ⟨_, _, ?_, g⟩
      change Str.plus C junk s m = _
      unfold Str.plus
      rw [x, R.ok_bind, x2]
      rfl
  | appendChar c =>
    cases (hf : r = l ++ [c])
    rw [List.length_append] at hr
    refine ⟨?_, ?_⟩
    · obtain ⟨s1, x, y⟩ := pushBack_ok h7 (junk := junk) h c hr
      exact ⟨s1, true, x, y⟩
    · obtain ⟨s2, x, y⟩ := copyCtor_ok h7 hC (junk := junk) h hl
      obtain ⟨c2, x2, y2⟩ := pushBack_ok h7 (junk := junk) y c hr
      obtain ⟨d, g, -⟩ := moveCtor_ok h7 y2
      refine ⟨_, _, ?_, g⟩
      change Str.plusChar C junk s c = _
      unfold Str.plusChar
      rw [x, R.ok_bind, x2]
      rfl

/-- Both forms refuse the same arguments. -/
theorem forms_err {C : Nat} {junk : Nat → Chr} {s : Str} {l : List Chr} {t : Bool} {k : Int}
    (h : Good C s l t k) (f : Form) (ha : f.ArgSmall) (hf : ∀ r, ¬ f.Text l r) :
    s.change C junk f = .error .assert ∧ s.copying C junk f = .error .assert := by
  cases f with
  | trimStart p => exact absurd (dropWhile_trimmedStart p l) (hf _)
  | trimEnd p => exact absurd (dropEnd_trimmedEnd p l) (hf _)
  | trim p => exact absurd ⟨_, dropWhile_trimmedStart p l, dropEnd_trimmedEnd p _⟩ (hf _)
  | removePrefix n =>
    have hn : l.length < n := Nat.lt_of_not_le fun hle =>
      hf (l.drop n) ⟨l.take n, (List.take_append_drop n l).symm, by rw [List.length_take]; omega⟩
    refine ⟨?_, viaView_err h _ fun v hv hc => (StrView.C44_parts hv n).2.2.2.1 (by rw [vsize hv hc]; exact hn)⟩
    change s.removePrefix n = _
    unfold Str.removePrefix
    rw [ccAssert_false (decide_eq_false (by rw [h.size]; omega))]
    rfl
  | removeSuffix n =>
    have hn : l.length < n := Nat.lt_of_not_le fun hle =>
      hf (l.take (l.length - n)) ⟨l.drop (l.length - n), (List.take_append_drop _ l).symm, by rw [List.length_drop]; omega⟩
    refine ⟨?_, viaView_err h _ fun v hv hc => (StrView.C44_parts hv n).2.2.2.2.2.1 (by rw [vsize hv hc]; exact hn)⟩
    change s.removeSuffix n = _
    unfold Str.removeSuffix
    rw [ccAssert_false (decide_eq_false (by rw [h.size]; omega))]
    rfl
  | removePrefixStr q =>
    have hn : ¬ q <+: l := fun ⟨r, e⟩ => hf r e.symm
    refine ⟨removePrefixStr_err h ha hn, viaView_err h _ fun v hv hc => ?_⟩
    obtain ⟨qi, qc⟩ := ext_inside ha
    exact (StrView.C44_remove_affix hv qi).2.1 (by rw [hc, qc]; exact hn)
  | removeSuffixStr q =>
    have hn : ¬ q <:+ l := fun ⟨r, e⟩ => hf r e.symm
    refine ⟨removeSuffixStr_err h ha hn, viaView_err h _ fun v hv hc => ?_⟩
    obtain ⟨qi, qc⟩ := ext_inside ha
    exact (StrView.C44_remove_affix hv qi).2.2.2 (by rw [hc, qc]; exact hn)
  | append m => exact absurd rfl (hf (l ++ m))
  | appendChar c => exact absurd rfl (hf (l ++ [c]))

/-! ### C124 -/

/-- **C124.** For every string made by any history and every function that exists in both forms: where its contract allows the
arguments both forms succeed, the string changed in place and the new string have exactly the text the function is specified to give, a
terminating zero follows the text of the new one, and the original still shows its text; where the contract forbids them both assert. -/
theorem C124_forms {C : Nat} (h7 : 7 ≤ C) (hC : C < 2 ^ 61) (junk : Nat → Chr) (n : Nat) (ops : List Op) (σ : List Cell)
    (h : Spec.run (Spec.init n) ops = some σ) :
    ∃ st, Sys.run C junk (Sys.init n) ops = .ok st ∧
      ∀ (i : Nat) (l : List Chr) (t : Bool) (f : Form), σ[i]? = some (.val l t) → f.ArgSmall →
        ∃ s, st.vars[i]? = some (some s) ∧ s.chars = .ok l ∧
          (∀ r, f.Text l r → r.length < 2 ^ 61 → ∃ s1 s2, s.change C junk f = .ok s1 ∧ s.copying C junk f = .ok s2 ∧
            s1.chars = .ok r ∧ s2.chars = .ok r ∧ s2.cstrUpTo s2.size = .ok (r ++ [0#8]) ∧ s2.size = r.length) ∧
          ((∀ r, ¬ f.Text l r) → s.change C junk f = .error .assert ∧ s.copying C junk f = .error .assert) := by
  obtain ⟨st, h1, hI⟩ := run_ok h7 hC (junk := junk) ops (init_inv C n) h
  refine ⟨st, h1, fun i l t f hc ha => ?_⟩
  obtain ⟨o, ho, s, rfl, hl, k, hg⟩ := inv_get hI hc
  refine ⟨s, ho, chars_ok hg, fun r hf hr => ?_, forms_err hg f ha⟩
  obtain ⟨⟨s1, t1, e1, g1⟩, s2, k2, e2, g2⟩ := forms_ok h7 hC (junk := junk) hg hl hr f ha hf
  exact ⟨s1, s2, e1, e2, chars_ok g1, chars_ok g2, cstr_ok g2, g2.size⟩

/-- The specification gives at most one text. -/
theorem C124_text_unique (f : Form) (l r r' : List Chr) (h : f.Text l r) (h' : f.Text l r') : r = r' := by
  cases f with
  | trimStart p => rw [← trimmedStart_dropWhile h, trimmedStart_dropWhile h']
  | trimEnd p => rw [← trimmedEnd_dropEnd h, trimmedEnd_dropEnd h']
  | trim p =>
    obtain ⟨m, a, b⟩ := h
    obtain ⟨m', a', b'⟩ := h'
    have : m = m' := by rw [← trimmedStart_dropWhile a, trimmedStart_dropWhile a']
    subst this
    rw [← trimmedEnd_dropEnd b, trimmedEnd_dropEnd b']
  | removePrefix n =>
    obtain ⟨a, rfl, rfl⟩ := h
    obtain ⟨b, e, hb⟩ := h'
    exact (List.append_inj e hb.symm).2
  | removeSuffix n =>
    obtain ⟨a, rfl, rfl⟩ := h
    obtain ⟨b, e, hb⟩ := h'
    exact (List.append_inj' e hb.symm).1
  | removePrefixStr q =>
    cases (h : l = q ++ r)
    exact List.append_cancel_left (h' : q ++ r = q ++ r')
  | removeSuffixStr q =>
    cases (h : l = r ++ q)
    exact List.append_cancel_right (h' : r ++ q = r' ++ q)
  | append m => exact Eq.trans (h : r = l ++ m) (h' : r' = l ++ m).symm
  | appendChar c => exact Eq.trans (h : r = l ++ [c]) (h' : r' = l ++ [c]).symm

/-- **C124**: `first(n)` and `last(n)` give the first and last `n` characters, or all if there are fewer; `substring(offset)` gives
everything from `offset` on and asserts if that is beyond the end. -/
theorem C124_parts {C : Nat} (h7 : 7 ≤ C) (hC : C < 2 ^ 61) (junk : Nat → Chr) (n : Nat) (ops : List Op) (σ : List Cell)
    (h : Spec.run (Spec.init n) ops = some σ) :
    ∃ st, Sys.run C junk (Sys.init n) ops = .ok st ∧
      ∀ (i : Nat) (l : List Chr) (t : Bool) (m : Nat), σ[i]? = some (.val l t) →
        ∃ s, st.vars[i]? = some (some s) ∧ s.chars = .ok l ∧
          (∃ a, s.first C junk m = .ok a ∧ a.cstrUpTo a.size = .ok (l.take m ++ [0#8]) ∧ a.chars = .ok (l.take m)) ∧
          (∃ a, s.last C junk m = .ok a ∧ a.cstrUpTo a.size = .ok (l.drop (l.length - m) ++ [0#8]) ∧
            a.chars = .ok (l.drop (l.length - m))) ∧
          (m ≤ l.length → ∃ a, s.substringFrom C junk m = .ok a ∧ a.cstrUpTo a.size = .ok (l.drop m ++ [0#8]) ∧
            a.chars = .ok (l.drop m)) ∧
          (l.length < m → s.substringFrom C junk m = .error .assert) := by
  obtain ⟨st, h1, hI⟩ := run_ok h7 hC (junk := junk) ops (init_inv C n) h
  refine ⟨st, h1, fun i l t m hc => ?_⟩
  obtain ⟨o, ho, s, rfl, hl, k, hg⟩ := inv_get hI hc
  refine ⟨s, ho, chars_ok hg, ?_, ?_, fun hm => ?_, fun hm => ?_⟩
  · obtain ⟨a, e, g⟩ := viaView_ok h7 hC (junk := junk) (r := l.take m) hg (fun v => pure (v.first m))
      (by rw [List.length_take]; omega) fun v hv hc => by
        obtain ⟨-, -, -, -, -, -, q, -⟩ := StrView.C44_parts hv m
        exact ⟨_, rfl, q.1, by rw [q.2, hc]⟩
    exact ⟨a, e, cstr_ok g, chars_ok g⟩
  · obtain ⟨a, e, g⟩ := viaView_ok h7 hC (junk := junk) (r := l.drop (l.length - m)) hg (fun v => pure (v.last m))
      (by rw [List.length_drop]; omega) fun v hv hc => by
        obtain ⟨-, -, -, -, -, -, -, q⟩ := StrView.C44_parts hv m
        exact ⟨_, rfl, q.1, by rw [q.2, hc, vsize hv hc]⟩
    exact ⟨a, e, cstr_ok g, chars_ok g⟩
  · obtain ⟨a, e, g⟩ := viaView_ok h7 hC (junk := junk) (r := l.drop m) hg (·.subviewFrom m)
      (by rw [List.length_drop]; omega) fun v hv hc => by
        obtain ⟨w, a, b, c⟩ := (StrView.C44_parts hv m).1 (by rw [vsize hv hc]; exact hm)
        exact ⟨w, a, b, by rw [c, hc]⟩
    exact ⟨a, e, cstr_ok g, chars_ok g⟩
  · exact viaView_err hg _ fun v hv hc => (StrView.C44_parts hv m).2.1 (by rw [vsize hv hc]; exact hm)

/-- **C124**: for two strings of whatever inline capacities, made by whatever histories: `==` and `!=` compare the texts, and `s + t` is a
new string with the text of `s` followed by that of `t`. -/
theorem C124_two_strings {C C' : Nat} (h7 : 7 ≤ C) (hC : C < 2 ^ 61) (h7' : 7 ≤ C') (hC' : C' < 2 ^ 61) (junk junk' : Nat → Chr)
    (n n' : Nat) (ops ops' : List Op) (σ σ' : List Cell)
    (h : Spec.run (Spec.init n) ops = some σ) (h' : Spec.run (Spec.init n') ops' = some σ') :
    ∃ st st', Sys.run C junk (Sys.init n) ops = .ok st ∧ Sys.run C' junk' (Sys.init n') ops' = .ok st' ∧
      ∀ (i j : Nat) (l l' : List Chr) (t t' : Bool), σ[i]? = some (.val l t) → σ'[j]? = some (.val l' t') →
        ∃ s s', st.vars[i]? = some (some s) ∧ st'.vars[j]? = some (some s') ∧
          s.eqStr s' = .ok (decide (l = l')) ∧ s.neStr s' = .ok (decide (l ≠ l')) ∧
          (l.length + l'.length < 2 ^ 61 → ∃ a, s.plusStr C junk s' = .ok a ∧ a.chars = .ok (l ++ l') ∧
            a.cstrUpTo a.size = .ok (l ++ l' ++ [0#8])) := by
  obtain ⟨st, h1, hI⟩ := run_ok h7 hC (junk := junk) ops (init_inv C n) h
  obtain ⟨st', h1', hI'⟩ := run_ok h7' hC' (junk := junk') ops' (init_inv C' n') h'
  refine ⟨st, st', h1, h1', fun i j l l' t t' hc hc' => ?_⟩
  obtain ⟨o, ho, s, rfl, hl, k, hg⟩ := inv_get hI hc
  obtain ⟨o', ho', s', rfl, hl', k', hg'⟩ := inv_get hI' hc'
  obtain ⟨x, hv, hin, hch⟩ := view_ok hg
  obtain ⟨x', hv', hin', hch'⟩ := view_ok hg'
  obtain ⟨q1, q2⟩ := StrView.C42_equality hin hin'
  simp only [hch, hch'] at q1 q2
  refine ⟨s, s', ho, ho', ?_, ?_, fun hb => ?_⟩
  · unfold Str.eqStr
    rw [hv, R.ok_bind, hv', R.ok_bind]
    exact q1
  · unfold Str.neStr
    rw [hv, R.ok_bind, hv', R.ok_bind]
    exact q2
  · obtain ⟨c, a, b⟩ := copyCtor_ok h7 hC (junk := junk) hg hl
    obtain ⟨c2, x2, y2⟩ := append_ok h7 (junk := junk) b (.ext l') hb (Or.inl rfl)
    obtain ⟨d, g, -⟩ := moveCtor_ok h7 y2
    refine ⟨_, ?_, chars_ok g, cstr_ok g⟩
    unfold Str.plusStr
    rw [a, R.ok_bind, hv', R.ok_bind, slice_chars hin', R.ok_bind, hch', x2]
    rfl

/-- **C124**: the questions a string answers are about its text and nothing else of its buffer. -/
theorem C124_queries {C : Nat} (h7 : 7 ≤ C) (hC : C < 2 ^ 61) (junk : Nat → Chr) (n : Nat) (ops : List Op) (σ : List Cell)
    (h : Spec.run (Spec.init n) ops = some σ) :
    ∃ st, Sys.run C junk (Sys.init n) ops = .ok st ∧
      ∀ (i : Nat) (l : List Chr) (t : Bool), σ[i]? = some (.val l t) → ∃ s, st.vars[i]? = some (some s) ∧
        (∀ c, s.containsChar c = .ok (decide (c ∈ l))) ∧
        (∀ q, q.length < 2 ^ 61 → ∃ b, s.contains q = .ok b ∧ (b = true ↔ ∃ a z, l = a ++ q ++ z)) ∧
        (∀ q, q.length < 2 ^ 61 → ∃ b, s.startsWith q = .ok b ∧ (b = true ↔ ∃ z, l = q ++ z)) ∧
        (∀ q, q.length < 2 ^ 61 → ∃ b, s.endsWith q = .ok b ∧ (b = true ↔ ∃ a, l = a ++ q)) ∧
        (∀ c, ∃ b, s.startsWithChar c = .ok b ∧ (b = true ↔ ∃ z, l = c :: z)) ∧
        (∀ c, ∃ b, s.endsWithChar c = .ok b ∧ (b = true ↔ ∃ a, l = a ++ [c])) ∧
        (∀ p, ∃ ws, s.split p true = .ok (ws, true) ∧
          ws.map View.chars = (pieces p l).filter (fun q => !q.isEmpty)) ∧
        (∀ p, ∃ ws, s.split p false = .ok (ws, true) ∧
          ws.map View.chars = if l = [] then [] else pieces p l) := by
  obtain ⟨st, h1, hI⟩ := run_ok h7 hC (junk := junk) ops (init_inv C n) h
  refine ⟨st, h1, fun i l t hc => ?_⟩
  obtain ⟨o, ho, s, rfl, hl, k, hg⟩ := inv_get hI hc
  obtain ⟨x, hv, hin, hch⟩ := view_ok hg
  have bind : ∀ {α : Type} (f : View → R α), (s.view >>= f) = f ⟨l ++ x, 0, l.length⟩ := fun f => by rw [hv, R.ok_bind]
  refine ⟨s, ho, fun c => ?_, fun q hq => ?_, fun q hq => ?_, fun q hq => ?_, fun c => ?_, fun c => ?_, fun p => ?_, fun p => ?_⟩
  · refine (bind _).trans ?_
    rw [StrView.C42_contains_char hin c]
    simp only [hch]
  · obtain ⟨qi, qc⟩ := ext_inside hq
    obtain ⟨b, e, hb⟩ := StrView.C42_contains hin qi
    refine ⟨b, (bind _).trans e, hb.trans ?_⟩
    rw [hch, qc]
    exact ⟨fun ⟨i, a, z, e, _⟩ => ⟨a, z, e⟩, fun ⟨a, z, e⟩ => ⟨a.length, a, z, e, rfl⟩⟩
  · obtain ⟨qi, qc⟩ := ext_inside hq
    obtain ⟨⟨b, e, hb⟩, -⟩ := StrView.C42_starts_ends hin qi
    refine ⟨b, (bind _).trans e, hb.trans ?_⟩
    rw [hch, qc]
    exact ⟨fun ⟨z, e⟩ => ⟨z, e.symm⟩, fun ⟨z, e⟩ => ⟨z, e.symm⟩⟩
  · obtain ⟨qi, qc⟩ := ext_inside hq
    obtain ⟨-, ⟨b, e, hb⟩⟩ := StrView.C42_starts_ends hin qi
    refine ⟨b, (bind _).trans e, hb.trans ?_⟩
    rw [hch, qc]
    exact ⟨fun ⟨z, e⟩ => ⟨z, e.symm⟩, fun ⟨z, e⟩ => ⟨z, e.symm⟩⟩
  · obtain ⟨⟨b, e, hb⟩, -⟩ := StrView.C42_starts_ends_char hin c
    refine ⟨b, (bind _).trans e, hb.trans ?_⟩
    rw [hch]
    exact ⟨fun ⟨z, e⟩ => ⟨z, e.symm⟩, fun ⟨z, e⟩ => ⟨z, e.symm⟩⟩
  · obtain ⟨-, ⟨b, e, hb⟩⟩ := StrView.C42_starts_ends_char hin c
    refine ⟨b, (bind _).trans e, hb.trans ?_⟩
    rw [hch]
    exact ⟨fun ⟨z, e⟩ => ⟨z, e.symm⟩, fun ⟨z, e⟩ => ⟨z, e.symm⟩⟩
  · obtain ⟨ws, e, -, hw⟩ := StrView.C43_split_skip hin p
    refine ⟨ws, (bind _).trans e, ?_⟩
    rw [hw, hch]
  · obtain ⟨h0, h2⟩ := StrView.C43_split_keep hin p
    by_cases c : l = []
    · rw [if_pos c]
      exact ⟨[], (bind _).trans (h0 (by rw [c]; rfl)), rfl⟩
    · rw [if_neg c]
      obtain ⟨ws, e, -, hw⟩ := h2 (fun e => c (List.eq_nil_of_length_eq_zero e))
      exact ⟨ws, (bind _).trans e, by rw [hw, hch]⟩

/-- A string with a stale tail in its buffer (its suffix was removed): the copying forms do not see the tail. -/
example : Spec.run (Spec.init 1) [.make 0 (txt "  abc  zz"), .removeSuffix 0 2] = some [.val (txt "  abc  ") false] ∧
    (Form.trim isSpace).Text (txt "  abc  ") (txt "abc") ∧ (∀ r, ¬ (Form.removePrefix 8).Text (txt "  abc  ") r) := by
  refine ⟨by decide +kernel, ⟨txt "abc  ", ⟨txt "  ", by decide, by decide, fun c t e => ?_⟩, txt "  ", by decide, by decide,
    fun c t e => ?_⟩, fun r ⟨a, e, ha⟩ => ?_⟩
  · cases e
    decide
  · have : [c].getLast? = (txt "abc").getLast? := by rw [e]; simp
    have : c = 99#8 := Option.some.inj this
    rw [this]
    decide
  · have := congrArg List.length e
    rw [List.length_append, ha] at this
    have h7 : (txt "  abc  ").length = 7 := by decide
    omega

end Verif.Str
