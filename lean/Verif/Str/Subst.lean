import Verif.Str.Ops
import Verif.Str.Spec
/-! Helper lemmas for replacing every occurrence. -/
namespace Verif.Str
open Verif.StrView (Chr View)
open Spec

theorem subst_skip (old new l : List Chr) (n : Nat) : subst old new l n = subst old new (l.drop n) 0 := by
  induction l generalizing n with
  | nil => rw [List.drop_nil]; cases n <;> rfl
  | cons c t ih =>
    cases n with
    | zero => rfl
    | succ n => rw [subst, ih, List.drop_succ_cons]

theorem subst_found {old : List Chr} (h0 : old ≠ []) (new b : List Chr) : subst old new (old ++ b) 0 = new ++ subst old new b 0 := by
  cases old with
  | nil => exact absurd rfl h0
  | cons x o =>
    have hp : (x :: o).isPrefixOf (x :: (o ++ b)) = true := by
      rw [List.isPrefixOf_iff_prefix]; exact ⟨b, rfl⟩
    rw [List.cons_append, subst, if_pos hp, subst_skip]
    have : (o ++ b).drop ((x :: o).length - 1) = b := List.drop_left' (by simp)
    rw [this]

theorem subst_not {old : List Chr} (new : List Chr) {c : Chr} {t : List Chr} (h : ¬ old <+: c :: t) :
    subst old new (c :: t) 0 = c :: subst old new t 0 := by
  rw [subst, if_neg (by rw [List.isPrefixOf_iff_prefix]; exact h)]

theorem subst_short {old : List Chr} (new : List Chr) {l : List Chr} (h : l.length < old.length) : subst old new l 0 = l := by
  induction l with
  | nil => rfl
  | cons c t ih =>
    rw [subst_not new, ih (by rw [List.length_cons] at h; omega)]
    intro hp
    have := hp.length_le
    omega

theorem subst_length_ge {old new : List Chr} (h0 : old ≠ []) (hle : old.length ≤ new.length) (n : Nat) :
    ∀ l : List Chr, l.length ≤ n → l.length ≤ (subst old new l 0).length := by
  induction n with
  | zero =>
    intro l hl
    have : l = [] := List.eq_nil_of_length_eq_zero (by omega)
    subst this
    exact Nat.le_refl _
  | succ n ih =>
    intro l hl
    cases l with
    | nil => exact Nat.le_refl _
    | cons c t =>
      by_cases hp : old <+: c :: t
      · obtain ⟨b, hb⟩ := hp
        have hpos : 0 < old.length := List.length_pos_iff.mpr h0
        have hlen : old.length + b.length = (c :: t).length := by rw [← hb, List.length_append]
        rw [← hb, subst_found h0, List.length_append, List.length_append]
        have := ih b (by omega)
        omega
      · rw [subst_not new hp, List.length_cons, List.length_cons]
        have := ih t (by rw [List.length_cons] at hl; omega)
        omega

/-- The function does what the relation says. -/
theorem subst_replaced {old : List Chr} (new : List Chr) (h0 : old ≠ []) (n : Nat) :
    ∀ l : List Chr, l.length ≤ n → Replaced old new l (subst old new l 0) := by
  have nil_case : Replaced old new [] [] := by
    refine .done [] fun i h => ?_
    have := (StrView.occursAt_iff.mp h).1
    have hpos : 0 < old.length := List.length_pos_iff.mpr h0
    rw [List.length_nil] at this
    omega
  induction n with
  | zero =>
    intro l hl
    have : l = [] := List.eq_nil_of_length_eq_zero (by omega)
    subst this
    exact nil_case
  | succ n ih =>
    intro l hl
    cases l with
    | nil => exact nil_case
    | cons c t =>
      by_cases hp : old <+: c :: t
      · obtain ⟨b, hb⟩ := hp
        have hpos : 0 < old.length := List.length_pos_iff.mpr h0
        have hlen : old.length + b.length = (c :: t).length := by rw [← hb, List.length_append]
        rw [← hb, subst_found h0]
        exact .step [] b _ (fun i hi => by rw [List.length_nil] at hi; omega) (ih b (by omega))
      · rw [subst_not new hp]
        have h := ih t (by rw [List.length_cons] at hl; omega)
        -- an occurrence in `c :: t` is one in `t`, shifted
        have hshift : ∀ i, StrView.Spec.OccursAt (c :: t) old i → ∃ j, i = j + 1 ∧ StrView.Spec.OccursAt t old j := by
          rintro i ⟨a, b, e, hi⟩
          cases a with
          | nil => exact absurd ⟨b, e.symm⟩ hp
          | cons d a =>
            have := List.cons.inj e
            exact ⟨a.length, hi.symm, a, b, this.2, rfl⟩
        generalize subst old new t 0 = r at h
        cases h with
        | done _ hno =>
          refine .done _ fun i hi => ?_
          obtain ⟨j, _, hj⟩ := hshift i hi
          exact hno j hj
        | step a b r' hno hr =>
          refine .step (c :: a) b r' (fun i hi ho => ?_) hr
          obtain ⟨j, hj1, hj2⟩ := hshift i ho
          exact hno j (by rw [List.length_cons] at hi; omega) hj2

/-- There is only one result. -/
theorem replaced_unique {old new l r r' : List Chr} (h0 : old ≠ []) (h : Replaced old new l r) (h' : Replaced old new l r') : r = r' := by
  induction h generalizing r' with
  | done l hno =>
    generalize hl : l = l' at h'
    cases h' with
    | done _ _ => rfl
    | step a b q hq hr =>
      subst hl
      exact absurd ⟨a, b, rfl, rfl⟩ (hno a.length)
  | step a b r hno hr ih =>
    generalize hl : a ++ old ++ b = l' at h'
    cases h' with
    | done _ hn =>
      subst hl
      exact absurd ⟨a, b, rfl, rfl⟩ (hn a.length)
    | step a' b' q hno' hr' =>
      have e : a.length = a'.length := by
        rcases Nat.lt_trichotomy a.length a'.length with c | c | c
        · exact absurd (show StrView.Spec.OccursAt (a' ++ old ++ b') old a.length from ⟨a, b, hl.symm, rfl⟩) (hno' _ c)
        · exact c
        · exact absurd (show StrView.Spec.OccursAt (a ++ old ++ b) old a'.length from ⟨a', b', hl, rfl⟩) (hno _ c)
      rw [List.append_assoc, List.append_assoc] at hl
      obtain ⟨e1, e2⟩ := List.append_inj hl e
      have e3 := List.append_cancel_left e2
      subst e1 e3
      rw [ih hr']

theorem take_eq_iff_prefix {old rest : List Chr} : rest.take old.length = old ↔ old <+: rest := by
  constructor
  · intro h
    exact ⟨rest.drop old.length, by conv => lhs; arg 1; rw [← h]
                                    exact List.take_append_drop ..⟩
  · rintro ⟨b, rfl⟩
    exact List.take_left' rfl

theorem replaceLoop_ok {C : Nat} (h7 : 7 ≤ C) {junk : Nat → Chr} {old new : List Chr} (h0 : old ≠ []) (hol : old.length < 2 ^ 61) (fuel : Nat) :
    ∀ (s : Str) (don rest : List Chr) (t : Bool) (k : Int) (i : Nat), Good C s (don ++ rest) t k → i = don.length → rest.length < fuel →
      (don ++ rest).length < 2 ^ 61 → (don ++ subst old new rest 0).length < 2 ^ 61 →
      ∃ s', replaceLoop C junk old new fuel s i = .ok s' ∧ Good C s' (don ++ subst old new rest 0) t k := by
  have hpos : 0 < old.length := List.length_pos_iff.mpr h0
  induction fuel with
  | zero => intro s don rest t k i _ _ hf; omega
  | succ fuel ih =>
    intro s don rest t k i h hi hf hl1 hl2
    rw [replaceLoop]
    have hsz := h.size
    rw [List.length_append] at hsz hl1 hl2
    by_cases c : i + old.length ≤ s.size
    · rw [if_pos c]
      obtain ⟨r, hv, hin, hch⟩ := view_ok h
      obtain ⟨hoi, hoc⟩ := ext_inside hol
      have hle : i + old.length ≤ (don ++ rest).length := by rw [List.length_append]; omega
      rw [hv, R.ok_bind, StrView.subview_ok hin hle, R.ok_bind]
      have hin2 := StrView.sub_inside hin hle
      have hch2 : (View.mk (don ++ rest ++ r) (0 + i) old.length).chars = rest.take old.length := by
        have := StrView.sub_chars (v := ⟨don ++ rest ++ r, 0, (don ++ rest).length⟩) (a := i) (n := old.length) hle
        rw [hch, List.drop_left' hi.symm] at this
        exact this
      dsimp only
      rw [StrView.eq_ok hin2 hoi, R.ok_bind, hch2, hoc]
      by_cases p : rest.take old.length = old
      · rw [decide_eq_true p, if_pos rfl]
        obtain ⟨b, rfl⟩ := take_eq_iff_prefix.mp p
        rw [subst_found h0, List.length_append] at hl2
        rw [List.length_append] at hl1 hsz hf
        have hlen : (don ++ (new ++ b)).length < 2 ^ 61 := by
          simp only [List.length_append]
          by_cases q : old.length ≤ new.length
          · have := subst_length_ge h0 q b.length b (Nat.le_refl _)
            omega
          · omega
        obtain ⟨s1, e1, g1⟩ := replaceAt_ok h7 (junk := junk) h hi rfl (m := new) hlen
        rw [e1, R.ok_bind]
        rw [show don ++ (new ++ b) = (don ++ new) ++ b by simp only [List.append_assoc]] at g1
        obtain ⟨s2, e2, g2⟩ := ih s1 (don ++ new) b t k (i + new.length) g1 (by rw [List.length_append, hi]) (by omega)
          (by simp only [List.length_append] at hlen ⊢; omega) (by simp only [List.length_append]; omega)
        refine ⟨s2, e2, ?_⟩
        rw [subst_found h0, ← List.append_assoc]
        exact g2
      · rw [decide_eq_false p, if_neg (by simp)]
        cases rest with
        | nil => simp only [List.length_nil] at hsz; omega
        | cons x rest =>
          have hnp : ¬ old <+: x :: rest := fun hp => p (take_eq_iff_prefix.mpr hp)
          rw [subst_not new hnp, List.length_cons] at hl2
          rw [List.length_cons] at hl1 hsz hf
          rw [show don ++ x :: rest = (don ++ [x]) ++ rest by simp] at h
          obtain ⟨s2, e2, g2⟩ := ih s (don ++ [x]) rest t k (i + 1) h (by rw [List.length_append, hi]; rfl) (by omega)
            (by simp only [List.length_append, List.length_cons, List.length_nil]; omega)
            (by simp only [List.length_append, List.length_cons, List.length_nil]; omega)
          refine ⟨s2, e2, ?_⟩
          rw [subst_not new hnp, show don ++ x :: subst old new rest 0 = (don ++ [x]) ++ subst old new rest 0 by simp]
          exact g2
    · rw [if_neg c, subst_short new (by omega)]
      exact ⟨s, rfl, h⟩

theorem replaceAll_ok {C : Nat} (h7 : 7 ≤ C) {junk : Nat → Chr} {old new : List Chr} (h0 : old ≠ [])
    {s : Str} {l : List Chr} {t : Bool} {k : Int} (h : Good C s l t k) (hl : l.length < 2 ^ 61) (hr : (subst old new l 0).length < 2 ^ 61) :
    ∃ s', s.replaceAll C junk old new = .ok s' ∧ Good C s' (subst old new l 0) t k := by
  have hpos : 0 < old.length := List.length_pos_iff.mpr h0
  unfold Str.replaceAll
  rw [ccAssert_true (decide_eq_true (by omega)), R.ok_bind]
  have hsz := h.size
  by_cases c : old.length > s.size
  · rw [if_pos c, subst_short new (by omega)]
    exact ⟨s, rfl, h⟩
  · rw [if_neg c]
    exact replaceLoop_ok h7 h0 (by omega) (s.size + 1) s [] l t k 0 h rfl (by omega) hl hr

theorem replacedLoop_ok {C : Nat} (h7 : 7 ≤ C) {junk : Nat → Chr} {old new : List Chr} (h0 : old ≠ []) (hol : old.length < 2 ^ 61)
    {s : Str} {l : List Chr} {t : Bool} {k : Int} (h : Good C s l t k) (hl : l.length < 2 ^ 61) (fuel : Nat) :
    ∀ (r : Str) (acc : List Chr) (i : Nat), Good C r acc true 0 → i ≤ l.length → l.length - i < fuel →
      (acc ++ subst old new (l.drop i) 0).length < 2 ^ 61 →
      ∃ s', replacedLoop C junk s old new fuel r i = .ok s' ∧ Good C s' (acc ++ subst old new (l.drop i) 0) true 0 := by
  have hpos : 0 < old.length := List.length_pos_iff.mpr h0
  induction fuel with
  | zero => intro r acc i _ _ hf; omega
  | succ fuel ih =>
    intro r acc i g hi hf hl2
    rw [replacedLoop]
    have hsz := h.size
    by_cases c : i < s.size
    · rw [if_pos c]
      obtain ⟨q, hv, hin, hch⟩ := view_ok h
      obtain ⟨hoi, hoc⟩ := ext_inside hol
      rw [hv, R.ok_bind]
      -- the clamped view shows at most `|old|` characters from position `i`
      obtain ⟨n, hn1, hn2, hn3⟩ : ∃ n, (View.mk (l ++ q) 0 l.length).subviewClamped i old.length = ⟨l ++ q, 0 + i, n⟩ ∧ i + n ≤ l.length ∧
          (l.drop i).take n = (l.drop i).take old.length := by
        unfold View.subviewClamped
        dsimp only
        rw [if_neg (by omega), Nat.mod_eq_of_lt (by omega)]
        by_cases d : i + old.length > l.length
        · rw [if_pos d]
          refine ⟨_, rfl, by omega, ?_⟩
          rw [List.take_of_length_le (by rw [List.length_drop]; omega), List.take_of_length_le (by rw [List.length_drop]; omega)]
        · rw [if_neg d]
          exact ⟨_, rfl, by omega, rfl⟩
      have hin2 := StrView.sub_inside hin (a := i) (n := n) hn2
      have hch2 := StrView.sub_chars (v := ⟨l ++ q, 0, l.length⟩) (a := i) (n := n) hn2
      dsimp only at hch2 hin2
      rw [hch, hn3] at hch2
      rw [hn1, StrView.eq_ok hin2 hoi, R.ok_bind, hch2, hoc]
      by_cases p : (l.drop i).take old.length = old
      · rw [decide_eq_true p, if_pos rfl]
        obtain ⟨b, hb⟩ := take_eq_iff_prefix.mp p
        have hbd : b = l.drop (i + old.length) := by
          rw [← List.drop_drop, ← hb, List.drop_left' rfl]
        have hlen : old.length + b.length = l.length - i := by
          rw [← List.length_append, hb, List.length_drop]
        rw [← hb, subst_found h0] at hl2 ⊢
        simp only [List.length_append] at hl2
        obtain ⟨r1, e1, g1⟩ := append_ok h7 (junk := junk) g (.ext new) (m := new) (by omega) (Or.inl rfl)
        rw [e1, R.ok_bind]
        obtain ⟨r2, e2, g2⟩ := ih r1 (acc ++ new) (i + old.length) g1 (by omega) (by omega)
          (by rw [← hbd]; simp only [List.length_append]; omega)
        refine ⟨r2, e2, ?_⟩
        rw [← hbd, List.append_assoc] at g2
        exact g2
      · rw [decide_eq_false p, if_neg (by simp)]
        have hx : ∃ x, l.drop i = x :: l.drop (i + 1) ∧ l[i]? = some x := by
          have hi' : i < l.length := by omega
          exact ⟨l[i], List.drop_eq_getElem_cons hi', List.getElem?_eq_getElem hi'⟩
        obtain ⟨x, hx1, hx2⟩ := hx
        have hnp : ¬ old <+: x :: l.drop (i + 1) := fun hp => p (by rw [hx1]; exact take_eq_iff_prefix.mpr hp)
        rw [hx1, subst_not new hnp] at hl2 ⊢
        simp only [List.length_append, List.length_cons] at hl2
        rw [StrView.rd_of_get hin (by rw [hch]; exact hx2), R.ok_bind]
        obtain ⟨r1, e1, g1⟩ := pushBack_ok h7 (junk := junk) g x (by omega)
        rw [e1, R.ok_bind]
        obtain ⟨r2, e2, g2⟩ := ih r1 (acc ++ [x]) (i + 1) g1 (by omega) (by omega)
          (by simp only [List.length_append, List.length_cons, List.length_nil]; omega)
        refine ⟨r2, e2, ?_⟩
        rw [List.append_assoc] at g2
        exact g2
    · rw [if_neg c]
      have hnil : l.drop i = [] := List.drop_of_length_le (by omega)
      rw [hnil]
      refine ⟨r, rfl, ?_⟩
      rw [show acc ++ subst old new [] 0 = acc from List.append_nil acc]
      exact g

theorem replaced_ok {C : Nat} (h7 : 7 ≤ C) (hC : C < 2 ^ 61) {junk : Nat → Chr} {old new : List Chr} (h0 : old ≠ [])
    {s : Str} {l : List Chr} {t : Bool} {k : Int} (h : Good C s l t k) (hl : l.length < 2 ^ 61) (hr : (subst old new l 0).length < 2 ^ 61) :
    ∃ s', s.replaced C junk old new = .ok s' ∧ Good C s' (subst old new l 0) t 0 := by
  have hpos : 0 < old.length := List.length_pos_iff.mpr h0
  unfold Str.replaced
  rw [ccAssert_true (decide_eq_true (by omega)), R.ok_bind]
  have hsz := h.size
  by_cases c : old.length > s.size
  · rw [if_pos c, subst_short new (by omega)]
    exact copyCtor_ok h7 hC h hl
  · rw [if_neg c]
    obtain ⟨s', e, g⟩ := replacedLoop_ok h7 (junk := junk) h0 (by omega) h hl (s.size + 1) (Str.empty C) [] 0 (empty_good C hC)
      (Nat.zero_le _) (by omega) hr
    refine ⟨s', e, ?_⟩
    have g : Good C s' (subst old new l 0) true 0 := g
    cases t with
    | true => exact g
    | false => exact good_weaken g

end Verif.Str
