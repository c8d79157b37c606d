import Verif.Num.Model
import Verif.Num.Spec
import Verif.Str.Lemmas
namespace Verif.Num
open Verif.StrView (Chr View)
open Spec (IsDigit value IsNumeral IsDecimal IsSpace Denotes DenotesWs)

/-! ### Numerals -/

theorem value_nil (acc : Nat) : value acc [] = acc := rfl
theorem value_cons (acc : Nat) (c : Chr) (t : List Chr) : value acc (c :: t) = value (10 * acc + (c.toNat - 48)) t := by
  unfold value
  rw [List.foldl_cons]

theorem value_append (acc : Nat) (a b : List Chr) : value acc (a ++ b) = value (value acc a) b := by
  induction a generalizing acc with
  | nil => rw [value_nil]; rfl
  | cons c t ih => rw [List.cons_append, value_cons, ih, value_cons]

theorem value_acc (acc : Nat) (l : List Chr) : value acc l = acc * 10 ^ l.length + value 0 l := by
  induction l generalizing acc with
  | nil => rw [value_nil, value_nil]; simp
  | cons c t ih =>
    rw [value_cons, value_cons, ih, ih (10 * 0 + _), List.length_cons, Nat.pow_succ, Nat.add_mul]
    have hz : 10 * 0 + (c.toNat - 48) = c.toNat - 48 := by omega
    rw [hz]
    have : 10 * acc * 10 ^ t.length = acc * (10 ^ t.length * 10) := by
      rw [Nat.mul_comm 10 acc, Nat.mul_assoc, Nat.mul_comm 10]
    omega

theorem digitChr_toNat (d : Nat) (h : d < 10) : (digitChr false d).toNat = 48 + d := by
  unfold digitChr
  rw [if_pos h, BitVec.toNat_ofNat]
  omega

theorem numLoop_app (caps : Bool) (b f n : Nat) (acc : List Chr) : numLoop caps b f n acc = numLoop caps b f n [] ++ acc := by
  induction f generalizing n acc with
  | zero => rfl
  | succ f ih =>
    rw [numLoop, numLoop]
    split
    · rfl
    · rw [ih, ih (n / b) [_], List.append_assoc]; rfl

theorem numLoop_numeral (f n : Nat) (h : n < 2 ^ f) (h0 : 0 < f) : IsNumeral (numLoop false 10 f n []) n := by
  induction f generalizing n with
  | zero => exact absurd h0 (Nat.lt_irrefl 0)
  | succ f ih =>
    have hd : n % 10 < 10 := Nat.mod_lt _ (by decide)
    have hc := digitChr_toNat (n % 10) hd
    have hdig : IsDigit (digitChr false (n % 10)) := by unfold IsDigit; omega
    rw [numLoop]
    by_cases e : n / 10 = 0
    · rw [if_pos e]
      refine ⟨by simp, ?_, fun _ => rfl, ?_⟩
      · intro c hc'
        rw [List.mem_singleton.mp hc']; exact hdig
      · rw [value_cons, value_nil, hc]; omega
    · rw [if_neg e, numLoop_app]
      have hn : n / 10 < 2 ^ f := by
        rw [Nat.pow_succ] at h
        omega
      have hf : 0 < f := by
        rcases Nat.eq_zero_or_pos f with g | g
        · subst g
          rw [Nat.pow_zero] at hn
          omega
        · exact g
      obtain ⟨g1, g2, g3, g4⟩ := ih (n / 10) hn hf
      refine ⟨by simp, ?_, ?_, ?_⟩
      · intro c hc'
        rcases List.mem_append.mp hc' with g | g
        · exact g2 c g
        · rw [List.mem_singleton.mp g]; exact hdig
      · intro hh
        have hh' : (numLoop false 10 f (n / 10) []).head? = some 48#8 := by
          cases hl : numLoop false 10 f (n / 10) [] with
          | nil => exact absurd hl g1
          | cons x t => rw [hl] at hh; exact hh
        exfalso
        have h1 := g3 hh'
        cases hl : numLoop false 10 f (n / 10) [] with
        | nil => exact absurd hl g1
        | cons x t =>
          rw [hl] at h1 hh' g4
          have ht : t = [] := by
            rw [List.length_cons] at h1
            exact List.length_eq_zero_iff.mp (by omega)
          subst ht
          have hx : x = 48#8 := Option.some.inj hh'
          subst hx
          rw [value_cons, value_nil] at g4
          have : (48#8).toNat = 48 := rfl
          omega
      · rw [value_append, g4, value_cons, value_nil, hc]; omega

theorem numeral_ok (n : Nat) : IsNumeral (numeral false 10 n) n := by
  refine numLoop_numeral _ n ?_ (Nat.succ_pos _)
  exact Nat.lt_log2_self

theorem decimal_ok (x : Int) : IsDecimal (decimal x) x := by
  unfold decimal
  by_cases h : x < 0
  · rw [if_pos h]; exact Or.inr ⟨h, _, rfl, numeral_ok _⟩
  · rw [if_neg h]; exact Or.inl ⟨by omega, numeral_ok _⟩

theorem value_ge (l : List Chr) (h : ∀ c ∈ l, IsDigit c) (h0 : l ≠ []) (h1 : l.head? = some 48#8 → l.length = 1) (hl : 1 < l.length) :
    10 ^ (l.length - 1) ≤ value 0 l := by
  cases l with
  | nil => exact absurd rfl h0
  | cons c t =>
    rw [value_cons, value_acc, List.length_cons, Nat.add_sub_cancel]
    have hc := h c List.mem_cons_self
    have : c.toNat ≠ 48 := by
      intro e
      have : c = 48#8 := BitVec.eq_of_toNat_eq e
      have := h1 (by rw [this]; rfl)
      omega
    have h48 : 1 ≤ 10 * 0 + (c.toNat - 48) := by
      have := hc.1
      omega
    have : 1 * 10 ^ t.length ≤ (10 * 0 + (c.toNat - 48)) * 10 ^ t.length := Nat.mul_le_mul_right _ h48
    omega

/-- A numeral of `n < 10^k` has at most `k` digits. -/
theorem numeral_length {l : List Chr} {n k : Nat} (h : IsNumeral l n) (hk : 0 < k) (hn : n < 10 ^ k) : l.length ≤ k := by
  obtain ⟨h1, h2, h3, h4⟩ := h
  rcases Nat.lt_or_ge 1 l.length with g | g
  · have := value_ge l h2 h1 h3 g
    rw [h4] at this
    rcases Nat.lt_or_ge k l.length with e | e
    · have hp : 10 ^ k ≤ 10 ^ (l.length - 1) := Nat.pow_le_pow_right (by decide) (by omega)
      omega
    · exact e
  · omega

/-! ### Parsing -/

theorem isSpaceC_iff (c : Chr) : isSpaceC c = true ↔ IsSpace c := by
  unfold isSpaceC IsSpace
  rw [Bool.or_eq_true, Bool.and_eq_true, beq_iff_eq, decide_eq_true_iff, decide_eq_true_iff]

theorem isDigit_iff (c : Chr) : isDigit c = true ↔ IsDigit c := by
  unfold isDigit IsDigit
  rw [Bool.and_eq_true, decide_eq_true_iff, decide_eq_true_iff]

theorem digit_not_space {c : Chr} (h : IsDigit c) : isSpaceC c = false := by
  cases e : isSpaceC c with
  | false => rfl
  | true =>
    rcases (isSpaceC_iff c).mp e with g | g
    · rw [g] at h; exact absurd h (by decide)
    · have := h.1
      omega

theorem digit_ne {c : Chr} (h : IsDigit c) (k : Chr) (hk : ¬ IsDigit k) : (c == k) = false := by
  cases e : c == k with
  | false => rfl
  | true => rw [beq_iff_eq.mp e] at h; exact absurd h hk

theorem skipSpace_app (ws : List Chr) (c : Chr) (t : List Chr) (h : ∀ x ∈ ws, IsSpace x) (hc : isSpaceC c = false) :
    skipSpace (ws ++ c :: t) = .ok (c :: t) := by
  induction ws with
  | nil => rw [List.nil_append, skipSpace, hc]; rfl
  | cons x ws ih =>
    rw [List.cons_append, skipSpace, (isSpaceC_iff x).mpr (h x List.mem_cons_self)]
    exact ih fun y hy => h y (List.mem_cons_of_mem _ hy)

theorem readDigits_app (ds : List Chr) (c : Chr) (t : List Chr) (acc : Nat) (h : ∀ x ∈ ds, IsDigit x) (hc : isDigit c = false) :
    readDigits (ds ++ c :: t) acc = .ok (value acc ds, c :: t) := by
  induction ds generalizing acc with
  | nil => rw [List.nil_append, readDigits, hc, value_nil]; rfl
  | cons x ds ih =>
    rw [List.cons_append, readDigits, (isDigit_iff x).mpr (h x List.mem_cons_self), value_cons]
    exact ih _ fun y hy => h y (List.mem_cons_of_mem _ hy)

/-- What precedes the first character that is not white space. -/
theorem split_space (s rest : List Chr) : ∃ ws c t, s ++ 0#8 :: rest = ws ++ c :: t ∧ (∀ x ∈ ws, IsSpace x) ∧ isSpaceC c = false ∧ ws.length ≤ s.length := by
  induction s with
  | nil => exact ⟨[], 0#8, rest, rfl, (fun _ h => nomatch h), by decide, Nat.le_refl _⟩
  | cons x s ih =>
    cases e : isSpaceC x with
    | false => exact ⟨[], x, s ++ 0#8 :: rest, rfl, (fun _ h => nomatch h), e, Nat.zero_le _⟩
    | true =>
      obtain ⟨ws, c, t, h1, h2, h3, h4⟩ := ih
      refine ⟨x :: ws, c, t, by rw [List.cons_append, h1]; rfl, ?_, h3, by rw [List.length_cons, List.length_cons]; omega⟩
      intro y hy
      rcases List.mem_cons.mp hy with rfl | hy
      · exact (isSpaceC_iff _).mp e
      · exact h2 y hy

theorem split_digits (s rest : List Chr) : ∃ ds c t, s ++ 0#8 :: rest = ds ++ c :: t ∧ (∀ x ∈ ds, IsDigit x) ∧ isDigit c = false ∧ ds.length ≤ s.length := by
  induction s with
  | nil => exact ⟨[], 0#8, rest, rfl, (fun _ h => nomatch h), by decide, Nat.le_refl _⟩
  | cons x s ih =>
    cases e : isDigit x with
    | false => exact ⟨[], x, s ++ 0#8 :: rest, rfl, (fun _ h => nomatch h), e, Nat.zero_le _⟩
    | true =>
      obtain ⟨ds, c, t, h1, h2, h3, h4⟩ := ih
      refine ⟨x :: ds, c, t, by rw [List.cons_append, h1]; rfl, ?_, h3, by rw [List.length_cons, List.length_cons]; omega⟩
      intro y hy
      rcases List.mem_cons.mp hy with rfl | hy
      · exact (isDigit_iff _).mp e
      · exact h2 y hy

theorem app_zero_split {s rest a t : List Chr} {c : Chr} (h : s ++ 0#8 :: rest = a ++ c :: t) (hl : a.length ≤ s.length) :
    (s = a ∧ c = 0#8 ∧ t = rest) ∨ ∃ s', s = a ++ c :: s' ∧ t = s' ++ 0#8 :: rest := by
  induction a generalizing s with
  | nil =>
    cases s with
    | nil =>
      have h1 := List.cons.inj h
      exact Or.inl ⟨rfl, h1.1.symm, h1.2.symm⟩
    | cons x s =>
      have h1 := List.cons.inj h
      exact Or.inr ⟨s, by rw [List.nil_append, h1.1], h1.2.symm⟩
  | cons x a ih =>
    cases s with
    | nil => rw [List.length_cons] at hl; exact absurd hl (by simp)
    | cons y s =>
      have h1 := List.cons.inj h
      rcases ih h1.2 (by rw [List.length_cons, List.length_cons] at hl; omega) with ⟨g1, g2, g3⟩ | ⟨s', g1, g2⟩
      · exact Or.inl ⟨by rw [h1.1, g1], g2, g3⟩
      · exact Or.inr ⟨s', by rw [h1.1, g1]; rfl, g2⟩

theorem rd_cons (c : Chr) (t : List Chr) : Str.rd (c :: t) 0 = .ok c := rfl

/-- The number part: `m` are the characters after the white space and the sign. -/
theorem digits_part (s rest : List Chr) (h0 : 0#8 ∉ s) :
    (∃ ds, s = ds ∧ ds ≠ [] ∧ (∀ x ∈ ds, IsDigit x) ∧ readDigits (s ++ 0#8 :: rest) 0 = .ok (value 0 ds, 0#8 :: rest)) ∨
    ((¬ (s ≠ [] ∧ ∀ x ∈ s, IsDigit x)) ∧
      ∃ c t, s ++ 0#8 :: rest = c :: t ∧ (isDigit c = false ∨ ∃ v e t', readDigits (s ++ 0#8 :: rest) 0 = .ok (v, e :: t') ∧ e ≠ 0#8)) := by
  obtain ⟨ds, c, t, h1, h2, h3, h4⟩ := split_digits s rest
  rcases app_zero_split h1 h4 with ⟨g1, g2, g3⟩ | ⟨s', g1, g2⟩
  · subst g1 g2 g3
    cases s with
    | nil => exact Or.inr ⟨(fun h => h.1 rfl), 0#8, t, rfl, Or.inl (by decide)⟩
    | cons x s => exact Or.inl ⟨_, rfl, by simp, h2, readDigits_app _ _ _ _ h2 h3⟩
  · refine Or.inr ⟨fun h => ?_, ?_⟩
    · have := (isDigit_iff c).mpr (h.2 c (by rw [g1]; simp))
      rw [h3] at this
      cases this
    · have hc : c ≠ 0#8 := fun e => h0 (by rw [g1, e]; simp)
      cases ds with
      | nil => exact ⟨c, t, h1, Or.inl h3⟩
      | cons x ds =>
        refine ⟨x, ds ++ c :: t, h1, Or.inr ⟨value 0 (x :: ds), c, t, ?_, hc⟩⟩
        rw [h1]
        exact readDigits_app _ _ _ _ h2 h3

/-- Whether `strtoX` finds a number up to the terminating zero. -/
theorem strtoX_ok (s rest : List Chr) (h0 : 0#8 ∉ s) :
    (∃ neg v, DenotesWs s neg v ∧ strtoX (s ++ 0#8 :: rest) = .ok (some (neg, v, 0#8 :: rest))) ∨
    ((∀ neg v, ¬ DenotesWs s neg v) ∧
      (strtoX (s ++ 0#8 :: rest) = .ok none ∨
       ∃ neg v e t, strtoX (s ++ 0#8 :: rest) = .ok (some (neg, v, e :: t)) ∧ e ≠ 0#8)) := by
  obtain ⟨ws, c, t, h1, h2, h3, h4⟩ := split_space s rest
  have hsk := skipSpace_app ws c t h2 h3
  have hsp : strtoX (s ++ 0#8 :: rest) = (do
      let m := if c == 45#8 || c == 43#8 then t else c :: t
      let d ← Str.rd m 0
      if isDigit d then do
        let (v, e) ← readDigits m 0
        pure (some (c == 45#8, v, e))
      else pure none) := by
    unfold strtoX
    rw [h1, hsk, R.ok_bind, rd_cons, R.ok_bind]
    rfl
  rw [hsp]
  -- uniqueness of the split of `s`
  have huniq : ∀ neg v, DenotesWs s neg v → ∃ m, s = ws ++ m ∧ Denotes m neg v := by
    rintro neg v ⟨ws', m, e, hw, hd⟩
    have hm : ∃ d m', m = d :: m' ∧ isSpaceC d = false := by
      obtain ⟨sg, ds, e1, e2, e3, e4, _⟩ := hd
      cases ds with
      | nil => exact absurd rfl e3
      | cons d ds =>
        rcases e2 with ⟨rfl, _⟩ | ⟨rfl, _⟩ | ⟨rfl, _⟩
        · exact ⟨d, ds, e1, digit_not_space (e4 d List.mem_cons_self)⟩
        · exact ⟨43#8, d :: ds, e1, by decide⟩
        · exact ⟨45#8, d :: ds, e1, by decide⟩
    obtain ⟨d, m', rfl, hd'⟩ := hm
    have hh : ws' ++ d :: (m' ++ 0#8 :: rest) = ws ++ c :: t := by
      rw [← h1, e, List.append_assoc]; rfl
    have hlen : ws' = ws := by
      clear h1 h4 hsk hsp e hd
      induction ws' generalizing ws with
      | nil =>
        cases ws with
        | nil => rfl
        | cons x ws =>
          have h1 := (List.cons.inj hh).1
          have := (isSpaceC_iff x).mpr (h2 x List.mem_cons_self)
          rw [← h1, hd'] at this
          cases this
      | cons y ws' ih =>
        cases ws with
        | nil =>
          have h1 := (List.cons.inj hh).1
          have := (isSpaceC_iff y).mpr (hw y List.mem_cons_self)
          rw [h1, h3] at this
          cases this
        | cons x ws =>
          have h1 := List.cons.inj hh
          rw [ih ws (fun z hz => h2 z (List.mem_cons_of_mem _ hz)) (fun z hz => hw z (List.mem_cons_of_mem _ hz)) h1.2, h1.1]
    exact ⟨d :: m', by rw [e, hlen], hd⟩
  rcases app_zero_split h1 h4 with ⟨g1, g2, g3⟩ | ⟨s', g1, g2⟩
  · -- only white space
    subst g2
    refine Or.inr ⟨fun neg v hd => ?_, Or.inl rfl⟩
    obtain ⟨m, e, sg, ds, e1, _, e3, _⟩ := huniq neg v hd
    have : m = [] := by
      have := congrArg List.length e
      rw [g1, List.length_append] at this
      exact List.length_eq_zero_iff.mp (by omega)
    rw [this] at e1
    have := List.append_eq_nil_iff.mp e1.symm
    exact e3 this.2
  · have h0' : 0#8 ∉ s' := fun e => h0 (by rw [g1]; simp [e])
    have hcanc : ∀ m, s = ws ++ m → m = c :: s' := by
      intro m e
      rw [g1] at e
      exact (List.append_cancel_left e).symm
    by_cases hsg : (c == 45#8 || c == 43#8) = true
    · -- a sign
      have hif : (if c == 45#8 || c == 43#8 then t else c :: t) = t := if_pos hsg
      dsimp only
      rw [hif, g2]
      have hnd : ¬ IsDigit c := by
        rcases Bool.or_eq_true _ _ ▸ hsg with g | g
        · rw [beq_iff_eq.mp g]; decide
        · rw [beq_iff_eq.mp g]; decide
      rcases digits_part s' rest h0' with ⟨ds, e1, e2, e3, e4⟩ | ⟨e1, d, t', e2, e3⟩
      · left
        subst e1
        refine ⟨c == 45#8, value 0 s', ⟨ws, c :: s', g1, h2, [c], s', rfl, ?_, e2, e3, rfl⟩, ?_⟩
        · rcases Bool.or_eq_true _ _ ▸ hsg with g | g
          · exact Or.inr (Or.inr ⟨by rw [beq_iff_eq.mp g], g⟩)
          · rw [beq_iff_eq.mp g]; exact Or.inr (Or.inl ⟨rfl, by decide⟩)
        · cases s' with
          | nil => exact absurd rfl e2
          | cons d ds =>
            rw [List.cons_append, rd_cons, R.ok_bind, if_pos ((isDigit_iff d).mpr (e3 d List.mem_cons_self)), ← List.cons_append, e4, R.ok_bind]
            rfl
      · right
        refine ⟨fun neg v hd => ?_, ?_⟩
        · obtain ⟨m, e, sg, ds, f1, f2, f3, f4, _⟩ := huniq neg v hd
          rw [hcanc m e] at f1
          rcases f2 with ⟨rfl, _⟩ | ⟨rfl, _⟩ | ⟨rfl, _⟩
          · have f1 : c :: s' = ds := f1
            exact hnd (f4 c (by rw [← f1]; exact List.mem_cons_self))
          · have := (List.cons.inj f1).2
            have this : s' = ds := this
            exact e1 (by rw [this]; exact ⟨f3, f4⟩)
          · have := (List.cons.inj f1).2
            have this : s' = ds := this
            exact e1 (by rw [this]; exact ⟨f3, f4⟩)
        · rw [e2, rd_cons, R.ok_bind]
          rcases e3 with e3 | ⟨v, x, t'', e3, e4⟩
          · rw [e3]; exact Or.inl rfl
          · cases hd : isDigit d with
            | false => exact Or.inl rfl
            | true =>
              rw [← e2, if_pos rfl, e3, R.ok_bind]
              exact Or.inr ⟨_, _, _, _, rfl, e4⟩
    · have hif : (if c == 45#8 || c == 43#8 then t else c :: t) = c :: t := if_neg hsg
      dsimp only
      rw [hif]
      have hsg' : (c == 45#8) = false ∧ (c == 43#8) = false := by
        rw [Bool.or_eq_true] at hsg
        exact ⟨by cases e : c == 45#8 <;> simp_all, by cases e : c == 43#8 <;> simp_all⟩
      have hs0 : 0#8 ∉ c :: s' := fun e => h0 (by rw [g1]; exact List.mem_append_right _ e)
      have hct : c :: t = (c :: s') ++ 0#8 :: rest := by rw [g2]; rfl
      rw [rd_cons, R.ok_bind, hct]
      rcases digits_part (c :: s') rest hs0 with ⟨ds, e1, e2, e3, e4⟩ | ⟨e1, d, t', e2, e3⟩
      · left
        subst e1
        refine ⟨false, value 0 (c :: s'), ⟨ws, c :: s', g1, h2, [], c :: s', rfl, Or.inl ⟨rfl, rfl⟩, e2, e3, rfl⟩, ?_⟩
        rw [if_pos ((isDigit_iff c).mpr (e3 c List.mem_cons_self)), e4, R.ok_bind, hsg'.1]
        rfl
      · right
        refine ⟨fun neg v hd => ?_, ?_⟩
        · obtain ⟨m, e, sg, ds, f1, f2, f3, f4, _⟩ := huniq neg v hd
          rw [hcanc m e] at f1
          rcases f2 with ⟨rfl, _⟩ | ⟨rfl, _⟩ | ⟨rfl, _⟩
          · rw [List.nil_append] at f1
            exact e1 (by rw [f1]; exact ⟨f3, f4⟩)
          · have := (List.cons.inj f1).1
            rw [this] at hsg'
            exact absurd hsg'.2 (by decide)
          · have := (List.cons.inj f1).1
            rw [this] at hsg'
            exact absurd hsg'.1 (by decide)
        · have hdc : d = c := (List.cons.inj (e2.symm.trans (List.cons_append))).1
          subst hdc
          rcases e3 with e3 | ⟨v, x, t'', e3, e4⟩
          · rw [e3]; exact Or.inl rfl
          · cases hd : isDigit d with
            | false => exact Or.inl rfl
            | true =>
              rw [if_pos rfl, e3, R.ok_bind]
              exact Or.inr ⟨_, _, _, _, rfl, e4⟩

end Verif.Num
