import Verif.Fmt.Parse
/-! # Formatted strings (C50) -/
namespace Verif.Fmt
open Verif.StrView (Chr)
open Verif.Num.Spec (IsDigit value)
open Verif.Num (txt)
open Spec (Fields IsAlign IsSign IsLetter Padded truncate)

theorem toInt32_small {n : Nat} (h : n < 2 ^ 31) : toInt32 n = n := by
  unfold toInt32
  rw [BitVec.toInt_eq_toNat_of_lt (by rw [BitVec.toNat_ofNat]; omega), BitVec.toNat_ofNat]
  omega

theorem fillLoop_ok (fill : Chr) (t : BitVec 64) (n : Nat) (h : t.toNat = n) (hn : n < 2 ^ 32) : fillLoop fill t = .ok (List.replicate n fill) := by
  unfold fillLoop
  rw [h, if_pos hn]
  rfl

theorem total_toNat (w n : Nat) (h : n ≤ w) (hw : w < 2 ^ 31) : (BitVec.ofInt 64 (w : Int) - BitVec.ofNat 64 n).toNat = w - n := by
  rw [BitVec.toNat_sub, BitVec.toNat_ofNat, BitVec.toNat_ofInt]
  omega

theorem alignChr_cases (f : Fields) (h : f.Wf) : IsAlign f.alignChr := by
  unfold Fields.alignChr
  cases he : f.align with
  | none => exact Or.inr (Or.inl rfl)
  | some p =>
    obtain ⟨fl, a⟩ := p
    exact (h.align fl a he).1

/-- The text that the code produces from the parts. -/
theorem strFmt_parts (v fmt : List Chr) (f : Fields) (hf : f.Wf) (hp : parseArgs fmt = .ok (meaning f)) (h0 : fmt ≠ []) (hv : v.length < 2 ^ 31) :
    ∃ out, strFmt v fmt = .ok out ∧
      ((∃ n, f.maxLen = some n ∧ n ≤ v.length ∧ out = v.take n) ∨
       ((∀ n, f.maxLen = some n → v.length < n) ∧ Padded v f.fillChr f.alignChr f.minWidth out)) := by
  unfold strFmt
  rw [if_neg h0, hp, R.ok_bind, toInt32_small hv]
  have pad : ∃ out, (if (meaning f).width > (v.length : Int) then
      if (meaning f).align = 60#8 then do
        let f' ← fillLoop (meaning f).fill (BitVec.ofInt 64 (meaning f).width - BitVec.ofNat 64 v.length)
        pure (v ++ f')
      else if (meaning f).align = 94#8 then do
        let l ← fillLoop (meaning f).fill ((BitVec.ofInt 64 (meaning f).width - BitVec.ofNat 64 v.length) / 2#64 + (if (BitVec.ofInt 64 (meaning f).width - BitVec.ofNat 64 v.length) % 2#64 = 1#64 then 1#64 else 0#64))
        let r ← fillLoop (meaning f).fill ((BitVec.ofInt 64 (meaning f).width - BitVec.ofNat 64 v.length) / 2#64)
        pure (l ++ v ++ r)
      else do
        let f' ← fillLoop (meaning f).fill (BitVec.ofInt 64 (meaning f).width - BitVec.ofNat 64 v.length)
        pure (f' ++ v)
      else pure v : R (List Chr)) = .ok out ∧ Padded v f.fillChr f.alignChr f.minWidth out := by
    have hw := hf.width.2.2
    by_cases hgt : v.length < f.minWidth
    · have hne : f.width ≠ [] := by
        intro e
        unfold Fields.minWidth at hgt
        rw [e] at hgt
        exact absurd hgt (Nat.not_lt_zero _)
      have ew : (meaning f).width = (f.minWidth : Nat) := by
        change (if f.width = [] then (-1 : Int) else (value 0 f.width : Nat)) = _
        rw [if_neg hne]
        rfl
      have htot := total_toNat f.minWidth v.length (Nat.le_of_lt hgt) hw
      have ef : (meaning f).fill = f.fillChr := rfl
      have ea : (meaning f).align = f.alignChr := rfl
      rw [ew, if_pos (by omega), ef, ea]
      have hsm : f.minWidth - v.length < 2 ^ 31 := by
        have : f.minWidth < 2 ^ 31 := hw
        omega
      generalize BitVec.ofInt 64 ((f.minWidth : Nat) : Int) - BitVec.ofNat 64 v.length = T at *
      by_cases e1 : f.alignChr = 60#8
      · rw [if_pos e1, fillLoop_ok _ _ _ htot (by omega)]
        refine ⟨_, rfl, 0, f.minWidth - v.length, rfl, by omega, fun _ => rfl, ?_, ?_⟩
        · rw [e1]; intro h; cases h
        · rw [e1]; intro h; cases h
      · rw [if_neg e1]
        by_cases e2 : f.alignChr = 94#8
        · rw [if_pos e2]
          have hr : (T / 2#64).toNat = (f.minWidth - v.length) / 2 := by
            rw [BitVec.toNat_udiv, htot]; rfl
          have hm : (T % 2#64).toNat = (f.minWidth - v.length) % 2 := by
            rw [BitVec.toNat_umod, htot]; rfl
          have hl : (T / 2#64 + (if T % 2#64 = 1#64 then 1#64 else 0#64)).toNat = (f.minWidth - v.length) - (f.minWidth - v.length) / 2 := by
            by_cases e3 : T % 2#64 = 1#64
            · rw [if_pos e3, BitVec.toNat_add, hr]
              rw [e3] at hm
              have h1 : (1#64).toNat = 1 := rfl
              rw [h1] at hm ⊢
              omega
            · rw [if_neg e3, BitVec.toNat_add, hr]
              have h0 : (0#64).toNat = 0 := rfl
              have : (f.minWidth - v.length) % 2 ≠ 1 := fun g => e3 (BitVec.eq_of_toNat_eq (by rw [hm, g]; rfl))
              rw [h0]
              omega
          rw [fillLoop_ok _ _ _ hl (by omega), fillLoop_ok _ _ _ hr (by omega)]
          refine ⟨_, rfl, _, _, rfl, by omega, ?_, ?_, fun _ => by omega⟩
          · rw [e2]; intro h; cases h
          · rw [e2]; intro h; cases h
        · rw [if_neg e2, fillLoop_ok _ _ _ htot (by omega)]
          refine ⟨_, rfl, f.minWidth - v.length, 0, by simp, by omega, fun h => absurd h e1, fun _ => rfl, fun h => absurd h e2⟩
    · have : ¬ (meaning f).width > (v.length : Int) := by
        change ¬ (if f.width = [] then (-1 : Int) else (value 0 f.width : Nat)) > _
        split
        · omega
        · have : value 0 f.width = f.minWidth := rfl
          omega
      rw [if_neg this]
      exact ⟨v, rfl, 0, 0, by simp, by omega, fun _ => rfl, fun _ => rfl, fun _ => Or.inl rfl⟩
  have eprec : (meaning f).precision = match f.maxLen with | none => -1 | some n => (n : Int) := by
    unfold Fields.maxLen
    change (match f.precision with | none => (-1 : Int) | some p => (value 0 p : Nat)) = _
    cases f.precision <;> rfl
  cases hm : f.maxLen with
  | none =>
    rw [hm] at eprec
    dsimp only at eprec
    rw [eprec, if_neg (by omega)]
    obtain ⟨out, o1, o2⟩ := pad
    exact ⟨out, o1, Or.inr ⟨(fun n h => nomatch h), o2⟩⟩
  | some n =>
    rw [hm] at eprec
    dsimp only at eprec
    rw [eprec]
    by_cases hle : n ≤ v.length
    · rw [if_pos ⟨by omega, by omega⟩]
      refine ⟨v.take n, ?_, Or.inl ⟨n, rfl, hle, rfl⟩⟩
      unfold Str.slice
      rw [Int.toNat_natCast, if_pos (by omega)]
      rfl
    · rw [if_neg (by omega)]
      obtain ⟨out, o1, o2⟩ := pad
      refine ⟨out, o1, Or.inr ⟨?_, o2⟩⟩
      intro m hm'
      have := Option.some.inj hm'
      omega

/-- C50: a string formatted with any specification of the grammar is the string cut to the precision, padded to the width with
the fill character on the side selected by the alignment — as long as it is not both cut and padded
(`C50_cut_not_padded`). -/
theorem C50_string_partial (v : List Chr) (f : Fields) (hf : f.Wf) (ht : ∀ c, f.type = some c → IsLetter c) (hv : v.length < 2 ^ 31)
    (hpad : ∀ n, f.maxLen = some n → n ≤ v.length → f.minWidth ≤ n) :
    ∃ out, strFmt v f.render = .ok out ∧ Padded (truncate f.maxLen v) f.fillChr f.alignChr f.minWidth out := by
  by_cases h0 : f.render = []
  · refine ⟨v, by unfold strFmt; rw [if_pos h0]; rfl, ?_⟩
    unfold Fields.render at h0
    rw [List.append_eq_nil_iff, List.append_eq_nil_iff, List.append_eq_nil_iff, List.append_eq_nil_iff, List.append_eq_nil_iff, List.append_eq_nil_iff] at h0
    obtain ⟨_, _, _, _, h5, h6, _⟩ := h0
    have hm : f.maxLen = none := by
      unfold Fields.maxLen
      cases hp : f.precision with
      | none => rfl
      | some p => rw [hp] at h6; cases h6
    have hw : f.minWidth = 0 := by unfold Fields.minWidth; rw [h5]; rfl
    rw [hm, hw]
    exact ⟨0, 0, by unfold truncate; simp, by omega, fun _ => rfl, fun _ => rfl, fun _ => Or.inl rfl⟩
  · obtain ⟨out, o1, o2⟩ := strFmt_parts v f.render f hf (parseArgs_ok f hf ht) h0 hv
    refine ⟨out, o1, ?_⟩
    rcases o2 with ⟨n, h1, h2, rfl⟩ | ⟨h1, h2⟩
    · rw [h1]
      have := hpad n h1 h2
      refine ⟨0, 0, by unfold truncate; simp, ?_, fun _ => rfl, fun _ => rfl, fun _ => Or.inl rfl⟩
      unfold truncate
      dsimp only
      rw [List.length_take]
      omega
    · have : truncate f.maxLen v = v := by
        unfold truncate
        cases hm : f.maxLen with
        | none => rfl
        | some n => exact List.take_of_length_le (Nat.le_of_lt (h1 n hm))
      rw [this]
      exact h2

/-- C50: every other text is rejected by a contract, or is undefined because a number is too large: a specification that is accepted is one
of the grammar, and the text is as this says. -/
theorem C50_accepts_only_grammar (v fmt out : List Chr) (hv : v.length < 2 ^ 31) (h : strFmt v fmt = .ok out) :
    ∃ f : Fields, f.Wf ∧ f.render = fmt ∧
      ((∀ n, f.maxLen = some n → n ≤ v.length → f.minWidth ≤ n) → Padded (truncate f.maxLen v) f.fillChr f.alignChr f.minWidth out) := by
  by_cases h0 : fmt = []
  · subst h0
    have : out = v := (Except.ok.inj h).symm
    subst this
    exact ⟨{}, ⟨(fun _ _ h => nomatch h), (fun _ h => nomatch h), by decide, (fun h => nomatch h), (fun _ h => nomatch h)⟩, rfl,
      fun _ => ⟨0, 0, by simp [truncate, Fields.maxLen], by simp [Fields.minWidth, value], fun _ => rfl, fun _ => rfl, fun _ => Or.inl rfl⟩⟩
  · have h' := h
    unfold strFmt at h'
    rw [if_neg h0] at h'
    obtain ⟨a, ha, _⟩ := R.bind_eq_ok.mp h'
    obtain ⟨f, f1, f2, f3⟩ := parseArgs_inv ha
    refine ⟨f, f1, f2, fun hpad => ?_⟩
    rw [← f3] at ha
    obtain ⟨out', o1, o2⟩ := strFmt_parts v fmt f f1 ha h0 hv
    rw [h] at o1
    have : out = out' := Except.ok.inj o1
    subst this
    rcases o2 with ⟨n, h1, h2, rfl⟩ | ⟨h1, h2⟩
    · rw [h1]
      have := hpad n h1 h2
      refine ⟨0, 0, by unfold truncate; simp, ?_, fun _ => rfl, fun _ => rfl, fun _ => Or.inl rfl⟩
      unfold truncate
      dsimp only
      rw [List.length_take]
      omega
    · have : truncate f.maxLen v = v := by
        unfold truncate
        cases hm : f.maxLen with
        | none => rfl
        | some n => exact List.take_of_length_le (Nat.le_of_lt (h1 n hm))
      rw [this]
      exact h2

/-- The text is determined by the specification. -/
theorem C50_padded_unique (text : List Chr) (fill align : Chr) (width : Nat) (a b : List Chr) (h : IsAlign align)
    (ha : Padded text fill align width a) (hb : Padded text fill align width b) : a = b := by
  obtain ⟨l, r, rfl, h1, h2, h3, h4⟩ := ha
  obtain ⟨l', r', rfl, g1, g2, g3, g4⟩ := hb
  have : l = l' ∧ r = r' := by
    rcases h with e | e | e
    · have := h2 e; have := g2 e; omega
    · have := h3 e; have := g3 e; omega
    · have := h4 e; have := g4 e; omega
  rw [this.1, this.2]

/-- C50: malformed specifications fail a contract: nothing read, nothing undefined, if it has at most nine characters. -/
theorem C50_malformed_rejected (v fmt : List Chr) (hv : v.length < 2 ^ 31) (hl : fmt.length ≤ 9) :
    (∃ out, strFmt v fmt = .ok out) ∨ strFmt v fmt = .error .assert := by
  -- the loop cannot overflow
  have loop : ∀ (l : List Chr) (acc : Nat), (acc + 1) * 10 ^ l.length ≤ 2 ^ 31 → ∃ p, uintLoop l acc = .ok p ∧ p.2.length ≤ l.length := by
    intro l
    induction l with
    | nil => intro acc _; exact ⟨_, rfl, Nat.le_refl _⟩
    | cons c t ih =>
      intro acc h
      rw [uintLoop]
      by_cases e : Num.isDigit c = true
      · have hc := (Num.isDigit_iff c).mp e
        have h1 := hc.1
        have h2 := hc.2
        rw [List.length_cons, Nat.pow_succ] at h
        have hp : 0 < 10 ^ t.length := Nat.pow_pos (by decide)
        have h4 : (acc + 1) * 10 * 1 ≤ (acc + 1) * 10 * 10 ^ t.length := Nat.mul_le_mul_left _ hp
        have h5 : (acc + 1) * 10 * 10 ^ t.length = (acc + 1) * (10 ^ t.length * 10) := by
          rw [Nat.mul_assoc, Nat.mul_comm 10]
        rw [if_pos e, intOp_ok (by omega) (by omega), R.ok_bind, intOp_ok (by omega) (by omega), R.ok_bind]
        have ee : (acc : Int) * 10 + ((c.toNat : Int) - 48) = ((10 * acc + (c.toNat - 48) : Nat) : Int) := by omega
        rw [ee]
        have h6 : (10 * acc + (c.toNat - 48) + 1) * 10 ^ t.length ≤ (acc + 1) * 10 * 10 ^ t.length := Nat.mul_le_mul_right _ (by omega)
        obtain ⟨p, p1, p2⟩ := ih (10 * acc + (c.toNat - 48)) (by omega)
        exact ⟨p, p1, by rw [List.length_cons]; omega⟩
      · rw [if_neg e]
        exact ⟨_, rfl, Nat.le_refl _⟩
  have uint : ∀ (l : List Chr) (c : Chr) (t : List Chr), l = c :: t → Num.isDigit c = true → l.length ≤ 9 → ∃ p, parseUInt l = .ok p ∧ p.2.length ≤ 9 := by
    rintro l c t rfl hd hl
    have hc := (Num.isDigit_iff c).mp hd
    have h1 := hc.1
    have h2 := hc.2
    rw [List.length_cons] at hl
    have e : ((c.toNat : Int) - 48) = ((c.toNat - 48 : Nat) : Int) := by omega
    rw [parseUInt, e]
    have h3 : (c.toNat - 48 + 1) * 10 ^ t.length ≤ 10 * 10 ^ t.length := Nat.mul_le_mul_right _ (by omega)
    have h4 : 10 ^ t.length ≤ 10 ^ 8 := Nat.pow_le_pow_right (by decide) (by omega)
    obtain ⟨p, p1, p2⟩ := loop t (c.toNat - 48) (by omega)
    exact ⟨p, p1, by omega⟩
  have hA : ∀ (l : List Chr) (a : Args), (parseAlign l a).2.length ≤ l.length := by
    intro l a
    unfold parseAlign
    split
    · exact Nat.le_refl _
    · split
      · simp
      · split
        · exact Nat.le_refl _
        · split
          · simp only [List.length_cons]; omega
          · exact Nat.le_refl _
  have hS : ∀ (l : List Chr) (a : Args), (parseSign l a).2.length ≤ l.length := by
    intro l a
    unfold parseSign
    split
    · exact Nat.le_refl _
    · split
      · simp
      · exact Nat.le_refl _
  have hB : ∀ (l : List Chr) (a : Args), (parseAlt l a).2.length ≤ l.length := by
    intro l a
    unfold parseAlt
    split
    · exact Nat.le_refl _
    · split
      · simp
      · exact Nat.le_refl _
  have hZ : ∀ (l : List Chr) (a : Args), l.length ≤ 9 → (∃ p, parseZero l a = .ok p ∧ p.2.length ≤ 9) ∨ parseZero l a = .error .assert := by
    intro l a h
    unfold parseZero
    split
    · exact Or.inl ⟨_, rfl, by simp⟩
    · rename_i c t
      rw [List.length_cons] at h
      split
      · split
        · exact Or.inr rfl
        · rename_i d t'
          cases Num.isDigit d
          · exact Or.inr rfl
          · by_cases e : d ≠ 48#8
            · rw [decide_eq_true e]
              exact Or.inl ⟨_, rfl, by dsimp only; omega⟩
            · rw [decide_eq_false e]
              exact Or.inr rfl
      · exact Or.inl ⟨_, rfl, by dsimp only; rw [List.length_cons]; omega⟩
  have hW : ∀ (l : List Chr) (a : Args), l.length ≤ 9 → ∃ p, parseWidth l a = .ok p ∧ p.2.length ≤ 9 := by
    intro l a h
    unfold parseWidth
    split
    · exact ⟨_, rfl, by simp⟩
    · rename_i c t
      split
      · rename_i e
        obtain ⟨p, p1, p2⟩ := uint (c :: t) c t rfl e h
        rw [p1]
        exact ⟨_, rfl, p2⟩
      · exact ⟨_, rfl, h⟩
  have hP : ∀ (l : List Chr) (a : Args), l.length ≤ 9 → (∃ p, parsePrecision l a = .ok p) ∨ parsePrecision l a = .error .assert := by
    intro l a h
    unfold parsePrecision
    split
    · exact Or.inl ⟨_, rfl⟩
    · rename_i c t
      rw [List.length_cons] at h
      split
      · split
        · exact Or.inr rfl
        · rename_i d t'
          cases e : Num.isDigit d
          · exact Or.inr rfl
          · obtain ⟨p, p1, p2⟩ := uint (d :: t') d t' rfl e (by omega)
            rw [p1]
            exact Or.inl ⟨_, rfl⟩
      · exact Or.inl ⟨_, rfl⟩
  by_cases h0 : fmt = []
  · exact Or.inl ⟨v, by unfold strFmt; rw [if_pos h0]; rfl⟩
  · have key : (∃ a, parseArgs fmt = .ok a) ∨ parseArgs fmt = .error .assert := by
      unfold parseArgs
      dsimp only
      have l1 := hA fmt {}
      have l2 := hS (parseAlign fmt {}).2 (parseAlign fmt {}).1
      have l3 := hB (parseSign (parseAlign fmt {}).2 (parseAlign fmt {}).1).2 (parseSign (parseAlign fmt {}).2 (parseAlign fmt {}).1).1
      rcases hZ _ (parseAlt (parseSign (parseAlign fmt {}).2 (parseAlign fmt {}).1).2 (parseSign (parseAlign fmt {}).2 (parseAlign fmt {}).1).1).1
        (Nat.le_trans l3 (Nat.le_trans l2 (Nat.le_trans l1 hl))) with ⟨p, p1, p2⟩ | e
      · rw [p1, R.ok_bind]
        obtain ⟨q, q1, q2⟩ := hW p.2 p.1 p2
        rw [q1, R.ok_bind]
        rcases hP q.2 q.1 q2 with ⟨r, r1⟩ | e
        · rw [r1, R.ok_bind]
          unfold parseType
          split
          · exact Or.inl ⟨_, rfl⟩
          · rename_i c t _
            by_cases e : t = []
            · rw [decide_eq_true e]; exact Or.inl ⟨_, rfl⟩
            · rw [decide_eq_false e]; exact Or.inr rfl
        · rw [e]; exact Or.inr rfl
      · rw [e]; exact Or.inr rfl
    rcases key with ⟨a, ha⟩ | e
    · obtain ⟨f, f1, f2, f3⟩ := parseArgs_inv ha
      rw [← f3] at ha
      obtain ⟨out, o1, _⟩ := strFmt_parts v fmt f f1 ha h0 hv
      exact Or.inl ⟨out, o1⟩
    · refine Or.inr ?_
      unfold strFmt
      rw [if_neg h0, e]
      rfl

/-- A specification for the examples: `*^12s`. -/
def exFields : Fields := { align := some (some 42#8, 94#8), width := [49#8, 50#8], type := some 115#8 }

example : exFields.render = txt "*^12s" ∧ exFields.Wf ∧ (∀ c, exFields.type = some c → IsLetter c) ∧ exFields.minWidth = 12 := by
  refine ⟨by decide +kernel, ⟨?_, (fun _ h => nomatch h), by decide +kernel, (fun h => nomatch h), (fun _ h => nomatch h)⟩, ?_, by decide +kernel⟩
  · intro fl a h
    obtain ⟨rfl, rfl⟩ := Prod.mk.inj (Option.some.inj h)
    exact ⟨Or.inr (Or.inr rfl), fun c hc => by rw [← Option.some.inj hc]; unfold IsAlign; decide⟩
  · intro c hc
    rw [← Option.some.inj hc]
    exact Or.inl (by decide)

example : strFmt (txt "hello") (txt "*^12s") = .ok (txt "****hello***") := by decide +kernel
example : strFmt (txt "hello") (txt "<8") = .ok (txt "hello   ") ∧ strFmt (txt "hello") (txt ".3") = .ok (txt "hel") := by decide +kernel
example : strFmt (txt "hello") (txt "5.") = .error .assert ∧ strFmt (txt "hello") (txt "007") = .error .assert ∧
    strFmt (txt "hello") (txt "5ss") = .error .assert := by decide +kernel

/-! ### Where the code and C50 disagree -/

/-- C50 fails: a text that is cut to the precision is not padded to the width. -/
theorem C50_cut_not_padded : strFmt (txt "hello") (txt "6.2") = .ok (txt "he") ∧
    ¬ Padded (truncate (some 2) (txt "hello")) 32#8 62#8 6 (txt "he") := by
  refine ⟨by decide +kernel, ?_⟩
  rintro ⟨l, r, h1, h2, _⟩
  have : (txt "he").length = 2 := by decide +kernel
  have h3 := congrArg List.length h1
  rw [this] at h3
  have h4 : (truncate (some 2) (txt "hello")).length = 2 := by decide +kernel
  simp only [List.length_append, List.length_replicate] at h3
  omega

/-- C50 fails: for a text of `2^31` characters the size becomes a negative `int`, every width is larger, and the loop that pads does not end. -/
theorem C50_huge_text (v : List Chr) (hv : v.length = 2 ^ 31) : strFmt v (txt "s") = .error .ub := by
  have hp : parseArgs (txt "s") = .ok { type := 115#8 } := by decide +kernel
  unfold strFmt
  have h1 : toInt32 (2 ^ 31) = -2 ^ 31 := by decide +kernel
  have h2 : (BitVec.ofInt 64 (-1) - BitVec.ofNat 64 (2 ^ 31)).toNat = 2 ^ 64 - 1 - 2 ^ 31 := by decide +kernel
  rw [if_neg (by decide +kernel), hp, R.ok_bind, hv, h1]
  dsimp only
  rw [if_neg (by decide), if_pos (by decide), if_neg (by decide), if_neg (by decide)]
  unfold fillLoop
  rw [h2, if_neg (by decide)]
  rfl

end Verif.Fmt
