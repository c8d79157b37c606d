import Verif.Flt.Values
import Verif.Fmt.IntProps
/-!
# Floating-point numbers and text (C99 to C102)
-/
namespace Verif.Flt
open Verif.StrView (Chr View)
open Verif.Num (txt viaBuffer)
open Verif.Num.Spec (IsDigit IsNumeral value)
open Verif.Fmt (Args parseArgs parseArgs_ok meaning viaBuffer_ok)
open Verif.Fmt.Spec (Fields IsLetter Padded)
open Verif.Rsqrt (halfEven)
open Spec

/-! ### Helpers -/

/-- A value by sign and absolute value. -/
def fl (neg : Bool) : Value → Fl
  | .num q => .fin neg q
  | .inf => .inf neg
  | .nan => .nan neg

/-- The sign in front. -/
def minus (neg : Bool) : List Chr := if neg then [45#8] else []

theorem minus_sign (neg : Bool) : IsSign (minus neg) neg := by
  cases neg
  · exact .inl ⟨rfl, rfl⟩
  · exact .inr (.inr ⟨rfl, rfl⟩)

theorem denotes_minus {l : List Chr} {neg : Bool} {v : Value} (h : IsBody l v) : Denotes (minus neg ++ l) neg v := ⟨[], minus neg, l, rfl, (fun _ h => nomatch h), minus_sign neg, h⟩

theorem body_nonzero {l : List Chr} {neg : Bool} {q : ℚ} (h : IsDec l q) : 0#8 ∉ minus neg ++ l := by
  intro hm
  rcases List.mem_append.1 hm with hm | hm
  · cases neg
    · cases hm
    · exact absurd (List.mem_singleton.1 hm) (by decide)
  · have := (dec_chars h).1 _ hm
    unfold DecChr IsDigit at this
    exact absurd this (by decide)

/-! ### C99: `to_string` -/

/-- C99: for every number of `float`, `double` and `long double`, the text is a minus sign if it is negative and the number rounded to six digits, written in the usual way. -/
theorem C99_text (F : Format) (hF : Known F) (neg : Bool) (q : ℚ) (hq : Number F q) :
    ∃ l v, toStr F (.fin neg q) = .ok (minus neg ++ l) ∧ Rounded 6 q v ∧ Usual 101#8 6 l v := by
  obtain ⟨⟨v, h1, h2, _⟩, h3⟩ := textG_ok false false 6 (number_nonneg hq)
  refine ⟨textG false false 6 q, v, ?_, h1, h2 rfl⟩
  have hl := h3 4 (by omega) (log_bound hF hq)
  have hb : 21 ≤ bufferSize F := by rcases hF with rfl | rfl | rfl <;> decide
  have hp : printf (fun _ _ => []) {} (.fin neg q) = minus neg ++ textG false false 6 q := by
    show List.replicate (0 - _) 32#8 ++ (signText {} neg ++ body (fun _ _ => []) {} q) = _
    rw [Nat.zero_sub]
    cases neg <;> rfl
  unfold toStr
  rw [hp]
  refine viaBuffer_ok ?_
  have : (minus neg).length ≤ 1 := by cases neg <;> decide
  rw [List.length_append]
  omega

/-- C99: the text is determined by the number: there is one way to round, and one usual way to write. -/
theorem C99_unique (q v v' : ℚ) (h : Rounded 6 q v) (h' : Rounded 6 q v') (l l' : List Chr) (hl : Usual 101#8 6 l v) (hl' : Usual 101#8 6 l' v') : v = v' ∧ l = l' := by
  have := rounds_unique (by omega) h h'
  subst this
  exact ⟨rfl, usual_unique hl hl'⟩

/-- C99: infinities and NaN. -/
theorem C99_special (F : Format) (neg : Bool) : toStr F (.inf neg) = .ok (minus neg ++ txt "inf") ∧ toStr F (.nan neg) = .ok (minus neg ++ txt "nan") := by
  have hb : ∀ l : List Chr, l.length ≤ 4 → viaBuffer (bufferSize F) l = .ok l := by
    intro l hl
    refine viaBuffer_ok ?_
    have : 21 ≤ bufferSize F := by unfold bufferSize; split; decide; split <;> decide
    omega
  cases neg <;> exact ⟨hb _ (by decide), hb _ (by decide)⟩

/-- C99: the text differs from the number by at most one part in 200000, and is the number if that has at most six digits. -/
theorem C99_accuracy (q v : ℚ) (hq : 0 ≤ q) (hv : Rounded 6 q v) : |v - q| ≤ q / 200000 ∧ (Digits 10 6 (fun _ => True) q → v = q) := ⟨rounded_err hq hv, fun h => rounds_self h hv⟩

/-- C99: the text denotes the rounded number. -/
theorem C99_denotes (neg : Bool) (l : List Chr) (v : ℚ) (h : Usual 101#8 6 l v) : Denotes (minus neg ++ l) neg (.num v) := denotes_minus (.inl (usual_dec h))

/-- C99: larger numbers have larger texts, or the same. -/
theorem C99_monotone (F : Format) (hF : Known F) (q r : ℚ) (hq : Number F q) (hr : Number F r) (h : q ≤ r) (s t : List Chr) (hs : toStr F (.fin false q) = .ok s) (ht : toStr F (.fin false r) = .ok t) :
    ∃ v w, Denotes s false (.num v) ∧ Denotes t false (.num w) ∧ v ≤ w := by
  obtain ⟨l, v, h1, h2, h3⟩ := C99_text F hF false q hq
  obtain ⟨m, w, g1, g2, g3⟩ := C99_text F hF false r hr
  cases h1.symm.trans hs
  cases g1.symm.trans ht
  exact ⟨v, w, C99_denotes false l v h3, C99_denotes false m w g3, rounds_mono (by omega) h h2 g2⟩

/-- A number with a power of two. -/
theorem number_pow (F : Format) (k : ℕ) (hp : 1 ≤ F.prec) (h0 : F.emin ≤ 0) (hk : (k : ℤ) < F.emax) : Number F (2 ^ k) := by
  refine ⟨⟨1, k, Nat.one_lt_pow (by omega) (by omega), by show F.emin ≤ (k : ℤ); omega, by push_cast; rw [zpow_natCast, one_mul]⟩, ?_⟩
  rw [← zpow_natCast]
  exact zpow_lt_zpow_right₀ (by norm_num) hk

example : Number single 16777216 ∧ toStr single (.fin true 16777216) = .ok (txt "-1.67772e+07") ∧ toStr double (.fin false (1 / 10 + 1 / 2 ^ 60)) = .ok (txt "0.1") ∧
    toStr extended (.fin false (5 / 2 ^ 20)) = .ok (txt "4.76837e-06") := by
  refine ⟨?_, by decide +kernel, by decide +kernel, by decide +kernel⟩
  have := number_pow single 24 (by decide) (by decide) (by decide)
  norm_num at this
  exact this

/-! ### C100: format specifications -/

/-- The types in question. -/
def KnownType (c : Chr) : Prop := c = 101#8 ∨ c = 69#8 ∨ c = 102#8 ∨ c = 70#8 ∨ c = 103#8 ∨ c = 71#8

theorem type_cases {f : Fields} (ht : ∀ c, f.type = some c → KnownType c) : KnownType (f.type.getD 103#8) := by
  cases e : f.type with
  | none => exact .inr (.inr (.inr (.inr (.inl rfl))))
  | some c => exact ht c e

/-- The specification for `printf`. -/
def spcFor (f : Fields) : Spc := { sign := f.signChr, alt := f.alt, zero := f.zero, width := f.minWidth, prec := f.maxLen, type := f.type.getD 103#8 }

theorem spcOf_meaning {f : Fields} (ht : ∀ c, f.type = some c → KnownType c) : spcOf (meaning f) = .ok (spcFor f) := by
  have hw : (meaning f).width.toNat = f.minWidth := by
    show (if f.width = [] then (-1 : Int) else (value 0 f.width : Nat)).toNat = value 0 f.width
    by_cases h : f.width = []
    · rw [if_pos h, h]; rfl
    · rw [if_neg h]; rfl
  have hp : (if 0 ≤ (meaning f).precision then some (meaning f).precision.toNat else none) = f.maxLen := by
    unfold Fields.maxLen meaning
    cases f.precision with
    | none => rfl
    | some p =>
      show (if 0 ≤ ((value 0 p : Nat) : Int) then _ else _) = _
      rw [if_pos (by omega)]
      rfl
  unfold spcOf
  rw [hw, hp]
  cases e : f.type with
  | none =>
    have : (meaning f).type = 0#8 := by show f.type.getD 0#8 = _; rw [e]; rfl
    rw [if_pos this]
    unfold spcFor
    rw [e]
    rfl
  | some c =>
    have : (meaning f).type = c := by show f.type.getD 0#8 = _; rw [e]; rfl
    rw [this]
    have hc := ht c e
    have h0 : c ≠ 0#8 := by rcases hc with rfl | rfl | rfl | rfl | rfl | rfl <;> decide
    have hf : isFloatType c = true := by rcases hc with rfl | rfl | rfl | rfl | rfl | rfl <;> decide
    rw [if_neg h0, hf, ccAssert_true rfl]
    unfold spcFor
    rw [e]
    rfl

theorem left_padded (text : List Chr) (width : Nat) : Padded text 32#8 62#8 width (List.replicate (width - text.length) 32#8 ++ text) :=
  ⟨width - text.length, 0, by simp, by omega, (fun h => absurd h (by decide)), fun _ => rfl, (fun h => absurd h (by decide))⟩

theorem body_text (hex : Spc → ℚ → List Chr) {f : Fields} (ht : ∀ c, f.type = some c → KnownType c) {q : ℚ} (hq : 0 ≤ q) : NumText (f.type.getD 103#8) f.alt f.maxLen q (body hex (spcFor f) q) := by
  have hT := type_cases ht
  have h1 : (spcFor f).type = f.type.getD (103 : Chr) := rfl
  have h2 : (spcFor f).prec = f.maxLen := rfl
  have h3 : (spcFor f).alt = f.alt := rfl
  unfold NumText body
  show _ ∧ _ ∧ _ ∧ _ ∧ _
  generalize spcFor f = sp at h1 h2 h3
  rw [h1, h2, h3]
  generalize f.type.getD (103 : Chr) = T at hT
  generalize f.maxLen.getD 6 = P
  rcases hT with rfl | rfl | rfl | rfl | rfl | rfl
  · rw [if_pos (.inl rfl)]
    exact ⟨fun _ => textE_ok false f.alt P hq, fun e => absurd e (by decide), fun e => absurd e (by decide), fun e => absurd e (by decide), fun e => absurd e (by decide)⟩
  · rw [if_pos (.inr rfl)]
    exact ⟨fun e => absurd e (by decide), fun _ => textE_ok true f.alt P hq, fun e => absurd e (by decide), fun e => absurd e (by decide), fun e => absurd e (by decide)⟩
  · rw [if_neg (by decide), if_pos (.inl rfl)]
    exact ⟨fun e => absurd e (by decide), fun e => absurd e (by decide), fun _ => textF_ok f.alt P hq, fun e => absurd e (by decide), fun e => absurd e (by decide)⟩
  · rw [if_neg (by decide), if_pos (.inr rfl)]
    exact ⟨fun e => absurd e (by decide), fun e => absurd e (by decide), fun _ => textF_ok f.alt P hq, fun e => absurd e (by decide), fun e => absurd e (by decide)⟩
  · rw [if_neg (by decide), if_neg (by decide), if_pos (.inl rfl)]
    exact ⟨fun e => absurd e (by decide), fun e => absurd e (by decide), fun e => absurd e (by decide), fun _ => (textG_ok false f.alt P hq).1, fun e => absurd e (by decide)⟩
  · rw [if_neg (by decide), if_neg (by decide), if_pos (.inr rfl)]
    exact ⟨fun e => absurd e (by decide), fun e => absurd e (by decide), fun e => absurd e (by decide), fun e => absurd e (by decide), fun _ => (textG_ok true f.alt P hq).1⟩

theorem word_text {f : Fields} (ht : ∀ c, f.type = some c → KnownType c) : infText (isCap (spcFor f).type) = wordFor (f.type.getD 103#8) wInf ∧ nanText (isCap (spcFor f).type) = wordFor (f.type.getD 103#8) wNan := by
  have hT := type_cases ht
  show infText (isCap (f.type.getD 103#8)) = _ ∧ nanText (isCap (f.type.getD 103#8)) = _
  generalize f.type.getD 103#8 = T at hT
  rcases hT with rfl | rfl | rfl | rfl | rfl | rfl <;> decide

/-- The absolute value is not negative. -/
def NonNeg : Value → Prop
  | .num q => 0 ≤ q
  | _ => True

theorem printf_text (hex : Spc → ℚ → List Chr) (f : Fields) (ht : ∀ c, f.type = some c → KnownType c) (ha : f.alignChr = 62#8) (hfl : f.fillChr = 32#8) (neg : Bool) (v : Value) (hv : NonNeg v) :
    FloatText f neg v (printf hex (spcFor f) (fl neg v)) := by
  have hs : signText (spcFor f) neg = Fmt.Spec.sign f.signChr neg := rfl
  cases v with
  | num q =>
    refine ⟨_, body_text hex ht hv, ?_⟩
    show if f.zero then (if f.zero then _ else _) = _ else Padded _ _ _ _ (if f.zero then _ else _)
    cases f.zero with
    | true => rfl
    | false =>
      rw [ha, hfl]
      exact left_padded _ _
  | inf =>
    show Padded _ _ _ _ (List.replicate _ _ ++ (signText (spcFor f) neg ++ infText (isCap (spcFor f).type)))
    rw [(word_text ht).1, hs, ha, hfl]
    exact left_padded _ _
  | nan =>
    show Padded _ _ _ _ (List.replicate _ _ ++ (signText (spcFor f) neg ++ nanText (isCap (spcFor f).type)))
    rw [(word_text ht).2, hs, ha, hfl]
    exact left_padded _ _

theorem type_letter {f : Fields} (ht : ∀ c, f.type = some c → KnownType c) : ∀ c, f.type = some c → IsLetter c := by
  intro c hc
  unfold IsLetter
  rcases ht c hc with rfl | rfl | rfl | rfl | rfl | rfl <;> decide

theorem viaBuffer_long {n : Nat} {text : List Chr} (h : n < text.length) (hn : 0 < n) : viaBuffer n text = .error .ub := by
  unfold viaBuffer Str.slice
  rw [if_neg]
  rw [List.length_append, List.length_take, List.length_singleton]
  omega

theorem viaBuffer_equal {n : Nat} {text : List Chr} (h : n = text.length) (hn : 0 < n) : viaBuffer n text = .ok (text.take (n - 1) ++ [0#8]) := by
  unfold viaBuffer Str.slice
  have hl : (text.take (n - 1) ++ [0#8]).length = n := by
    rw [List.length_append, List.length_take, List.length_singleton]
    omega
  rw [if_pos (by rw [hl]; omega), List.drop_zero, List.take_of_length_le (by rw [hl]; omega)]
  rfl

/-- C100: `float` and `double` with a format specification of type `e`, `f`, `g` (in small or capital letters) or none, aligned to the right with spaces: there is a text that the specification describes, and it is
the result if it has at most 30 characters. The rest of the statement says what happens otherwise: with 31 characters the last one is lost, with more the behaviour is undefined, and from `2^31` on an assertion fails.
Partial: longer texts, other alignments and fill characters, and `long double` (below). -/
theorem C100_text_partial (hex : Spc → ℚ → List Chr) (F : Format) (hF : F ≠ extended) (neg : Bool) (v : Value) (hv : NonNeg v) (f : Fields) (hf : f.Wf) (ht : ∀ c, f.type = some c → KnownType c)
    (ha : f.alignChr = 62#8) (hfl : f.fillChr = 32#8) : ∃ out, FloatText f neg v out ∧
      (out.length ≤ 30 → floatFmt hex F (fl neg v) f.render = .ok out) ∧
      (out.length = 31 → floatFmt hex F (fl neg v) f.render = .ok (out.take 30 ++ [0#8])) ∧
      (31 < out.length → out.length < 2 ^ 31 → floatFmt hex F (fl neg v) f.render = .error .ub) ∧
      (2 ^ 31 ≤ out.length → floatFmt hex F (fl neg v) f.render = .error .assert) := by
  refine ⟨_, printf_text hex f ht ha hfl neg v hv, ?_⟩
  have h1 : floatFmt hex F (fl neg v) f.render = (do
      ccAssert (decide ((printf hex (spcFor f) (fl neg v)).length < 2 ^ 31))
      viaBuffer 31 (printf hex (spcFor f) (fl neg v)) : R _) := by
    unfold floatFmt floatImpl
    rw [parseArgs_ok f hf (type_letter ht), R.ok_bind, spcOf_meaning ht, R.ok_bind, if_neg hF]
  rw [h1]
  generalize printf hex (spcFor f) (fl neg v) = out
  have ok : out.length < 2 ^ 31 → (do
      ccAssert (decide (out.length < 2 ^ 31))
      viaBuffer 31 out : R _) = viaBuffer 31 out := fun h => by rw [ccAssert_true (decide_eq_true h)]; rfl
  refine ⟨fun h => ?_, fun h => ?_, fun h h2 => ?_, fun h => ?_⟩
  · rw [ok (by omega)]; exact viaBuffer_ok h
  · rw [ok (by omega)]; exact viaBuffer_equal h.symm (by omega)
  · rw [ok h2]; exact viaBuffer_long h (by omega)
  · rw [ccAssert_false (decide_eq_false (by omega))]; rfl

/-- The text of a number of a type with the types other than `f` is not longer than this. -/
theorem printf_short (hex : Spc → ℚ → List Chr) {F : Format} (hF : Known F) (f : Fields) (ht : ∀ c, f.type = some c → c = 101#8 ∨ c = 69#8 ∨ c = 103#8 ∨ c = 71#8) (neg : Bool) {q : ℚ} (hq : Number F q) :
    (printf hex (spcFor f) (.fin neg q)).length ≤ max f.minWidth (max (f.maxLen.getD 6) 1 + 10) := by
  have hk := log_bound hF hq
  have hq0 := number_nonneg hq
  have hs : (signText (spcFor f) neg).length ≤ 1 := by
    unfold signText
    split
    · decide
    · split
      · decide
      · split <;> decide
  have hb : (body hex (spcFor f) q).length ≤ max (f.maxLen.getD 6) 1 + 9 := by
    have h1 : (spcFor f).type = f.type.getD (103 : Chr) := rfl
    have h2 : (spcFor f).prec = f.maxLen := rfl
    have h3 : (spcFor f).alt = f.alt := rfl
    unfold body
    generalize spcFor f = sp at h1 h2 h3
    rw [h1, h2, h3]
    generalize f.maxLen.getD 6 = P
    have hT : f.type.getD 103#8 = 101#8 ∨ f.type.getD 103#8 = 69#8 ∨ f.type.getD 103#8 = 103#8 ∨ f.type.getD 103#8 = 71#8 := by
      cases e : f.type with
      | none => exact .inr (.inr (.inl rfl))
      | some c => exact ht c e
    generalize f.type.getD (103 : Chr) = T at hT
    have hE : ∀ caps, (textE caps f.alt P q).length ≤ max P 1 + 9 := by
      intro caps
      unfold textE
      rw [point_eq, List.length_append]
      have h1 := pointed_length f.alt (sciParts P q).1 (sciParts P q).2
      have h2 : (sciParts P q).1.length + (sciParts P q).2.length = P + 1 ∧ (sciParts P q).1.length ≤ 1 ∧ (sci P q).2.natAbs < 10 ^ 4 := by
        rcases eq_or_lt_of_le hq0 with rfl | hq0
        · have hs : sci P 0 = (0, 0) := by unfold sci; rw [if_pos rfl]
          unfold sciParts
          rw [hs]
          have hl := pad_length (P + 1) (Num.numeral false 10 0)
          have : (Num.numeral false 10 0).length = 1 := rfl
          rw [this] at hl
          simp only [List.length_take, List.length_drop]
          omega
        · obtain ⟨d, fp, e1, e2, e3, e4, e5, e6⟩ := sciParts_ok P hq0
          obtain ⟨_, _, _, h4⟩ := sci_ok P hq0
          rw [e1]
          refine ⟨by simp [e5]; omega, by simp, by omega⟩
      have h3 := (expo_ok caps (sci P q).2).2 4 (by omega) h2.2.2
      omega
    have hG : ∀ caps, (textG caps f.alt P q).length ≤ max P 1 + 9 := fun caps => by
      have := (textG_ok caps f.alt P hq0).2 4 (by omega) hk
      omega
    rcases hT with rfl | rfl | rfl | rfl
    · rw [if_pos (.inl rfl)]; exact hE _
    · rw [if_pos (.inr rfl)]; exact hE _
    · rw [if_neg (by decide), if_neg (by decide), if_pos (.inl rfl)]; exact hG _
    · rw [if_neg (by decide), if_neg (by decide), if_pos (.inr rfl)]; exact hG _
  show (if f.zero then _ else _ : List Chr).length ≤ _
  have hw : (spcFor f).width = f.minWidth := rfl
  split
  · simp only [List.length_append, List.length_replicate]; omega
  · simp only [List.length_append, List.length_replicate]; omega

/-- C100: with type `e`, `g` or none, a width of at most 30 and a precision of at most 20 the text always fits. -/
theorem C100_fits (hex : Spc → ℚ → List Chr) (F : Format) (hF : F = single ∨ F = double) (neg : Bool) (q : ℚ) (hq : Number F q) (f : Fields) (hf : f.Wf)
    (ht : ∀ c, f.type = some c → c = 101#8 ∨ c = 69#8 ∨ c = 103#8 ∨ c = 71#8) (ha : f.alignChr = 62#8) (hfl : f.fillChr = 32#8) (hw : f.minWidth ≤ 30) (hp : f.maxLen.getD 6 ≤ 20) :
    ∃ out, FloatText f neg (.num q) out ∧ floatFmt hex F (.fin neg q) f.render = .ok out := by
  have ht' : ∀ c, f.type = some c → KnownType c := fun c hc => by
    rcases ht c hc with h | h | h | h
    · exact .inl h
    · exact .inr (.inl h)
    · exact .inr (.inr (.inr (.inr (.inl h))))
    · exact .inr (.inr (.inr (.inr (.inr h))))
  have hne : F ≠ extended := by rcases hF with rfl | rfl <;> decide
  have hK : Known F := hF.elim .inl (fun h => .inr (.inl h))
  have hl := printf_short hex hK f ht neg hq
  refine ⟨_, printf_text hex f ht' ha hfl neg (.num q) (number_nonneg hq), ?_⟩
  have h1 : floatFmt hex F (.fin neg q) f.render = (do
      ccAssert (decide ((printf hex (spcFor f) (.fin neg q)).length < 2 ^ 31))
      viaBuffer 31 (printf hex (spcFor f) (.fin neg q)) : R _) := by
    unfold floatFmt floatImpl
    rw [parseArgs_ok f hf (type_letter ht'), R.ok_bind, spcOf_meaning ht', R.ok_bind, if_neg hne]
  rw [h1, ccAssert_true (decide_eq_true (by omega))]
  exact viaBuffer_ok (by show (printf hex (spcFor f) (.fin neg q)).length ≤ 30; omega)

example : floatFmt (fun _ _ => []) double (.fin true (5 / 2)) (txt "010.3f") = .ok (txt "-00002.500") ∧ floatFmt (fun _ _ => []) single (.fin false (255 / 2)) (txt "+12.2E") = .ok (txt "   +1.28E+02") ∧
    floatFmt (fun _ _ => []) double (.fin false 100000) (txt "#.8g") = .ok (txt "100000.00") ∧ floatFmt (fun _ _ => []) double (.inf true) (txt "06G") = .ok (txt "  -INF") := by
  decide +kernel

/-- Texts of more than 31 characters are read from behind the buffer; of a text with 31 the last character becomes zero. -/
theorem C100_long_text_undefined : floatFmt (fun _ _ => []) double (.fin false (10 ^ 30)) (txt "f") = .error .ub ∧ floatFmt (fun _ _ => []) single (.fin false 1) (txt "40") = .error .ub ∧
    floatFmt (fun _ _ => []) double (.fin false 1) (txt "31") = .ok (List.replicate 30 32#8 ++ [0#8]) := by decide +kernel

/-- The alignment and the fill character are ignored. -/
theorem C100_align_ignored : floatFmt (fun _ _ => []) double (.fin false (3 / 2)) (txt "<8") = .ok (txt "     1.5") ∧ floatFmt (fun _ _ => []) double (.fin false (3 / 2)) (txt "*>8") = .ok (txt "     1.5") ∧
    ¬ Padded (txt "1.5") 32#8 60#8 8 (txt "     1.5") := by
  refine ⟨by decide +kernel, by decide +kernel, ?_⟩
  rintro ⟨l, r, h, _, h2, _⟩
  rw [h2 rfl] at h
  have := congrArg List.head? h
  rw [List.replicate_zero, List.nil_append, List.head?_append, show (txt "     1.5").head? = some 32#8 by decide +kernel, show (txt "1.5").head? = some 49#8 by decide +kernel] at this
  exact absurd (Option.some.inj this) (by decide)

/-- For `long double` the specification lacks an `L`: the behaviour is always undefined. -/
theorem C100_long_double_undefined (hex : Spc → ℚ → List Chr) (v : Fl) (f : Fields) (hf : f.Wf) (ht : ∀ c, f.type = some c → KnownType c) : floatFmt hex extended v f.render = .error .ub := by
  unfold floatFmt floatImpl
  rw [parseArgs_ok f hf (type_letter ht), R.ok_bind, spcOf_meaning ht, R.ok_bind, if_pos rfl]

/-- Other types are rejected. -/
theorem C100_type_rejected (hex : Spc → ℚ → List Chr) (F : Format) (v : Fl) (f : Fields) (hf : f.Wf) (c : Chr) (hc : f.type = some c) (hl : IsLetter c) (hk : ¬ KnownType c) (hh : c ≠ 97#8 ∧ c ≠ 65#8) :
    floatFmt hex F v f.render = .error .assert := by
  unfold floatFmt floatImpl
  rw [parseArgs_ok f hf (fun d hd => by rw [hc] at hd; cases hd; exact hl), R.ok_bind]
  have ht : (meaning f).type = c := by show f.type.getD 0#8 = _; rw [hc]; rfl
  have hs : spcOf (meaning f) = .error .assert := by
    unfold spcOf
    have h0 : c ≠ 0#8 := by
      rintro rfl
      unfold IsLetter at hl
      exact absurd hl (by decide)
    rw [ht, if_neg h0]
    have : isFloatType c = false := by
      unfold KnownType at hk
      simp only [not_or] at hk
      unfold isFloatType
      simp [hk, hh]
    rw [this, ccAssert_false rfl]
    rfl
  rw [hs]
  rfl

/-! ### C101: `from_string` -/

/-- The value `w` that a text of `v` stands for in the type: a number is rounded to the nearest, and it must not be too large; whether an inexact result below the normal numbers is an error is up to the platform. -/
def Stored (F : Format) (under : ℚ → Bool) (neg : Bool) (v : Value) (w : Fl) : Prop :=
  match v with
  | .num q => ∃ r, Rounds 2 F.prec (F.emin ≤ ·) q r ∧ r < 2 ^ F.emax ∧ w = .fin neg r ∧ (q < 2 ^ (F.emin + (F.prec - 1)) → r ≠ q → under q = false)
  | .inf => w = .inf neg
  | .nan => w = .nan neg

theorem isDec_nonneg {l : List Chr} {q : ℚ} (h : IsDec l q) : 0 ≤ q := by
  obtain ⟨_, _, _, _, _, _, _, _, _, _, rfl⟩ := h
  exact mul_nonneg (Nat.cast_nonneg _) (zpow_pos (by norm_num) _).le

theorem isHex_nonneg {l : List Chr} {q : ℚ} (h : IsHex l q) : 0 ≤ q := by
  obtain ⟨_, _, _, _, _, _, _, _, _, _, _, _, rfl⟩ := h
  exact mul_nonneg (Nat.cast_nonneg _) (zpow_pos (by norm_num) _).le

theorem denotes_nonneg {l : List Chr} {neg : Bool} {q : ℚ} (h : Denotes l neg (.num q)) : 0 ≤ q := by
  obtain ⟨_, _, _, _, _, _, hb⟩ := h
  exact Or.elim hb isDec_nonneg isHex_nonneg

theorem outcome_ok {F : Format} (hp : 1 ≤ F.prec) (under : ℚ → Bool) (neg : Bool) (v : Value) (hv : NonNeg v) :
    ((outcome F under neg v).2 = false → Stored F under neg v (outcome F under neg v).1) ∧ ∀ w, Stored F under neg v w → (outcome F under neg v).2 = false := by
  cases v with
  | inf => exact ⟨fun _ => rfl, fun _ _ => rfl⟩
  | nan => exact ⟨fun _ => rfl, fun _ _ => rfl⟩
  | num q =>
    have hr := nearest_rounds hp (show 0 ≤ q from hv)
    show ((toFl F under neg q).2 = false → Stored F under neg (.num q) (toFl F under neg q).1) ∧ ∀ w, Stored F under neg (.num q) w → (toFl F under neg q).2 = false
    unfold toFl
    dsimp only
    by_cases h : 2 ^ F.emax ≤ nearest F q
    · rw [if_pos h]
      refine ⟨fun e => (nomatch e), ?_⟩
      rintro w ⟨r, h1, h2, _, _⟩
      rw [rounds_unique (by omega) h1 hr] at h2
      exact absurd h (not_le.2 h2)
    · rw [if_neg h]
      refine ⟨fun e => ⟨nearest F q, hr, not_le.1 h, rfl, fun h1 h2 => ?_⟩, ?_⟩
      · rw [decide_eq_true (show q < 2 ^ (F.emin + (F.prec - 1)) ∧ nearest F q ≠ q from ⟨h1, h2⟩), Bool.true_and] at e
        exact e
      · rintro w ⟨r, h1, h2, _, h3⟩
        rw [rounds_unique (by omega) h1 hr] at h3
        by_cases hc : q < 2 ^ (F.emin + (F.prec - 1)) ∧ nearest F q ≠ q
        · rw [h3 hc.1 hc.2, Bool.and_false]
        · rw [decide_eq_false hc, Bool.false_and]

/-- C101: on a zero-terminated text `from_string` for `float` and `double` returns; it succeeds with `w` exactly if the text as a whole denotes a value whose rounding to the type is `w`. -/
theorem C101_c_str (F : Format) (hF : Known F) (under : ℚ → Bool) (s rest : List Chr) (h0 : 0#8 ∉ s) :
    ∃ b w, fromCstr F under (s ++ 0#8 :: rest) = .ok (b, w) ∧ (b = true → ∃ neg v, Denotes s neg v ∧ Stored F under neg v w) ∧
      ∀ neg v w', Denotes s neg v → Stored F under neg v w' → b = true ∧ (w' = w) := by
  have hp : 1 ≤ F.prec := by rcases hF with rfl | rfl | rfl <;> decide
  have nn : ∀ {neg v}, Denotes s neg v → NonNeg v := by
    intro neg v hd
    cases v with
    | num q => exact denotes_nonneg hd
    | inf => exact trivial
    | nan => exact trivial
  have stored_unique : ∀ {neg v w w'}, Stored F under neg v w → Stored F under neg v w' → w = w' := by
    intro neg v w w' h h'
    cases v with
    | num q =>
      obtain ⟨r, h1, _, rfl, _⟩ := h
      obtain ⟨r', h1', _, rfl, _⟩ := h'
      rw [rounds_unique (by omega) h1 h1']
    | inf => exact Eq.trans h (Eq.symm h')
    | nan => exact Eq.trans h (Eq.symm h')
  rcases fromCstr_cases F under s rest h0 with ⟨neg, v, hd, he⟩ | ⟨hn, w, he⟩
  · obtain ⟨o1, o2⟩ := outcome_ok hp under neg v (nn hd)
    refine ⟨_, _, he, fun hb => ⟨neg, v, hd, o1 (by simpa using hb)⟩, fun neg' v' w' hd' hs => ?_⟩
    obtain ⟨rfl, rfl⟩ := denotes_unique hd hd'
    have := o2 w' hs
    exact ⟨by rw [this]; rfl, stored_unique hs (o1 this)⟩
  · exact ⟨false, w, he, fun e => (nomatch e), fun neg v _ hd _ => absurd hd (hn neg v)⟩

/-- C101: what a text denotes is unique, and so is the result of the rounding. -/
theorem C101_unique (l : List Chr) (neg neg' : Bool) (v v' : Value) (h : Denotes l neg v) (h' : Denotes l neg' v') : neg = neg' ∧ v = v' := denotes_unique h h'

/-- C101: too large numbers are an error. -/
theorem C101_overflow (F : Format) (hF : Known F) (under : ℚ → Bool) (s rest : List Chr) (h0 : 0#8 ∉ s) (neg : Bool) (q r : ℚ) (hd : Denotes s neg (.num q)) (hr : Rounds 2 F.prec (F.emin ≤ ·) q r) (hb : 2 ^ F.emax ≤ r) :
    fromCstr F under (s ++ 0#8 :: rest) = .ok (false, .inf neg) := by
  have hp : 1 ≤ F.prec := by rcases hF with rfl | rfl | rfl <;> decide
  rcases fromCstr_cases F under s rest h0 with ⟨neg', v, hd', he⟩ | ⟨hn, w, he⟩
  · obtain ⟨rfl, rfl⟩ := denotes_unique hd hd'
    rw [he]
    show Except.ok (!(toFl F under neg q).2, (toFl F under neg q).1) = _
    unfold toFl
    dsimp only
    rw [if_pos (by rw [rounds_unique (by omega) (nearest_rounds hp (denotes_nonneg hd)) hr]; exact hb)]
    rfl
  · exact absurd hd (hn neg _)

/-- C101: the overload for views does the same as the one for zero-terminated texts, for views of less than 256 characters none of which is zero. -/
theorem C101_view_partial (F : Format) (under : ℚ → Bool) (v : View) (hv : v.Inside) (hz : 0#8 ∉ v.chars) (hl : v.size < 256) : fromView F under v = fromCstr F under (v.chars ++ [0#8]) := by
  unfold fromView
  dsimp only
  have hlen : v.chars.length = v.size := StrView.chars_length hv
  have hs : v.size % 2 ^ 32 = v.size := Nat.mod_eq_of_lt (by omega)
  have hmem : v.mem.drop v.off = v.chars ++ (v.mem.drop v.off).drop v.size := by
    unfold View.chars
    exact (List.take_append_drop ..).symm
  rw [hs, if_pos (by omega), hmem]
  conv => lhs; rw [← hlen]
  rw [Num.printS_app _ _ hz, R.ok_bind, List.take_of_length_le (by omega)]

example : fromCstr single (fun _ => false) (txt " -0x1.8p3" ++ [0#8]) = .ok (true, .fin true 12) ∧ fromCstr single (fun _ => false) (txt "16777217" ++ [0#8]) = .ok (true, .fin false 16777216) ∧
    fromCstr single (fun _ => false) (txt "1e39" ++ [0#8]) = .ok (false, .inf false) ∧ fromCstr double (fun _ => false) (txt "1.5x" ++ [0#8]) = .ok (false, .fin false (3 / 2)) ∧
    fromCstr double (fun _ => false) (txt "Infinity" ++ [0#8]) = .ok (true, .inf false) ∧ fromCstr double (fun _ => false) (txt "" ++ [0#8]) = .ok (false, .fin false 0) := by decide +kernel

/-- A view is cut after 255 characters, so another number is read. -/
theorem C101_long_view_cut : fromView double (fun _ => false) ⟨49#8 :: List.replicate 255 48#8 ++ [0#8], 0, 256⟩ = .ok (true, .fin false (nearest double (10 ^ 254))) ∧ nearest double (10 ^ 254) < 10 ^ 254 * 2 := by decide +kernel

/-- A view is cut at a zero. -/
theorem C101_view_with_zero_accepted : fromView single (fun _ => false) ⟨txt "1" ++ [0#8] ++ txt "x", 0, 3⟩ = .ok (true, .fin false 1) := by decide +kernel

/-! ### C102: there and back -/

/-- C102: infinities and NaN come back. -/
theorem C102_special (F : Format) (under : ℚ → Bool) (neg : Bool) (rest : List Chr) :
    (∃ s, toStr F (.inf neg) = .ok s ∧ fromCstr F under (s ++ 0#8 :: rest) = .ok (true, .inf neg)) ∧ (∃ s, toStr F (.nan neg) = .ok s ∧ fromCstr F under (s ++ 0#8 :: rest) = .ok (true, .nan neg)) := by
  obtain ⟨h1, h2⟩ := C99_special F neg
  have hi : Denotes (minus neg ++ txt "inf") neg .inf := denotes_minus (.inl ((sameWord_iff small_wInf).1 (by decide +kernel)))
  have hn : Denotes (minus neg ++ txt "nan") neg .nan := denotes_minus (.inl ((sameWord_iff small_wNan).1 (by decide +kernel)))
  have zi : 0#8 ∉ minus neg ++ txt "inf" := by cases neg <;> decide +kernel
  have zn : 0#8 ∉ minus neg ++ txt "nan" := by cases neg <;> decide +kernel
  refine ⟨⟨_, h1, ?_⟩, _, h2, ?_⟩
  · rcases fromCstr_cases F under _ rest zi with ⟨neg', v, hd, he⟩ | ⟨h, _⟩
    · obtain ⟨rfl, rfl⟩ := denotes_unique hi hd
      exact he
    · exact absurd hi (h neg .inf)
  · rcases fromCstr_cases F under _ rest zn with ⟨neg', v, hd, he⟩ | ⟨h, _⟩
    · obtain ⟨rfl, rfl⟩ := denotes_unique hn hd
      exact he
    · exact absurd hn (h neg .nan)

/-- Reading the text of a number: the number rounded to six digits is rounded to the type. -/
theorem read_text {F : Format} (hF : Known F) (under : ℚ → Bool) (neg : Bool) {l : List Chr} {v : ℚ} (rest : List Chr) (h : Usual 101#8 6 l v) (hv : nearest F v < 2 ^ F.emax)
    (hn : v < 2 ^ (F.emin + (F.prec - 1)) → nearest F v ≠ v → under v = false) : fromCstr F under ((minus neg ++ l) ++ 0#8 :: rest) = .ok (true, .fin neg (nearest F v)) := by
  have hp : 1 ≤ F.prec := by rcases hF with rfl | rfl | rfl <;> decide
  have hd := C99_denotes neg l v h
  have hdec := usual_dec h
  obtain ⟨b, w, h1, _, h3⟩ := C101_c_str F hF under (minus neg ++ l) rest (body_nonzero hdec)
  obtain ⟨rfl, rfl⟩ := h3 neg (.num v) (.fin neg (nearest F v)) hd ⟨nearest F v, nearest_rounds hp (isDec_nonneg hdec), hv, rfl, hn⟩
  exact h1

/-- C102, partial: a number that is the nearest one to a decimal number with at most six digits, in the range of normal numbers, is printed as that decimal number, and comes back. Zeros come back with their sign.
Missing: numbers that need more digits (below). -/
theorem C102_six_digits_partial (F : Format) (hF : Known F) (under : ℚ → Bool) (neg : Bool) (d x : ℚ) (rest : List Chr) (hd : Digits 10 6 (fun _ => True) d) (hn : d = 0 ∨ 2 ^ (F.emin + (F.prec - 1)) ≤ d)
    (hx : Rounds 2 F.prec (F.emin ≤ ·) d x) (hlt : x < 2 ^ F.emax) :
    ∃ s, toStr F (.fin neg x) = .ok s ∧ Denotes s neg (.num d) ∧ fromCstr F under (s ++ 0#8 :: rest) = .ok (true, .fin neg x) := by
  have hp : 1 ≤ F.prec := by rcases hF with rfl | rfl | rfl <;> decide
  have hp24 : 24 ≤ F.prec := by rcases hF with rfl | rfl | rfl <;> decide
  have hnx : nearest F d = x := rounds_unique (by omega) (nearest_rounds hp (digits_nonneg hd)) hx
  obtain ⟨l, v, h1, h2, h3⟩ := C99_text F hF neg x ⟨hx.1, hlt⟩
  have hvd : v = d := by
    rcases hn with rfl | hn
    · have : x = 0 := by rw [← hnx]; unfold nearest; rw [zero_div, halfEven_zero]; simp
      subst this
      exact rounds_unique (by omega) h2 rounded_zero
    · have h0 : 0 < d := lt_of_lt_of_le (zpow_pos (by norm_num) _) hn
      have he := nearest_err hp hn
      rw [hnx] at he
      refine rounded_back h0 hd (le_trans he ?_) h2
      exact div_le_div_of_nonneg_left h0.le (by positivity) (pow_le_pow_right₀ (by norm_num) hp24)
  subst hvd
  refine ⟨_, h1, C99_denotes neg l v h3, ?_⟩
  have := read_text hF under neg rest h3 (by rw [hnx]; exact hlt) (fun h h' => by
    rcases hn with rfl | hn
    · exact absurd (by unfold nearest; rw [zero_div, halfEven_zero]; simp) h'
    · exact absurd hn (not_le.2 h))
  rw [hnx] at this
  exact this

/-- The greatest numbers of the types. -/
theorem rounded_max : Rounded 6 (2 ^ 128 - 2 ^ 104) (340282 * 10 ^ (33 : ℤ)) ∧ Rounded 6 (2 ^ 1024 - 2 ^ 971) (179769 * 10 ^ (303 : ℤ)) := by
  constructor
  · obtain ⟨_, _, h, _⟩ := sci_ok 5 (q := 2 ^ 128 - 2 ^ 104) (by norm_num)
    have e : sci 5 (2 ^ 128 - 2 ^ 104) = (340282, 38) := by decide +kernel
    rw [e] at h
    have e2 : ((340282, 38) : ℕ × ℤ).2 - ((5 : ℕ) : ℤ) = 33 := by norm_num
    rw [e2] at h
    exact h
  · obtain ⟨_, _, h, _⟩ := sci_ok 5 (q := 2 ^ 1024 - 2 ^ 971) (sub_pos.2 (pow_lt_pow_right₀ (by norm_num) (by norm_num)))
    have e : sci 5 (2 ^ 1024 - 2 ^ 971) = (179769, 308) := by decide +kernel
    rw [e] at h
    have e2 : ((179769, 308) : ℕ × ℤ).2 - ((5 : ℕ) : ℤ) = 303 := by norm_num
    rw [e2] at h
    exact h

/-- No number of a type is above the greatest one. -/
theorem number_le_max {F : Format} {q : ℚ} (h : Number F q) (hp : F.emin + F.prec ≤ F.emax) : q ≤ 2 ^ F.emax - 2 ^ (F.emax - F.prec) := by
  obtain ⟨⟨m, k, hm, hk, rfl⟩, hlt⟩ := h
  have h2 : (2 : ℚ) ≠ 0 := by norm_num
  push_cast at *
  have hk0 : (0 : ℚ) < 2 ^ k := zpow_pos (by norm_num) k
  rcases le_total k (F.emax - F.prec) with h | h
  · have hm' : (m : ℚ) + 1 ≤ 2 ^ F.prec := by exact_mod_cast hm
    have e : (2 : ℚ) ^ F.emax - 2 ^ (F.emax - F.prec) = (2 ^ F.prec - 1) * 2 ^ (F.emax - F.prec) := by
      rw [sub_mul, one_mul, ← zpow_natCast, ← zpow_add₀ h2]
      congr 2; omega
    rw [e]
    have : (2 : ℚ) ^ k ≤ 2 ^ (F.emax - F.prec) := zpow_le_zpow_right₀ (by norm_num) h
    have hm0 : (0 : ℚ) ≤ m := Nat.cast_nonneg m
    exact mul_le_mul (by linarith) this hk0.le (by linarith)
  · -- a multiple of a larger power
    by_cases hke : F.emax ≤ k
    · have : m = 0 := by
        by_contra hne
        have h1 : (1 : ℚ) ≤ m := by exact_mod_cast Nat.pos_of_ne_zero hne
        have : (2 : ℚ) ^ F.emax ≤ 2 ^ k := zpow_le_zpow_right₀ (by norm_num) hke
        nlinarith
      rw [this]
      have : (2 : ℚ) ^ (F.emax - F.prec) ≤ 2 ^ F.emax := zpow_le_zpow_right₀ (by norm_num) (by omega)
      simp
    · obtain ⟨j, hj⟩ : ∃ j : ℕ, F.emax = k + j := ⟨(F.emax - k).toNat, by omega⟩
      have e : (2 : ℚ) ^ F.emax = ((2 ^ j : ℕ) : ℚ) * 2 ^ k := by rw [hj, zpow_add₀ h2, zpow_natCast]; push_cast; ring
      rw [e] at hlt ⊢
      have h1 : (m : ℚ) < ((2 ^ j : ℕ) : ℚ) := lt_of_mul_lt_mul_right hlt hk0.le
      have h3 : (m : ℚ) + 1 ≤ ((2 ^ j : ℕ) : ℚ) := by
        have : m < 2 ^ j := by exact_mod_cast h1
        exact_mod_cast this
      have h4 : (2 : ℚ) ^ (F.emax - F.prec) ≤ 2 ^ k := zpow_le_zpow_right₀ (by norm_num) h
      rw [← e]
      rw [e]
      nlinarith

/-- Rounded to six digits, no number becomes too large. -/
theorem six_digits_fit {F : Format} (hF : F = single ∨ F = double) {q v : ℚ} (hq : Number F q) (hv : Rounded 6 q v) : nearest F v < 2 ^ F.emax := by
  obtain ⟨m1, m2⟩ := rounded_max
  rcases hF with rfl | rfl
  · have hle := number_le_max hq (by decide)
    have h1 : v ≤ 340282 * 10 ^ (33 : ℤ) := rounds_mono (by omega) (by norm_num [single] at hle ⊢; exact hle) hv m1
    have h2 := rounds_mono (by omega) h1 (nearest_rounds (F := single) (by decide) (digits_nonneg hv.1)) (nearest_rounds (F := single) (by decide) (digits_nonneg m1.1))
    refine lt_of_le_of_lt h2 ?_
    have : nearest single (340282 * 10 ^ (33 : ℤ)) < 2 ^ single.emax := by decide +kernel
    exact this
  · have hle := number_le_max hq (by decide)
    have h1 : v ≤ 179769 * 10 ^ (303 : ℤ) := rounds_mono (by omega) (by
      refine le_trans hle ?_
      show (2 : ℚ) ^ (1024 : ℤ) - 2 ^ ((1024 : ℤ) - (53 : ℕ)) ≤ _
      rw [show (1024 : ℤ) - (53 : ℕ) = ((971 : ℕ) : ℤ) by norm_num, show (1024 : ℤ) = ((1024 : ℕ) : ℤ) by norm_num, zpow_natCast, zpow_natCast]) hv m2
    have h2 := rounds_mono (by omega) h1 (nearest_rounds (F := double) (by decide) (digits_nonneg hv.1)) (nearest_rounds (F := double) (by decide) (digits_nonneg m2.1))
    refine lt_of_le_of_lt h2 ?_
    have : nearest double (179769 * 10 ^ (303 : ℤ)) < 2 ^ double.emax := by decide +kernel
    exact this

/-- C102, partial: the text of every number of `float` and `double` is accepted; the number read is the nearest one to the number rounded to six digits (and not an infinity). If it is small and not exact it depends on the platform whether that
is an error. Missing: it is another number if more digits are needed (below). -/
theorem C102_accepted_partial (F : Format) (hF : F = single ∨ F = double) (under : ℚ → Bool) (neg : Bool) (q : ℚ) (hq : Number F q) (rest : List Chr) (hu : ∀ v, Rounded 6 q v → v < 2 ^ (F.emin + (F.prec - 1)) → under v = false) :
    ∃ s v r, toStr F (.fin neg q) = .ok s ∧ Rounded 6 q v ∧ Rounds 2 F.prec (F.emin ≤ ·) v r ∧ fromCstr F under (s ++ 0#8 :: rest) = .ok (true, .fin neg r) := by
  have hK : Known F := hF.elim .inl (fun h => .inr (.inl h))
  have hp : 1 ≤ F.prec := by rcases hF with rfl | rfl <;> decide
  obtain ⟨l, v, h1, h2, h3⟩ := C99_text F hK neg q hq
  exact ⟨_, v, nearest F v, h1, h2, nearest_rounds hp (digits_nonneg h2.1), read_text hK under neg rest h3 (six_digits_fit hF hq h2) (fun h _ => hu v h2 h)⟩

/-- C102: a second time there and back changes nothing: the text of the number read is the same text. -/
theorem C102_second_time (F : Format) (hF : F = single ∨ F = double) (under : ℚ → Bool) (neg : Bool) (q : ℚ) (hq : Number F q) (rest : List Chr) (hn : ∀ v, Rounded 6 q v → v = 0 ∨ 2 ^ (F.emin + (F.prec - 1)) ≤ v) :
    ∃ s r, toStr F (.fin neg q) = .ok s ∧ fromCstr F under (s ++ 0#8 :: rest) = .ok (true, .fin neg r) ∧ toStr F (.fin neg r) = .ok s := by
  have hK : Known F := hF.elim .inl (fun h => .inr (.inl h))
  have hp : 1 ≤ F.prec := by rcases hF with rfl | rfl <;> decide
  obtain ⟨l, v, h1, h2, h3⟩ := C99_text F hK neg q hq
  have hlt := six_digits_fit hF hq h2
  have hr := nearest_rounds hp (digits_nonneg h2.1)
  refine ⟨_, nearest F v, h1, read_text hK under neg rest h3 hlt (fun h h' => ?_), ?_⟩
  · rcases hn v h2 with rfl | g
    · exact absurd (by unfold nearest; rw [zero_div, halfEven_zero]; simp) h'
    · exact absurd g (not_le.2 h)
  · obtain ⟨s, g1, g2, _⟩ := C102_six_digits_partial F hK under neg v (nearest F v) rest h2.1 (hn v h2) hr hlt
    obtain ⟨l', v', k1, _, k3⟩ := C99_text F hK neg (nearest F v) ⟨hr.1, hlt⟩
    cases k1.symm.trans g1
    obtain ⟨_, e⟩ := denotes_unique (C99_denotes neg l' v' k3) g2
    cases e
    rw [k1, usual_unique k3 h3]

/-- C102: if more than six digits are needed another number comes back. -/
theorem C102_not_exact : toStr single (.fin false 16777216) = .ok (txt "1.67772e+07") ∧ fromCstr single (fun _ => false) (txt "1.67772e+07" ++ [0#8]) = .ok (true, .fin false 16777200) ∧
    toStr double (.fin false 1234567) = .ok (txt "1.23457e+06") ∧ fromCstr double (fun _ => false) (txt "1.23457e+06" ++ [0#8]) = .ok (true, .fin false 1234570) := by decide +kernel

example : Digits 10 6 (fun _ => True) (1 / 10) ∧ nearest single (1 / 10) = 13421773 / 134217728 ∧ toStr single (.fin true (13421773 / 134217728)) = .ok (txt "-0.1") :=
  ⟨⟨1, -1, by norm_num, trivial, by norm_num⟩, by decide +kernel, by decide +kernel⟩

end Verif.Flt
