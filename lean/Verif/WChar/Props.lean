import Verif.WChar.Lemmas

/-! Property theorems for the conversions between wide and UTF-8 strings: C91, and for `to_string` of wide strings: C92. -/
namespace Verif.WChar
open Spec

theorem written_nat (dest out : List Nat) (all : Prop) [Decidable all] (h : out.length ≤ dest.length) :
    store dest (out ++ (if all ∧ out.length < dest.length then [0] else [])) = .ok (written dest out all) := by
  unfold store written
  by_cases hc : all ∧ out.length < dest.length
  · rw [if_pos hc, if_pos hc, if_pos (by simp; omega)]
    simp [List.append_assoc]
  · rw [if_neg hc, if_neg hc, if_pos (by simpa using h)]
    simp

/-- **C91.** In a UTF-8 locale, `widechar_to_char` of a terminated wide string, whatever memory is behind the terminator, writes the UTF-8 form of the
longest part that fits into the destination (and the terminator if there is room), changes nothing else, and returns the number of bytes. -/
theorem C91_to_utf8_partial (text : List Char) (h0 : NoNul text) (more dest : List Nat) (hd : dest.length < 2 ^ 31) (opt : Int) (ho : opt ≤ 0) :
    ∃ p, Fits dest.length text p ∧
      widecharToChar .utf8 dest (wide text ++ 0 :: more) opt = .ok (written dest (utf8 p) (p = text), ((utf8 p).length : Int)) := by
  obtain ⟨p, hp, e⟩ := wcsrtombs_fits text h0 more dest.length
  have hlen : (utf8 p).length ≤ dest.length := by
    obtain ⟨_, _, h, _⟩ := hp
    exact h
  refine ⟨p, hp, ?_⟩
  unfold widecharToChar
  simp only [if_neg (show ¬ opt > 0 by omega), toInt_small hd, toSize_ofNat (show dest.length < 2 ^ 64 by omega), e, R.ok_bind]
  rw [written_nat dest (utf8 p) (p = text) hlen, R.ok_bind]
  dsimp only [answer]
  rw [toInt_small (by omega)]

/-- **C91.** In a UTF-8 locale, `char_to_widechar` of a terminated UTF-8 string writes as many of its characters as fit (and the terminator if there is
room), changes nothing else, and returns their number. -/
theorem C91_to_wide_partial (text : List Char) (h0 : NoNul text) (more dest : List Nat) (hd : dest.length < 2 ^ 31) (opt : Int) (ho : opt ≤ 0) :
    charToWidechar .utf8 dest (utf8 text ++ 0 :: more) opt =
      .ok (written dest (wide (text.take dest.length)) (text.length < dest.length), ((min dest.length text.length : Nat) : Int)) := by
  have e := mbsrtowcs_text text h0 more dest.length
  have hl : (wide (text.take dest.length)).length = min dest.length text.length := by simp [wide]
  unfold charToWidechar
  simp only [if_neg (show ¬ opt > 0 by omega), toInt_small hd, toSize_ofNat (show dest.length < 2 ^ 64 by omega), e, R.ok_bind]
  have hiff : (text.length < dest.length) ↔ (text.length < dest.length ∧ (wide (text.take dest.length)).length < dest.length) := by
    rw [hl]
    constructor
    · intro h; exact ⟨h, by omega⟩
    · exact fun h => h.1
  have e2 : (if text.length < dest.length then [0] else [] : List Nat) =
      if text.length < dest.length ∧ (wide (text.take dest.length)).length < dest.length then [0] else [] := by
    by_cases h : text.length < dest.length
    · rw [if_pos h, if_pos (hiff.1 h)]
    · rw [if_neg h, if_neg (fun hh => h hh.1)]
  rw [e2, written_nat dest _ (text.length < dest.length) (by rw [hl]; omega), R.ok_bind]
  dsimp only [answer]
  rw [toInt_small (by omega)]

theorem fits_all {n : Nat} {text p : List Char} (h : Fits n text p) (hn : (utf8 text).length ≤ n) : p = text := by
  obtain ⟨rest, h1, h2, h3⟩ := h
  cases rest with
  | nil => rw [h1, List.append_nil]
  | cons c cs =>
    have := h3 c cs rfl
    rw [h1, utf8_append, utf8_cons c cs] at hn
    rw [utf8_append] at this
    simp only [List.length_append] at hn this
    omega

/-- **C91.** Round trip, with a destination that is large enough on both ways: the text comes back. -/
theorem C91_round_trip (text : List Char) (h0 : NoNul text) (more d1 d2 : List Nat) (h1 : (utf8 text).length < d1.length) (h2 : text.length < d2.length)
    (k1 : d1.length < 2 ^ 31) (k2 : d2.length < 2 ^ 31) :
    ∃ bytes chars, widecharToChar .utf8 d1 (wide text ++ 0 :: more) (-1) = .ok (bytes, ((utf8 text).length : Int)) ∧
      charToWidechar .utf8 d2 bytes (-1) = .ok (chars, (text.length : Int)) ∧ chars.take (text.length + 1) = wide text ++ [0] := by
  obtain ⟨p, hp, e⟩ := C91_to_utf8_partial text h0 more d1 k1 (-1) (by omega)
  have hpt := fits_all hp (by omega)
  subst hpt
  refine ⟨_, written d2 (wide p) (p.length < d2.length), e, ?_, ?_⟩
  · unfold written
    rw [if_pos ⟨rfl, h1⟩, List.append_assoc]
    rw [List.cons_append, List.nil_append, C91_to_wide_partial p h0 _ d2 k2 (-1) (by omega)]
    rw [Nat.min_eq_right (by omega), List.take_of_length_le (by omega)]
    rfl
  · have hw : (wide p).length = p.length := by simp [wide]
    unfold written
    rw [if_pos ⟨h2, by rw [hw]; omega⟩]
    rw [List.take_append_of_le_length (by simp [hw]), List.take_of_length_le (by simp [hw])]

/-- **C91.** A value that is no character: the answer is -1, and what was before it has been written. -/
theorem C91_bad_wide (text : List Char) (h0 : NoNul text) (v : Nat) (hv : ∀ c : Char, c.toNat ≠ v) (more dest : List Nat) (hd : dest.length < 2 ^ 31)
    (hr : (utf8 text).length < dest.length) (opt : Int) (ho : opt ≤ 0) :
    widecharToChar .utf8 dest (wide text ++ v :: more) opt = .ok (utf8 text ++ dest.drop (utf8 text).length, -1) := by
  unfold widecharToChar
  simp only [if_neg (show ¬ opt > 0 by omega), toInt_small hd, toSize_ofNat (show dest.length < 2 ^ 64 by omega), wcsrtombs_bad text h0 v hv more _ hr, R.ok_bind]
  unfold store
  rw [if_pos (by omega)]
  rfl

/-- **C91.** Bytes that are not UTF-8 (no character begins there): the answer is -1, and what was before them has been written. -/
theorem C91_bad_utf8 (text : List Char) (h0 : NoNul text) (m : List Nat) (hm : 4 ≤ m.length) (hbad : ∀ (c : Char) (rest : List Nat), m ≠ utf8 [c] ++ rest)
    (dest : List Nat) (hd : dest.length < 2 ^ 31) (hr : text.length < dest.length) (opt : Int) (ho : opt ≤ 0) :
    charToWidechar .utf8 dest (utf8 text ++ m) opt = .ok (wide text ++ dest.drop text.length, -1) := by
  unfold charToWidechar
  simp only [if_neg (show ¬ opt > 0 by omega), toInt_small hd, toSize_ofNat (show dest.length < 2 ^ 64 by omega), mbsrtowcs_bad text h0 m hm hbad _ hr, R.ok_bind]
  have hw : (wide text).length = text.length := by simp [wide]
  unfold store
  rw [if_pos (by omega), hw]
  rfl

/-! ### The number of source characters -/

/-- ASCII, both locales: `char_to_widechar` with a number converts exactly that many characters and needs no terminator. -/
theorem C91_counted_ascii_partial (l : Locale) (text : List Char) (ha : Ascii text) (h0 : NoNul text) (more dest : List Nat) (hd : dest.length < 2 ^ 31)
    (hp : text ≠ []) (hl : text.length ≤ dest.length) :
    charToWidechar l dest (wide text ++ more) (text.length : Int) = .ok (wide text ++ dest.drop text.length, (text.length : Int)) := by
  have hpos : 0 < text.length := List.length_pos_iff.2 hp
  unfold charToWidechar
  simp only [if_pos (show (text.length : Int) > 0 by omega), toInt_small hd]
  rw [show min (dest.length : Int) (text.length : Int) = ((text.length : Nat) : Int) by omega, toSize_ofNat (by omega), mbsrtowcs_ascii l text ha h0 more, R.ok_bind]
  have hw : (wide text).length = text.length := by simp [wide]
  unfold store answer
  simp only [hw, if_pos hl, R.ok_bind, toInt_small (show text.length < 2 ^ 31 by omega)]

/-- The number does not count source characters when they are not ASCII: of the four bytes "éé", followed by other text, `char_to_widechar` converts four
characters; and if nothing may be read behind them, it reads beyond the end. -/
theorem C91_counted_wide_fails :
    charToWidechar .utf8 (List.replicate 8 7) (utf8 ['é', 'é', 'x', 'y', 'z'] ++ [0]) 4 = .ok (wide ['é', 'é', 'x', 'y'] ++ List.replicate 4 7, 4) ∧
    (utf8 ['é', 'é']).length = 4 ∧ charToWidechar .utf8 (List.replicate 8 7) (utf8 ['é', 'é']) 4 = .error .ub := by
  refine ⟨by decide +kernel, by decide +kernel, by decide +kernel⟩

/-- Of `n` wide characters `widechar_to_char` writes at most `n / 4` bytes: of up to three nothing at all, whatever they are. -/
theorem C91_counted_narrow_fails (l : Locale) (dest src : List Nat) (hd : dest.length < 2 ^ 31) (n : Nat) (hn : 0 < n ∧ n < 4) :
    widecharToChar l dest src (n : Int) = .ok (dest, 0) := by
  unfold widecharToChar
  have e : min (toInt dest.length) ((n : Int) / 4) = ((0 : Nat) : Int) := by
    rw [toInt_small hd]
    omega
  simp only [if_pos (show (n : Int) > 0 by omega), e, toSize_ofNat (show 0 < 2 ^ 64 by decide)]
  have : wcsrtombs l src 0 = .ok ([], some 0) := by cases src <;> rfl
  rw [this]
  simp [store, answer, toInt]

/-- In the locale in which every program starts, a character that is not ASCII stops the conversion with -1. -/
theorem C91_c_locale (c : Char) (hc : 128 ≤ c.toNat) (more dest : List Nat) (h0 : dest ≠ []) (hd : dest.length < 2 ^ 31) :
    widecharToChar .c dest (c.toNat :: more) (-1) = .ok (dest, -1) := by
  have hpos : 0 < dest.length := List.length_pos_iff.2 h0
  have he : encode .c c.toNat = none := by
    unfold encode
    rw [if_neg (by omega)]
  unfold widecharToChar
  simp only [if_neg (show ¬ (-1 : Int) > 0 by decide), toInt_small hd, toSize_ofNat (show dest.length < 2 ^ 64 by omega)]
  have : wcsrtombs .c (c.toNat :: more) dest.length = .ok ([], none) := by
    simp only [wcsrtombs, he, if_neg (show ¬ dest.length = 0 by omega)]
  rw [this]
  simp [store, answer]

/-! ### to_string -/

/-- What `to_string` of a wide string gives: as many bytes as the text has characters, with the part of the UTF-8 form that fits, and zeros. -/
theorem to_string_eq (text : List Char) (h0 : NoNul text) (more : List Nat) (hd : text.length < 2 ^ 31) :
    ∃ p, Fits text.length text p ∧ toString .utf8 (some (wide text ++ 0 :: more)) = .ok (utf8 p ++ List.replicate (text.length - (utf8 p).length) 0) := by
  obtain ⟨p, hp, e⟩ := C91_to_utf8_partial text h0 more (List.replicate text.length 0) (by simpa using hd) (-1) (by omega)
  simp only [List.length_replicate] at hp
  have hlen : (utf8 p).length ≤ text.length := by
    obtain ⟨_, _, h, _⟩ := hp
    exact h
  refine ⟨p, hp, ?_⟩
  unfold toString
  simp only [wcslen_text text h0 more, R.ok_bind, e]
  unfold written
  congr 1
  by_cases h : p = text ∧ (utf8 p).length < (List.replicate text.length 0).length
  · rw [if_pos h, List.append_assoc]
    congr 1
    rw [List.length_replicate] at h
    rw [List.drop_replicate, List.singleton_append, ← List.replicate_succ]
    exact congrArg (fun n => List.replicate n 0) (by omega)
  · rw [if_neg h, List.drop_replicate]

theorem utf8_ascii_all {text : List Char} (h : Ascii text) : utf8 text = wide text := by
  induction text with
  | nil => rfl
  | cons c cs ih => rw [utf8_cons, utf8_ascii (h c (by simp)), ih (fun x hx => h x (List.mem_cons_of_mem _ hx))]; rfl

theorem utf8_length_ge (text : List Char) : text.length ≤ (utf8 text).length := by
  induction text with
  | nil => simp
  | cons c cs ih =>
    have := utf8_len c
    rw [utf8_cons, List.length_append, List.length_cons]
    omega

theorem utf8_longer {text : List Char} (h : ¬ Ascii text) : text.length < (utf8 text).length := by
  induction text with
  | nil => exact absurd (fun c hc => by cases hc) h
  | cons c cs ih =>
    have := utf8_len c
    have hge := utf8_length_ge cs
    rw [utf8_cons, List.length_append, List.length_cons]
    by_cases hc : c.toNat < 128
    · have : ¬ Ascii cs := fun hcs => h fun x hx => by
        rcases List.mem_cons.1 hx with rfl | hx
        · exact hc
        · exact hcs x hx
      have := ih this
      omega
    · have := this.2.2 (by omega)
      omega

/-- **C92.** `to_string` of a wide string with ASCII characters only is that text. -/
theorem C92_to_string_ascii_partial (text : List Char) (ha : Ascii text) (h0 : NoNul text) (more : List Nat) (hd : text.length < 2 ^ 31) :
    toString .utf8 (some (wide text ++ 0 :: more)) = .ok (utf8 text) := by
  obtain ⟨p, hp, e⟩ := to_string_eq text h0 more hd
  have hu : (utf8 text).length = text.length := by rw [utf8_ascii_all ha]; simp [wide]
  have := fits_all hp (by omega)
  subst this
  rw [e, hu, Nat.sub_self, List.replicate_zero, List.append_nil]

/-- **C92** fails for every text with another character: the result is never its UTF-8 form, but has as many bytes as the text has characters. -/
theorem C92_to_string_truncates (text : List Char) (ha : ¬ Ascii text) (h0 : NoNul text) (more : List Nat) (hd : text.length < 2 ^ 31) :
    ∃ res, toString .utf8 (some (wide text ++ 0 :: more)) = .ok res ∧ res.length = text.length ∧ res ≠ utf8 text := by
  obtain ⟨p, ⟨rest, h1, h2, h3⟩, e⟩ := to_string_eq text h0 more hd
  refine ⟨_, e, by rw [List.length_append, List.length_replicate]; omega, fun h => ?_⟩
  have hl := utf8_longer ha
  rw [← h, List.length_append, List.length_replicate] at hl
  omega

theorem C92_null (l : Locale) : toString l none = .ok ("[nullptr]".toList.map Char.toNat) := rfl

/-! ### Cases -/

example : widecharToChar .utf8 (List.replicate 8 7) (wide ['a', 'ß', '€', '😀'] ++ [0]) (-1) = .ok ([97, 195, 159, 226, 130, 172, 7, 7], 6) := by decide +kernel
example : Fits 8 ['a', 'ß', '€', '😀'] ['a', 'ß', '€'] := ⟨['😀'], rfl, by decide +kernel, fun c cs h => by cases h; decide +kernel⟩
example : charToWidechar .utf8 (List.replicate 6 7) (utf8 ['a', 'ß', '€', '😀'] ++ [0]) (-1) = .ok ([97, 223, 8364, 128512, 0, 7], 4) := by decide +kernel
example : NoNul ['a', 'ß', '€', '😀'] := by unfold NoNul; decide +kernel
example := C91_round_trip ['a', 'ß', '€', '😀'] (by unfold NoNul; decide +kernel) [1, 2] (List.replicate 11 0) (List.replicate 5 0) (by decide +kernel) (by decide) (by decide)
  (by decide)
example : ∀ c : Char, c.toNat ≠ 0xD800 := fun c h => by have := char_range c; omega
example : charToWidechar .utf8 (List.replicate 6 7) ([97, 0xC0, 0x80, 0, 0]) (-1) = .ok ([97, 7, 7, 7, 7, 7], -1) := by decide +kernel
example : toString .utf8 (some (wide ['a', 'é', 'b'] ++ [0])) = .ok (utf8 ['a', 'é']) := by decide +kernel
example : toString .utf8 (some (wide ['é'] ++ [0])) = .ok [0] := by decide +kernel
example : toString .utf8 (some (wide ['h', 'i'] ++ [0])) = .ok (utf8 ['h', 'i']) := by decide +kernel

/-- No character begins with the overlong form of zero. -/
example : ∀ (c : Char) (rest : List Nat), [0xC0, 0x80, 0, 0] ≠ utf8 [c] ++ rest := by
  intro c rest h
  have := decode_char c rest
  rw [← h] at this
  have e : decode .utf8 [0xC0, 0x80, 0, 0] = .ok none := rfl
  rw [e] at this
  cases this

end Verif.WChar
