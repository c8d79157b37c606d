import Verif.WChar.Model
import Verif.WChar.Spec

/-! Facts about the encodings and the conversion loops. -/
namespace Verif.WChar
open Spec

theorem utf8_nil : utf8 [] = [] := rfl
theorem utf8_cons (c : Char) (cs : List Char) : utf8 (c :: cs) = utf8 [c] ++ utf8 cs := by simp [utf8]
theorem utf8_append (a b : List Char) : utf8 (a ++ b) = utf8 a ++ utf8 b := by simp [utf8]

/-- The values of a character. -/
theorem char_range (c : Char) : c.toNat < 0xD800 ∨ (0xE000 ≤ c.toNat ∧ c.toNat < 0x110000) := by
  have := c.valid
  rcases this with h | ⟨h1, h2⟩
  · exact Or.inl h
  · exact Or.inr ⟨h1, h2⟩

theorem u8 {n : Nat} (h : n < 256) : (UInt8.ofNat n).toNat = n := by
  simp only [UInt8.toNat_ofNat']
  exact Nat.mod_eq_of_lt h

/-- The encoder writes UTF-8. -/
theorem encode_char (c : Char) : encode .utf8 c.toNat = some (utf8 [c]) := by
  have hr := char_range c
  unfold encode utf8 String.utf8EncodeChar
  simp only [List.flatMap_cons, List.flatMap_nil, List.append_nil]
  have hv : c.val.toNat = c.toNat := rfl
  rw [hv]
  generalize c.toNat = v at hr ⊢
  by_cases h1 : v < 0x80
  · rw [if_pos h1, if_pos (show v ≤ 127 by omega)]
    simp only [List.map_cons, List.map_nil, u8 (show v < 256 by omega)]
  rw [if_neg h1, if_neg (show ¬ v ≤ 127 by omega)]
  by_cases h2 : v < 0x800
  · rw [if_pos (show v ≤ 2047 by omega)]
    simp only [List.map_cons, List.map_nil]
    rw [if_pos h2, u8 (show v / 64 % 32 + 192 < 256 by omega), u8 (show v % 64 + 128 < 256 by omega)]
    rw [show v / 64 % 32 + 192 = 0xC0 + v / 64 by omega, show v % 64 + 128 = 0x80 + v % 64 by omega]
  rw [if_neg (show ¬ v ≤ 2047 by omega)]
  by_cases h3 : v < 0x10000
  · rw [if_pos (show v ≤ 65535 by omega)]
    simp only [List.map_cons, List.map_nil]
    rw [if_neg h2, if_pos (show v < 0xD800 ∨ (0xE000 ≤ v ∧ v < 0x10000) by omega), u8 (show v / 4096 % 16 + 224 < 256 by omega), u8 (show v / 64 % 64 + 128 < 256 by omega),
      u8 (show v % 64 + 128 < 256 by omega)]
    rw [show v / 4096 % 16 + 224 = 0xE0 + v / 4096 by omega, show v / 64 % 64 + 128 = 0x80 + v / 64 % 64 by omega, show v % 64 + 128 = 0x80 + v % 64 by omega]
  · rw [if_neg (show ¬ v ≤ 65535 by omega)]
    simp only [List.map_cons, List.map_nil]
    rw [if_neg h2, if_neg (show ¬ (v < 0xD800 ∨ (0xE000 ≤ v ∧ v < 0x10000)) by omega), if_pos (show 0x10000 ≤ v ∧ v < 0x110000 by omega),
      u8 (show v / 262144 % 8 + 240 < 256 by omega), u8 (show v / 4096 % 64 + 128 < 256 by omega), u8 (show v / 64 % 64 + 128 < 256 by omega), u8 (show v % 64 + 128 < 256 by omega)]
    rw [show v / 262144 % 8 + 240 = 0xF0 + v / 262144 by omega, show v / 4096 % 64 + 128 = 0x80 + v / 4096 % 64 by omega, show v / 64 % 64 + 128 = 0x80 + v / 64 % 64 by omega,
      show v % 64 + 128 = 0x80 + v % 64 by omega]

/-- Only characters can be encoded. -/
theorem encode_bad {v : Nat} (h : ∀ c : Char, c.toNat ≠ v) : encode .utf8 v = none := by
  have hr : ¬ (v < 0xD800 ∨ (0xE000 ≤ v ∧ v < 0x110000)) := by
    intro hv
    have hval : v.isValidChar := by
      rcases hv with h1 | ⟨h1, h2⟩
      · exact Or.inl h1
      · exact Or.inr ⟨h1, h2⟩
    refine h (Char.ofNat v) ?_
    have : Char.ofNat v = Char.ofNatAux v hval := by unfold Char.ofNat; rw [dif_pos hval]
    rw [this]
    show (Char.ofNatAux v hval).val.toNat = v
    rfl
  unfold encode
  rw [if_neg (by omega)]
  simp only
  rw [if_neg (by omega), if_neg (by omega), if_neg (by omega)]

theorem encode_ascii (l : Locale) {v : Nat} (h : v < 0x80) : encode l v = some [v] := by
  unfold encode
  rw [if_pos h]

theorem utf8_ascii {c : Char} (h : c.toNat < 128) : utf8 [c] = [c.toNat] := by
  have h1 := encode_char c
  rw [encode_ascii _ (by omega)] at h1
  exact (Option.some.inj h1).symm

theorem utf8_len (c : Char) : 1 ≤ (utf8 [c]).length ∧ (utf8 [c]).length ≤ 4 ∧ (128 ≤ c.toNat → 2 ≤ (utf8 [c]).length) := by
  have h := encode_char c
  by_cases h1 : c.toNat < 128
  · rw [utf8_ascii h1]
    simp
    omega
  · unfold encode at h
    rw [if_neg (by omega)] at h
    simp only at h
    have : ∃ a b, utf8 [c] = a :: b :: [] ∨ (∃ d, utf8 [c] = [a, b, d]) ∨ ∃ d e, utf8 [c] = [a, b, d, e] := by
      by_cases h2 : c.toNat < 0x800
      · rw [if_pos h2] at h; exact ⟨_, _, Or.inl (Option.some.inj h).symm⟩
      rw [if_neg h2] at h
      by_cases h3 : c.toNat < 0xD800 ∨ (0xE000 ≤ c.toNat ∧ c.toNat < 0x10000)
      · rw [if_pos h3] at h; exact ⟨_, _, Or.inr (Or.inl ⟨_, (Option.some.inj h).symm⟩)⟩
      rw [if_neg h3] at h
      by_cases h4 : 0x10000 ≤ c.toNat ∧ c.toNat < 0x110000
      · rw [if_pos h4] at h; exact ⟨_, _, Or.inr (Or.inr ⟨_, _, (Option.some.inj h).symm⟩)⟩
      · rw [if_neg h4] at h; cases h
    obtain ⟨a, b, e | ⟨d, e⟩ | ⟨d, f, e⟩⟩ := this <;> rw [e] <;> simp

/-- The decoder reads back what UTF-8 is. -/
theorem decode_char (c : Char) (rest : List Nat) : decode .utf8 (utf8 [c] ++ rest) = .ok (some (c.toNat, rest)) := by
  have hr := char_range c
  have he := encode_char c
  generalize c.toNat = v at hr he ⊢
  unfold encode at he
  by_cases h1 : v < 0x80
  · rw [if_pos h1] at he
    rw [← Option.some.inj he]
    simp only [List.cons_append, List.nil_append, decode, if_pos h1]
  rw [if_neg h1] at he
  simp only at he
  by_cases h2 : v < 0x800
  · rw [if_pos h2] at he
    rw [← Option.some.inj he]
    simp only [List.cons_append, List.nil_append, decode, conts]
    rw [if_neg (by omega), if_pos (by omega), if_pos (by omega)]
    rw [show (0xC0 + v / 64 - 0xC0) * 64 + (0x80 + v % 64 - 0x80) = v by omega]
  rw [if_neg h2] at he
  by_cases h3 : v < 0xD800 ∨ (0xE000 ≤ v ∧ v < 0x10000)
  · rw [if_pos h3] at he
    rw [← Option.some.inj he]
    simp only [List.cons_append, List.nil_append, decode, conts]
    rw [if_neg (by omega), if_neg (by omega), if_pos (by omega), if_pos (by omega), if_pos (by omega), R.ok_bind]
    have e : ((0xE0 + v / 4096 - 0xE0) * 64 + (0x80 + v / 64 % 64 - 0x80)) * 64 + (0x80 + v % 64 - 0x80) = v := by omega
    rw [e]
    unfold check
    simp only
    rw [if_pos (by simp; omega)]
  rw [if_neg h3] at he
  rw [if_pos (by omega)] at he
  rw [← Option.some.inj he]
  simp only [List.cons_append, List.nil_append, decode, conts]
  rw [if_neg (by omega), if_neg (by omega), if_neg (by omega), if_pos (by omega), if_pos (by omega), if_pos (by omega), if_pos (by omega), R.ok_bind]
  have e : (((0xF0 + v / 262144 - 0xF0) * 64 + (0x80 + v / 4096 % 64 - 0x80)) * 64 + (0x80 + v / 64 % 64 - 0x80)) * 64 + (0x80 + v % 64 - 0x80) = v := by omega
  rw [e]
  unfold check
  simp only
  rw [if_pos (by simp; omega)]

theorem two {xs : List Nat} (h : xs.length = 2) : ∃ x y, xs = [x, y] := by
  rcases xs with _ | ⟨x, _ | ⟨y, _ | ⟨z, xs⟩⟩⟩ <;> simp at h
  exact ⟨x, y, rfl⟩

theorem three {xs : List Nat} (h : xs.length = 3) : ∃ x y z, xs = [x, y, z] := by
  rcases xs with _ | ⟨x, _ | ⟨y, _ | ⟨z, _ | ⟨a, xs⟩⟩⟩⟩ <;> simp at h
  exact ⟨x, y, z, rfl⟩

theorem decode_cons (b : Nat) (bs : List Nat) : decode .utf8 (b :: bs) =
    if b < 0x80 then .ok (some (b, bs))
    else if 0xC2 ≤ b ∧ b < 0xE0 then conts (b - 0xC0) 1 bs
    else if 0xE0 ≤ b ∧ b < 0xF0 then (conts (b - 0xE0) 2 bs >>= fun r => .ok (check (fun c => 0x800 ≤ c ∧ (c < 0xD800 ∨ 0xE000 ≤ c)) r))
    else if 0xF0 ≤ b ∧ b < 0xF5 then (conts (b - 0xF0) 3 bs >>= fun r => .ok (check (fun c => 0x10000 ≤ c ∧ c < 0x110000) r))
    else .ok none := rfl

theorem conts_some {n : Nat} : ∀ {acc : Nat} {bs : List Nat} {v : Nat} {rest : List Nat}, conts acc n bs = .ok (some (v, rest)) →
    ∃ xs : List Nat, xs.length = n ∧ (∀ x ∈ xs, x < 64) ∧ bs = xs.map (0x80 + ·) ++ rest ∧ v = xs.foldl (fun a x => a * 64 + x) acc := by
  induction n with
  | zero => intro acc bs v rest h; cases h; exact ⟨[], rfl, (fun x hx => by cases hx), rfl, rfl⟩
  | succ n ih =>
    intro acc bs v rest h
    cases bs with
    | nil => cases h
    | cons b bs =>
      unfold conts at h
      by_cases hb : 0x80 ≤ b ∧ b < 0xC0
      · rw [if_pos hb] at h
        obtain ⟨xs, h1, h2, h3, h4⟩ := ih h
        have hb' : 0x80 + (b - 0x80) = b := by omega
        refine ⟨(b - 0x80) :: xs, by rw [List.length_cons, h1], ?_, ?_, ?_⟩
        · intro x hx
          rcases List.mem_cons.1 hx with hx | hx
          · omega
          · exact h2 x hx
        · rw [h3]
          simp only [List.map_cons, List.cons_append, hb']
        · rw [h4, List.foldl_cons]
      · rw [if_neg hb] at h; cases h

theorem ofNat_toNat {v : Nat} (h : v < 0xD800 ∨ (0xE000 ≤ v ∧ v < 0x110000)) : ∃ c : Char, c.toNat = v := by
  have hval : v.isValidChar := by
    rcases h with h1 | ⟨h1, h2⟩
    · exact Or.inl h1
    · exact Or.inr ⟨h1, h2⟩
  exact ⟨Char.ofNatAux v hval, rfl⟩

/-- What the decoder accepts is UTF-8 of a character. -/
theorem decode_sound {bs : List Nat} {v : Nat} {rest : List Nat} (h : decode .utf8 bs = .ok (some (v, rest))) : ∃ c : Char, c.toNat = v ∧ bs = utf8 [c] ++ rest := by
  have fin : ∀ {ys : List Nat}, (v < 0xD800 ∨ (0xE000 ≤ v ∧ v < 0x110000)) → encode .utf8 v = some ys → ∃ c : Char, c.toNat = v ∧ ys = utf8 [c] := by
    intro ys hv he
    obtain ⟨c, hc⟩ := ofNat_toNat hv
    have := encode_char c
    rw [hc, he] at this
    exact ⟨c, hc, Option.some.inj this⟩
  cases bs with
  | nil => cases h
  | cons b bs =>
    rw [decode_cons] at h
    by_cases h1 : b < 0x80
    · rw [if_pos h1] at h
      cases h
      obtain ⟨c, hc, e⟩ := fin (Or.inl (by omega)) (encode_ascii _ h1)
      exact ⟨c, hc, by rw [← e]; rfl⟩
    rw [if_neg h1] at h
    by_cases h2 : 0xC2 ≤ b ∧ b < 0xE0
    · rw [if_pos h2] at h
      obtain ⟨xs, k1, k2, k3, k4⟩ := conts_some h
      obtain ⟨x, rfl⟩ := List.length_eq_one_iff.1 k1
      have hx := k2 x (by simp)
      simp only [List.foldl_cons, List.foldl_nil] at k4
      have he : encode .utf8 v = some [b, 0x80 + x] := by
        unfold encode
        rw [if_neg (by omega)]
        simp only
        rw [if_pos (by omega)]
        rw [show 0xC0 + v / 64 = b by omega, show v % 64 = x by omega]
      obtain ⟨c, hc, e⟩ := fin (Or.inl (by omega)) he
      exact ⟨c, hc, by rw [← e, k3]; rfl⟩
    rw [if_neg h2] at h
    by_cases h3 : 0xE0 ≤ b ∧ b < 0xF0
    · rw [if_pos h3] at h
      simp only [R.bind_eq_ok] at h
      obtain ⟨r, k0, k⟩ := h
      cases r with
      | none => cases k
      | some p =>
        obtain ⟨v', rest'⟩ := p
        simp only [check, Except.ok.injEq] at k
        by_cases hp : decide (0x800 ≤ v' ∧ (v' < 0xD800 ∨ 0xE000 ≤ v')) = true
        · rw [if_pos hp] at k
          cases k
          have hp := of_decide_eq_true hp
          obtain ⟨xs, k1, k2, k3, k4⟩ := conts_some k0
          obtain ⟨x, y, rfl⟩ := two k1
          have hx := k2 x (by simp)
          have hy := k2 y (by simp)
          simp only [List.foldl_cons, List.foldl_nil] at k4
          have he : encode .utf8 v = some [b, 0x80 + x, 0x80 + y] := by
            unfold encode
            rw [if_neg (by omega)]
            simp only
            rw [if_neg (by omega), if_pos (by omega)]
            rw [show 0xE0 + v / 4096 = b by omega, show v / 64 % 64 = x by omega, show v % 64 = y by omega]
          obtain ⟨c, hc, e⟩ := fin (by omega) he
          exact ⟨c, hc, by rw [← e, k3]; rfl⟩
        · rw [if_neg hp] at k; cases k
    rw [if_neg h3] at h
    by_cases h4 : 0xF0 ≤ b ∧ b < 0xF5
    · rw [if_pos h4] at h
      simp only [R.bind_eq_ok] at h
      obtain ⟨r, k0, k⟩ := h
      cases r with
      | none => cases k
      | some p =>
        obtain ⟨v', rest'⟩ := p
        simp only [check, Except.ok.injEq] at k
        by_cases hp : decide (0x10000 ≤ v' ∧ v' < 0x110000) = true
        · rw [if_pos hp] at k
          cases k
          have hp := of_decide_eq_true hp
          obtain ⟨xs, k1, k2, k3, k4⟩ := conts_some k0
          obtain ⟨x, y, z, rfl⟩ := three k1
          have hx := k2 x (by simp)
          have hy := k2 y (by simp)
          have hz := k2 z (by simp)
          simp only [List.foldl_cons, List.foldl_nil] at k4
          have he : encode .utf8 v = some [b, 0x80 + x, 0x80 + y, 0x80 + z] := by
            unfold encode
            rw [if_neg (by omega)]
            simp only
            rw [if_neg (by omega), if_neg (by omega), if_pos (by omega)]
            rw [show 0xF0 + v / 262144 = b by omega, show v / 4096 % 64 = x by omega, show v / 64 % 64 = y by omega, show v % 64 = z by omega]
          obtain ⟨c, hc, e⟩ := fin (by omega) he
          exact ⟨c, hc, by rw [← e, k3]; rfl⟩
        · rw [if_neg hp] at k; cases k
    · rw [if_neg h4] at h; cases h

theorem conts_ok (n : Nat) : ∀ (acc : Nat) (bs : List Nat), n ≤ bs.length → ∃ r, conts acc n bs = .ok r := by
  induction n with
  | zero => intro acc bs _; exact ⟨_, rfl⟩
  | succ n ih =>
    intro acc bs h
    cases bs with
    | nil => simp at h
    | cons b bs =>
      unfold conts
      by_cases hb : 0x80 ≤ b ∧ b < 0xC0
      · rw [if_pos hb]; exact ih _ _ (by simpa using h)
      · rw [if_neg hb]; exact ⟨_, rfl⟩

/-- The decoder looks at most at four bytes. -/
theorem decode_ok (bs : List Nat) (h : 4 ≤ bs.length) : ∃ r, decode .utf8 bs = .ok r := by
  cases bs with
  | nil => simp at h
  | cons b bs =>
    simp only [List.length_cons] at h
    rw [decode_cons]
    by_cases h1 : b < 0x80
    · rw [if_pos h1]; exact ⟨_, rfl⟩
    rw [if_neg h1]
    by_cases h2 : 0xC2 ≤ b ∧ b < 0xE0
    · rw [if_pos h2]; exact conts_ok _ _ _ (by omega)
    rw [if_neg h2]
    by_cases h3 : 0xE0 ≤ b ∧ b < 0xF0
    · rw [if_pos h3]
      obtain ⟨r, e⟩ := conts_ok 2 (b - 0xE0) bs (by omega)
      rw [e]; exact ⟨_, rfl⟩
    rw [if_neg h3]
    by_cases h4 : 0xF0 ≤ b ∧ b < 0xF5
    · rw [if_pos h4]
      obtain ⟨r, e⟩ := conts_ok 3 (b - 0xF0) bs (by omega)
      rw [e]; exact ⟨_, rfl⟩
    · rw [if_neg h4]; exact ⟨_, rfl⟩

/-! ### The loops -/

theorem wcsrtombs_step (l : Locale) {len c : Nat} {cs bs : List Nat} (he : encode l c = some bs) (hb : bs.length ≤ len) (h0 : c ≠ 0) (hlen : len ≠ 0) :
    wcsrtombs l (c :: cs) len = (wcsrtombs l cs (len - bs.length) >>= fun r => .ok (bs ++ r.1, r.2.map (bs.length + ·))) := by
  simp only [wcsrtombs, he, if_neg hlen, if_neg (show ¬ len < bs.length by omega), if_neg h0]

theorem wcsrtombs_fits (text : List Char) (h0 : NoNul text) (more : List Nat) : ∀ n, ∃ p, Fits n text p ∧
    wcsrtombs .utf8 (wide text ++ 0 :: more) n = .ok (utf8 p ++ (if p = text ∧ (utf8 p).length < n then [0] else []), some (utf8 p).length) := by
  induction text with
  | nil =>
    intro n
    refine ⟨[], ⟨[], rfl, by simp [utf8_nil], fun c cs h => by cases h⟩, ?_⟩
    simp only [wide, List.map_nil, List.nil_append, utf8_nil, List.length_nil, true_and, wcsrtombs, encode_ascii _ (show 0 < 0x80 by decide), List.length_cons]
    by_cases hn : n = 0
    · simp [hn]
    · simp only [if_neg hn, if_neg (show ¬ n < 0 + 1 by omega), if_pos (show 0 < n by omega), if_true]
  | cons c cs ih =>
    intro n
    have hc0 := h0 c (by simp)
    have hlen := utf8_len c
    by_cases hn : n < (utf8 [c]).length
    · refine ⟨[], ⟨c :: cs, rfl, by simp [utf8_nil], fun c' cs' h => by cases h; exact hn⟩, ?_⟩
      have hne : ¬ (([] : List Char) = c :: cs ∧ (utf8 []).length < n) := fun h => by cases h.1
      rw [if_neg hne]
      simp only [wide, List.map_cons, List.cons_append, wcsrtombs, encode_char, if_pos hn, utf8_nil, List.append_nil, List.length_nil, ite_self]
    · obtain ⟨p, ⟨rest, h1, h2, h3⟩, e⟩ := ih (fun x hx => h0 x (List.mem_cons_of_mem _ hx)) (n - (utf8 [c]).length)
      refine ⟨c :: p, ⟨rest, by rw [h1]; rfl, by rw [utf8_cons, List.length_append]; omega, fun c' cs' h => ?_⟩, ?_⟩
      · have := h3 c' cs' h
        rw [List.cons_append, utf8_cons, List.length_append]
        omega
      · have hw : wide (c :: cs) ++ 0 :: more = c.toNat :: (wide cs ++ 0 :: more) := rfl
        rw [hw, wcsrtombs_step _ (encode_char c) (by omega) hc0 (by omega), e, R.ok_bind]
        simp only
        rw [utf8_cons c p, List.length_append, List.append_assoc]
        have e1 : (p = cs ∧ (utf8 p).length < n - (utf8 [c]).length) ↔ (c :: p = c :: cs ∧ (utf8 [c]).length + (utf8 p).length < n) := by
          simp only [List.cons.injEq, true_and]
          constructor <;> rintro ⟨a, b⟩ <;> refine ⟨a, by omega⟩
        simp only [e1]
        rfl

theorem wcsrtombs_bad (text : List Char) (h0 : NoNul text) (v : Nat) (hv : ∀ c : Char, c.toNat ≠ v) (more : List Nat) : ∀ n, (utf8 text).length < n →
    wcsrtombs .utf8 (wide text ++ v :: more) n = .ok (utf8 text, none) := by
  induction text with
  | nil =>
    intro n hn
    obtain ⟨m, rfl⟩ : ∃ m, n = m + 1 := ⟨n - 1, by simp [utf8_nil] at hn; omega⟩
    simp only [wide, List.map_nil, List.nil_append, wcsrtombs, encode_bad hv]
    rfl
  | cons c cs ih =>
    intro n hn
    rw [utf8_cons, List.length_append] at hn
    have hlen := utf8_len c
    have hw : wide (c :: cs) ++ v :: more = c.toNat :: (wide cs ++ v :: more) := rfl
    rw [hw, wcsrtombs_step _ (encode_char c) (by omega) (h0 c (by simp)) (by omega), ih (fun x hx => h0 x (List.mem_cons_of_mem _ hx)) _ (by omega), R.ok_bind, utf8_cons c cs]
    rfl

theorem mbsrtowcs_text (text : List Char) (h0 : NoNul text) (more : List Nat) : ∀ n,
    mbsrtowcs .utf8 n (utf8 text ++ 0 :: more) = .ok (wide (text.take n) ++ (if text.length < n then [0] else []), some (min n text.length)) := by
  induction text with
  | nil =>
    intro n
    cases n with
    | zero => rfl
    | succ n =>
      simp only [utf8_nil, List.nil_append, mbsrtowcs, decode, wide, List.take_nil, List.map_nil, List.length_nil, Nat.succ_pos, if_true, Nat.min_zero]
      rfl
  | cons c cs ih =>
    intro n
    cases n with
    | zero => simp [mbsrtowcs, wide]
    | succ n =>
      rw [utf8_cons, List.append_assoc]
      simp only [mbsrtowcs, decode_char, R.ok_bind, if_neg (h0 c (by simp)), ih (fun x hx => h0 x (List.mem_cons_of_mem _ hx)) n, wide, List.take_succ_cons, List.map_cons,
        List.length_cons, Nat.add_lt_add_iff_right, Option.map_some, List.cons_append, Except.ok.injEq, Prod.mk.injEq, true_and, Option.some.injEq]
      omega

theorem mbsrtowcs_bad (text : List Char) (h0 : NoNul text) (m : List Nat) (hm : 4 ≤ m.length) (hbad : ∀ (c : Char) (rest : List Nat), m ≠ utf8 [c] ++ rest) :
    ∀ n, text.length < n → mbsrtowcs .utf8 n (utf8 text ++ m) = .ok (wide text, none) := by
  induction text with
  | nil =>
    intro n hn
    obtain ⟨k, rfl⟩ : ∃ k, n = k + 1 := ⟨n - 1, by simp at hn; omega⟩
    obtain ⟨r, e⟩ := decode_ok m hm
    simp only [utf8_nil, List.nil_append, mbsrtowcs, e, R.ok_bind]
    cases r with
    | none => rfl
    | some p =>
      obtain ⟨c, _, h⟩ := decode_sound (v := p.1) (rest := p.2) e
      exact absurd h (hbad c _)
  | cons c cs ih =>
    intro n hn
    obtain ⟨k, rfl⟩ : ∃ k, n = k + 1 := ⟨n - 1, by simp at hn; omega⟩
    rw [utf8_cons, List.append_assoc]
    simp only [mbsrtowcs, decode_char, R.ok_bind, if_neg (h0 c (by simp)), ih (fun x hx => h0 x (List.mem_cons_of_mem _ hx)) k (by simpa using hn)]
    rfl

/-- ASCII, in both locales, without a terminator. -/
theorem mbsrtowcs_ascii (l : Locale) (text : List Char) (ha : Ascii text) (h0 : NoNul text) (more : List Nat) :
    mbsrtowcs l text.length (wide text ++ more) = .ok (wide text, some text.length) := by
  induction text with
  | nil => rfl
  | cons c cs ih =>
    have hc := ha c (by simp)
    have hw : wide (c :: cs) ++ more = c.toNat :: (wide cs ++ more) := rfl
    rw [hw]
    simp only [List.length_cons, mbsrtowcs, decode, if_pos (show c.toNat < 0x80 from hc), R.ok_bind, if_neg (h0 c (by simp)),
      ih (fun x hx => ha x (List.mem_cons_of_mem _ hx)) (fun x hx => h0 x (List.mem_cons_of_mem _ hx)), Option.map_some, Nat.add_comm 1]
    rfl

theorem wcslen_text (text : List Char) (h0 : NoNul text) (more : List Nat) : wcslen (wide text ++ 0 :: more) = .ok text.length := by
  induction text with
  | nil => rfl
  | cons c cs ih =>
    have hw : wide (c :: cs) ++ 0 :: more = c.toNat :: (wide cs ++ 0 :: more) := rfl
    rw [hw]
    simp only [wcslen, if_neg (h0 c (by simp)), ih (fun x hx => h0 x (List.mem_cons_of_mem _ hx)), R.ok_bind, List.length_cons]

theorem toInt_small {n : Nat} (h : n < 2 ^ 31) : toInt n = (n : Int) := by
  unfold toInt
  rw [Nat.mod_eq_of_lt (by omega), if_pos h]

theorem toSize_ofNat {n : Nat} (h : n < 2 ^ 64) : toSize (n : Int) = n := by
  unfold toSize
  omega

end Verif.WChar
