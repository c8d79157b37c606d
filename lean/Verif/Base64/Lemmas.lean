import Verif.Base64.Model
import Verif.Base64.Spec

/-! Helper lemmas for base64. -/
namespace Verif.Base64

/-- The alphabet character of a 6-bit value. -/
def chr (n : Nat) : Byte := alphabet.getD n 0

/-! ### tables -/

theorem base64Chars_eq : base64Chars = alphabet := by decide +kernel

theorem charAt_ok {n : Nat} (h : n < 64) : charAt n = .ok (chr n) := by
  have : ∀ n < 64, charAt n = .ok (chr n) := by decide +kernel
  exact this n h

theorem chr_idx {n : Nat} (h : n < 64) : alphabet.idxOf (chr n) = n := by
  have : ∀ n < 64, alphabet.idxOf (chr n) = n := by decide +kernel
  exact this n h

theorem chr_mem {n : Nat} (h : n < 64) : alphabet.contains (chr n) = true := by
  have : ∀ n < 64, alphabet.contains (chr n) = true := by decide +kernel
  exact this n h

theorem byte_cases {P : Byte → Prop} (h : ∀ n < 256, P (BitVec.ofNat 8 n)) (c : Byte) : P c := by
  have := h c.toNat c.isLt
  simpa using this

theorem isBase64_iff (c : Byte) : isBase64 c = alphabet.contains c := by
  revert c
  apply byte_cases
  decide +kernel

theorem eq_not_alphabet : alphabet.contains 61#8 = false := by decide +kernel

theorem lookup_ok {c : Byte} (h : alphabet.contains c = true) :
    lookup c = .ok (BitVec.ofNat 8 (alphabet.idxOf c)) ∧ alphabet.idxOf c < 64 := by
  revert h; revert c
  apply byte_cases
  decide +kernel

/-! ### bit operations on one operand -/

theorem and_fc {n : Nat} (h : n < 256) : (n &&& 0xfc) >>> 2 = n / 4 := by
  have : ∀ n < 256, (n &&& 0xfc) >>> 2 = n / 4 := by decide +kernel
  exact this n h
theorem and_03 {n : Nat} (h : n < 256) : (n &&& 0x03) <<< 4 = n % 4 * 16 := by
  have : ∀ n < 256, (n &&& 0x03) <<< 4 = n % 4 * 16 := by decide +kernel
  exact this n h
theorem and_f0 {n : Nat} (h : n < 256) : (n &&& 0xf0) >>> 4 = n / 16 := by
  have : ∀ n < 256, (n &&& 0xf0) >>> 4 = n / 16 := by decide +kernel
  exact this n h
theorem and_0f {n : Nat} (h : n < 256) : (n &&& 0x0f) <<< 2 = n % 16 * 4 := by
  have : ∀ n < 256, (n &&& 0x0f) <<< 2 = n % 16 * 4 := by decide +kernel
  exact this n h
theorem and_c0 {n : Nat} (h : n < 256) : (n &&& 0xc0) >>> 6 = n / 64 := by
  have : ∀ n < 256, (n &&& 0xc0) >>> 6 = n / 64 := by decide +kernel
  exact this n h
theorem and_3f {n : Nat} (h : n < 256) : n &&& 0x3f = n % 64 := by
  have : ∀ n < 256, n &&& 0x3f = n % 64 := by decide +kernel
  exact this n h
theorem and_30 {n : Nat} (h : n < 64) : (n &&& 0x30) >>> 4 = n / 16 := by
  have : ∀ n < 64, (n &&& 0x30) >>> 4 = n / 16 := by decide +kernel
  exact this n h
theorem and_f {n : Nat} (h : n < 64) : (n &&& 0xf) <<< 4 = n % 16 * 16 := by
  have : ∀ n < 64, (n &&& 0xf) <<< 4 = n % 16 * 16 := by decide +kernel
  exact this n h
theorem and_3c {n : Nat} (h : n < 64) : (n &&& 0x3c) >>> 2 = n / 4 := by
  have : ∀ n < 64, (n &&& 0x3c) >>> 2 = n / 4 := by decide +kernel
  exact this n h
theorem and_3 {n : Nat} (h : n < 64) : (n &&& 0x3) <<< 6 = n % 4 * 64 := by
  have : ∀ n < 64, (n &&& 0x3) <<< 6 = n % 4 * 64 := by decide +kernel
  exact this n h
theorem shl2 (n : Nat) : n <<< 2 = n * 4 := Nat.shiftLeft_eq n 2

theorem split4_eq (a b c : Byte) : split4 a b c =
    [uchar (a.toNat / 4), uchar (a.toNat % 4 * 16 + b.toNat / 16), uchar (b.toNat % 16 * 4 + c.toNat / 64),
     uchar (c.toNat % 64)] := by
  unfold split4
  rw [and_fc a.isLt, and_03 a.isLt, and_f0 b.isLt, and_0f b.isLt, and_c0 c.isLt, and_3f c.isLt]

theorem uchar_toNat {n : Nat} (h : n < 256) : (uchar n).toNat = n := by
  unfold uchar; rw [BitVec.toNat_ofNat]; exact Nat.mod_eq_of_lt h

theorem putChars_ok (l : List Nat) (h : ∀ n ∈ l, n < 64) (r : List Byte) :
    putChars r (l.map uchar) = .ok (r ++ l.map chr) := by
  induction l generalizing r with
  | nil => simp [putChars]
  | cons n l ih =>
    have hn := h n (by simp)
    simp only [List.map_cons, putChars, uchar_toNat (by omega : n < 256), charAt_ok hn, R.ok_bind]
    rw [ih (fun m hm => h m (by simp [hm]))]
    simp

/-- The encoding, three bytes at a time. -/
def encG : List Byte → List Byte
  | a :: b :: c :: rest =>
    chr (a.toNat / 4) :: chr (a.toNat % 4 * 16 + b.toNat / 16) ::
      chr (b.toNat % 16 * 4 + c.toNat / 64) :: chr (c.toNat % 64) :: encG rest
  | [a, b] => [chr (a.toNat / 4), chr (a.toNat % 4 * 16 + b.toNat / 16), chr (b.toNat % 16 * 4), 61#8]
  | [a] => [chr (a.toNat / 4), chr (a.toNat % 4 * 16), 61#8, 61#8]
  | [] => []

theorem enc_ok (data : List Byte) (a0 a1 a2 : Byte) (r : List Byte) :
    (encLoop { i := 0, a0 := a0, a1 := a1, a2 := a2, ret := r } data >>= encTail) = .ok (r ++ encG data) := by
  match data with
  | [] => simp [encLoop, encTail, encG]
  | [a] =>
    have hz : (0#8).toNat = 0 := rfl
    simp only [encLoop, encStep, EncSt.store, R.ok_bind, R.pure_eq]
    have := putChars_ok [a.toNat / 4, a.toNat % 4 * 16] (by have := a.isLt; simp; omega) r
    simp only [List.map_cons, List.map_nil] at this
    simp [encTail, split4_eq, hz, this, encG]
  | [a, b] =>
    have hz : (0#8).toNat = 0 := rfl
    simp only [encLoop, encStep, EncSt.store, R.ok_bind, R.pure_eq]
    have := putChars_ok [a.toNat / 4, a.toNat % 4 * 16 + b.toNat / 16, b.toNat % 16 * 4]
      (by have := a.isLt; have := b.isLt; simp; omega) r
    simp only [List.map_cons, List.map_nil] at this
    simp [encTail, split4_eq, hz, this, encG]
  | a :: b :: c :: rest =>
    have ih := enc_ok rest a b c (r ++ [chr (a.toNat / 4), chr (a.toNat % 4 * 16 + b.toNat / 16),
      chr (b.toNat % 16 * 4 + c.toNat / 64), chr (c.toNat % 64)])
    have := putChars_ok [a.toNat / 4, a.toNat % 4 * 16 + b.toNat / 16, b.toNat % 16 * 4 + c.toNat / 64,
      c.toNat % 64] (by have := a.isLt; have := b.isLt; have := c.isLt; simp; omega) r
    simp only [List.map_cons, List.map_nil] at this
    have hs : encLoop { i := 0, a0 := a0, a1 := a1, a2 := a2, ret := r } (a :: b :: c :: rest) =
        encLoop { i := 0, a0 := a, a1 := b, a2 := c, ret := r ++ [chr (a.toNat / 4), chr (a.toNat % 4 * 16 + b.toNat / 16), chr (b.toNat % 16 * 4 + c.toNat / 64), chr (c.toNat % 64)] } rest := by
      simp only [encLoop, encStep, EncSt.store, R.ok_bind, R.pure_eq]
      simp [split4_eq, this]
    rw [hs, ih]; simp [encG]

/-! ### spec on groups -/

theorem bit_nat (x : Nat) : (x % 2 == 1).toNat = x % 2 := by
  rcases Nat.mod_two_eq_zero_or_one x with h | h <;> simp [h]

theorem bits8 (n : Nat) : bitsOf n 8 = [n / 128 % 2 == 1, n / 64 % 2 == 1, n / 32 % 2 == 1,
    n / 16 % 2 == 1, n / 8 % 2 == 1, n / 4 % 2 == 1, n / 2 % 2 == 1, n % 2 == 1] := by
  simp [bitsOf]

theorem bits6 (n : Nat) : bitsOf n 6 = [n / 32 % 2 == 1,
    n / 16 % 2 == 1, n / 8 % 2 == 1, n / 4 % 2 == 1, n / 2 % 2 == 1, n % 2 == 1] := by
  simp [bitsOf]

theorem cons_chr {x y : Nat} {t t' : List Byte} (h : x = y) (ht : t = t') :
    alphabet.getD x 0 :: t = chr y :: t' := by subst h; subst ht; rfl

theorem cons_byte {x y : Nat} {t t' : List Byte} (h : x = y) (ht : t = t') :
    BitVec.ofNat 8 x :: t = uchar y :: t' := by subst h; subst ht; rfl

theorem encG_eq (bs : List Byte) : rfcEncode bs = encG bs := by
  unfold rfcEncode
  match bs with
  | [] => rfl
  | [a] =>
    have := a.isLt
    simp only [List.flatMap_cons, List.flatMap_nil, List.append_nil, bits8, groups6, List.map_cons,
      List.map_nil, List.length_cons, List.length_nil, encG, List.cons_append, List.nil_append,
      List.replicate, bitsVal, List.foldl_cons, List.foldl_nil, bit_nat, Bool.toNat_false]
    refine cons_chr (by omega) (cons_chr (by omega) rfl)
  | [a, b] =>
    have := a.isLt
    have := b.isLt
    simp only [List.flatMap_cons, List.flatMap_nil, List.append_nil, bits8, groups6, List.map_cons,
      List.map_nil, List.length_cons, List.length_nil, encG, List.cons_append, List.nil_append,
      List.replicate, bitsVal, List.foldl_cons, List.foldl_nil, bit_nat, Bool.toNat_false]
    refine cons_chr (by omega) (cons_chr (by omega) (cons_chr (by omega) rfl))
  | a :: b :: c :: rest =>
    have ih := encG_eq rest
    unfold rfcEncode at ih
    have := a.isLt
    have := b.isLt
    have := c.isLt
    have hl : (a :: b :: c :: rest).length % 3 = rest.length % 3 := by simp only [List.length_cons]; omega
    rw [hl]
    simp only [List.flatMap_cons, bits8 a.toNat, bits8 b.toNat, bits8 c.toNat, groups6, List.map_cons,
      encG, List.cons_append, List.nil_append]
    refine cons_chr ?_ (cons_chr ?_ (cons_chr ?_ (cons_chr ?_ ih)))
    all_goals
      simp only [bitsVal, List.foldl_cons, List.foldl_nil, bit_nat]
      omega

/-! ### decoding -/

/-- Index of a character. -/
def ix (c : Byte) : Nat := alphabet.idxOf c

/-- The decoding, four characters at a time. -/
def decG : List Byte → List Byte
  | a :: b :: c :: d :: rest =>
    uchar (ix a * 4 + ix b / 16) :: uchar (ix b % 16 * 16 + ix c / 4) ::
      uchar (ix c % 4 * 64 + ix d) :: decG rest
  | [a, b, c] => [uchar (ix a * 4 + ix b / 16), uchar (ix b % 16 * 16 + ix c / 4)]
  | [a, b] => [uchar (ix a * 4 + ix b / 16)]
  | _ => []

theorem decG_eq (cs : List Byte) (h : ∀ c ∈ cs, alphabet.contains c = true) : rfcDecode cs = decG cs := by
  unfold rfcDecode
  match cs with
  | [] => rfl
  | [a] => simp [bits6, groups8, decG]
  | [a, b] =>
    have ha := (lookup_ok (h a (by simp))).2
    have hb := (lookup_ok (h b (by simp))).2
    simp only [List.flatMap_cons, List.flatMap_nil, List.append_nil, bits6, groups8, List.map_cons,
      List.map_nil, decG, List.cons_append, List.nil_append, bitsVal, List.foldl_cons, List.foldl_nil,
      bit_nat, ix]
    exact cons_byte (by omega) rfl
  | [a, b, c] =>
    have ha := (lookup_ok (h a (by simp))).2
    have hb := (lookup_ok (h b (by simp))).2
    have hc := (lookup_ok (h c (by simp))).2
    simp only [List.flatMap_cons, List.flatMap_nil, List.append_nil, bits6, groups8, List.map_cons,
      List.map_nil, decG, List.cons_append, List.nil_append, bitsVal, List.foldl_cons, List.foldl_nil,
      bit_nat, ix]
    exact cons_byte (by omega) (cons_byte (by omega) rfl)
  | a :: b :: c :: d :: rest =>
    have ih := decG_eq rest (fun c hc => h c (by simp [hc]))
    unfold rfcDecode at ih
    have ha := (lookup_ok (h a (by simp))).2
    have hb := (lookup_ok (h b (by simp))).2
    have hc := (lookup_ok (h c (by simp))).2
    have hd := (lookup_ok (h d (by simp))).2
    simp only [List.flatMap_cons, bits6 (alphabet.idxOf a), bits6 (alphabet.idxOf b),
      bits6 (alphabet.idxOf c), bits6 (alphabet.idxOf d), groups8, List.map_cons,
      decG, List.cons_append, List.nil_append]
    refine cons_byte ?_ (cons_byte ?_ (cons_byte ?_ ih))
    all_goals
      simp only [bitsVal, List.foldl_cons, List.foldl_nil, bit_nat, ix]
      omega

theorem decLoop_eq (cs : List Byte) (s : DecSt) :
    decLoop s (cs.length : Int) cs = (alphabetPrefix cs).foldlM decStep s := by
  induction cs generalizing s with
  | nil => simp [decLoop, decInt, alphabetPrefix]
  | cons c cs ih =>
    have hd : decInt ((c :: cs).length : Int) = .ok (cs.length : Int) := by
      unfold decInt; rw [if_pos (by simp only [List.length_cons]; omega)]
      simp
    unfold decLoop
    rw [hd]
    simp only [R.ok_bind]
    rw [if_pos (by simp only [List.length_cons]; omega), isBase64_iff]
    unfold alphabetPrefix
    rw [List.takeWhile_cons]
    cases hc : alphabet.contains c with
    | false => simp
    | true =>
      have hne : c ≠ 61#8 := by
        intro h; rw [h, eq_not_alphabet] at hc; simp at hc
      rw [if_pos ⟨hne, rfl⟩]
      simp only [if_true, List.foldlM_cons]
      congr 1
      funext s'
      exact ih s'

theorem dec_ok (p : List Byte) (hp : ∀ c ∈ p, alphabet.contains c = true) (c0 c1 c2 c3 : Byte)
    (r : List Byte) :
    (p.foldlM decStep { i := 0, c0 := c0, c1 := c1, c2 := c2, c3 := c3, ret := r } >>= decTail) =
      .ok (r ++ decG p) := by
  match p with
  | [] => simp [decTail, decG]
  | [a] =>
    obtain ⟨ha, -⟩ := lookup_ok (hp a (by simp))
    simp [decStep, DecSt.store, decTail, ha, decG]
  | [a, b] =>
    obtain ⟨ha, la⟩ := lookup_ok (hp a (by simp))
    obtain ⟨hb, lb⟩ := lookup_ok (hp b (by simp))
    have ea : (BitVec.ofNat 8 (alphabet.idxOf a)).toNat = alphabet.idxOf a := uchar_toNat (by omega)
    have eb : (BitVec.ofNat 8 (alphabet.idxOf b)).toNat = alphabet.idxOf b := uchar_toNat (by omega)
    simp only [List.foldlM_cons, List.foldlM_nil, decStep, DecSt.store, R.ok_bind, R.pure_eq]
    simp [decTail, ha, hb, join2, ea, eb, shl2, and_30 lb, decG, ix]
  | [a, b, c] =>
    obtain ⟨ha, la⟩ := lookup_ok (hp a (by simp))
    obtain ⟨hb, lb⟩ := lookup_ok (hp b (by simp))
    obtain ⟨hc, lc⟩ := lookup_ok (hp c (by simp))
    have ea : (BitVec.ofNat 8 (alphabet.idxOf a)).toNat = alphabet.idxOf a := uchar_toNat (by omega)
    have eb : (BitVec.ofNat 8 (alphabet.idxOf b)).toNat = alphabet.idxOf b := uchar_toNat (by omega)
    have ec : (BitVec.ofNat 8 (alphabet.idxOf c)).toNat = alphabet.idxOf c := uchar_toNat (by omega)
    simp only [List.foldlM_cons, List.foldlM_nil, decStep, DecSt.store, R.ok_bind, R.pure_eq]
    simp [decTail, ha, hb, hc,
      join2, ea, eb, ec, shl2, and_30 lb, and_f lb, and_3c lc, decG, ix]
  | a :: b :: c :: d :: rest =>
    obtain ⟨ha, la⟩ := lookup_ok (hp a (by simp))
    obtain ⟨hb, lb⟩ := lookup_ok (hp b (by simp))
    obtain ⟨hc, lc⟩ := lookup_ok (hp c (by simp))
    obtain ⟨hd, ld⟩ := lookup_ok (hp d (by simp))
    have ea : (BitVec.ofNat 8 (alphabet.idxOf a)).toNat = alphabet.idxOf a := uchar_toNat (by omega)
    have eb : (BitVec.ofNat 8 (alphabet.idxOf b)).toNat = alphabet.idxOf b := uchar_toNat (by omega)
    have ec : (BitVec.ofNat 8 (alphabet.idxOf c)).toNat = alphabet.idxOf c := uchar_toNat (by omega)
    have ed : (BitVec.ofNat 8 (alphabet.idxOf d)).toNat = alphabet.idxOf d := uchar_toNat (by omega)
    have ih := dec_ok rest (fun c hc => hp c (by simp [hc])) (BitVec.ofNat 8 (alphabet.idxOf a))
      (BitVec.ofNat 8 (alphabet.idxOf b)) (BitVec.ofNat 8 (alphabet.idxOf c))
      (BitVec.ofNat 8 (alphabet.idxOf d))
      (r ++ [uchar (ix a * 4 + ix b / 16), uchar (ix b % 16 * 16 + ix c / 4), uchar (ix c % 4 * 64 + ix d)])
    have hstep : (a :: b :: c :: d :: rest).foldlM decStep
        { i := 0, c0 := c0, c1 := c1, c2 := c2, c3 := c3, ret := r } =
        rest.foldlM decStep
        { i := 0, c0 := BitVec.ofNat 8 (alphabet.idxOf a), c1 := BitVec.ofNat 8 (alphabet.idxOf b), c2 := BitVec.ofNat 8 (alphabet.idxOf c), c3 := BitVec.ofNat 8 (alphabet.idxOf d), ret := r ++ [uchar (ix a * 4 + ix b / 16), uchar (ix b % 16 * 16 + ix c / 4), uchar (ix c % 4 * 64 + ix d)] } := by
      simp only [List.foldlM_cons, decStep, DecSt.store, R.ok_bind, R.pure_eq]
      simp [ha, hb, hc, hd, join3, ea, eb, ec, ed, shl2, and_30 lb, and_f lb, and_3c lc, and_3 lc, ix]
    rw [hstep, ih]
    simp [decG]

/-! ### round trip -/

theorem prefix_chr {n : Nat} (h : n < 64) (cs : List Byte) :
    alphabetPrefix (chr n :: cs) = chr n :: alphabetPrefix cs := by
  unfold alphabetPrefix; rw [List.takeWhile_cons, chr_mem h]; simp

theorem prefix_pad (cs : List Byte) : alphabetPrefix (61#8 :: cs) = [] := by
  unfold alphabetPrefix; rw [List.takeWhile_cons, eq_not_alphabet]; simp

theorem prefix_all (cs : List Byte) : ∀ c ∈ alphabetPrefix cs, alphabet.contains c = true := by
  intro c hc
  induction cs with
  | nil => simp [alphabetPrefix] at hc
  | cons x xs ih =>
    unfold alphabetPrefix at hc ih
    rw [List.takeWhile_cons] at hc
    cases hx : alphabet.contains x with
    | false => rw [hx] at hc; simp at hc
    | true =>
      simp only [hx, if_true, List.mem_cons] at hc
      rcases hc with rfl | hc
      · exact hx
      · exact ih hc

theorem uchar_self (b : Byte) {n : Nat} (h : n = b.toNat) : uchar n = b := by
  subst h; simp [uchar]

theorem decG_encG (bs : List Byte) : decG (alphabetPrefix (encG bs)) = bs := by
  match bs with
  | [] => rfl
  | [a] =>
    have := a.isLt
    simp only [encG, prefix_chr (by omega : a.toNat / 4 < 64), prefix_chr (by omega : a.toNat % 4 * 16 < 64),
      prefix_pad, decG, ix, chr_idx (by omega : a.toNat / 4 < 64), chr_idx (by omega : a.toNat % 4 * 16 < 64)]
    rw [uchar_self a (by omega)]
  | [a, b] =>
    have := a.isLt
    have := b.isLt
    have h1 : a.toNat / 4 < 64 := by omega
    have h2 : a.toNat % 4 * 16 + b.toNat / 16 < 64 := by omega
    have h3 : b.toNat % 16 * 4 < 64 := by omega
    simp only [encG, prefix_chr h1, prefix_chr h2, prefix_chr h3, prefix_pad, decG, ix, chr_idx h1,
      chr_idx h2, chr_idx h3]
    rw [uchar_self a (by omega), uchar_self b (by omega)]
  | a :: b :: c :: rest =>
    have ih := decG_encG rest
    have := a.isLt
    have := b.isLt
    have := c.isLt
    have h1 : a.toNat / 4 < 64 := by omega
    have h2 : a.toNat % 4 * 16 + b.toNat / 16 < 64 := by omega
    have h3 : b.toNat % 16 * 4 + c.toNat / 64 < 64 := by omega
    have h4 : c.toNat % 64 < 64 := by omega
    simp only [encG, prefix_chr h1, prefix_chr h2, prefix_chr h3, prefix_chr h4, decG, ix, chr_idx h1,
      chr_idx h2, chr_idx h3, chr_idx h4, ih]
    rw [uchar_self a (by omega), uchar_self b (by omega), uchar_self c (by omega)]

theorem encG_length (bs : List Byte) : (encG bs).length = 4 * ((bs.length + 2) / 3) := by
  match bs with
  | [] => rfl
  | [a] => simp [encG]
  | [a, b] => simp [encG]
  | a :: b :: c :: rest =>
    have ih := encG_length rest
    simp only [encG, List.length_cons, ih]; omega

theorem decG_length (cs : List Byte) : (decG cs).length = cs.length * 6 / 8 := by
  match cs with
  | [] => rfl
  | [a] => simp [decG]
  | [a, b] => simp [decG]
  | [a, b, c] => simp [decG]
  | a :: b :: c :: d :: rest =>
    have ih := decG_length rest
    simp only [decG, List.length_cons, ih]; omega

theorem toInt32_small {n : Nat} (h : n < 2 ^ 31) : toInt32 n = (n : Int) := by
  unfold toInt32
  rw [BitVec.toInt_eq_toNat_cond, BitVec.toNat_ofNat, Nat.mod_eq_of_lt (by omega), if_pos (by omega)]

end Verif.Base64
