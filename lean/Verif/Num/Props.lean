import Verif.Num.Lemmas
import Verif.StrView.Props
/-!
# Conversions between integers and text (C48, C49)
-/
namespace Verif.Num
open Verif.StrView (Chr View)
open Spec (IsDigit value IsNumeral IsDecimal IsSpace Denotes DenotesWs)

/-! ### Helpers -/

theorem denotes_decimal {l : List Chr} {x : Int} (h : IsDecimal l x) : DenotesWs l (decide (x < 0)) x.natAbs := by
  rcases h with ⟨h1, h2⟩ | ⟨h1, m, rfl, h2⟩
  · refine ⟨[], l, rfl, (fun _ h => nomatch h), [], l, rfl, Or.inl ⟨rfl, decide_eq_false (by omega)⟩, h2.1, h2.2.1, h2.2.2.2⟩
  · exact ⟨[], _, rfl, (fun _ h => nomatch h), [45#8], m, rfl, Or.inr (Or.inr ⟨rfl, decide_eq_true h1⟩), h2.1, h2.2.1, h2.2.2.2⟩

theorem numeral_no_zero {l : List Chr} {n : Nat} (h : IsNumeral l n) : 0#8 ∉ l := fun e => absurd (h.2.1 _ e) (by decide)

theorem decimal_no_zero {l : List Chr} {x : Int} (h : IsDecimal l x) : 0#8 ∉ l := by
  rcases h with ⟨_, h⟩ | ⟨_, m, rfl, h⟩
  · exact numeral_no_zero h
  · intro e
    rcases List.mem_cons.mp e with e | e
    · exact absurd e (by decide)
    · exact numeral_no_zero h e

/-- The wide overloads on a terminated text. -/
theorem wide_ok (t : IntT) (s rest : List Chr) (h0 : 0#8 ∉ s) :
    (∃ neg n, DenotesWs s neg n ∧ fromCstrWide t (s ++ 0#8 :: rest) =
      .ok (!(if t.signed then clampSigned neg n else clampUnsigned neg n).2,
        t.cast (if t.signed then clampSigned neg n else clampUnsigned neg n).1)) ∨
    ((∀ neg n, ¬ DenotesWs s neg n) ∧ ∃ v, fromCstrWide t (s ++ 0#8 :: rest) = .ok (false, v)) := by
  unfold fromCstrWide
  rcases strtoX_ok s rest h0 with ⟨neg, n, h1, h2⟩ | ⟨h1, h2 | ⟨neg, n, e, tl, h2, h3⟩⟩
  · left
    refine ⟨neg, n, h1, ?_⟩
    rw [h2, R.ok_bind]
    rfl
  · right
    rw [h2, R.ok_bind]
    exact ⟨h1, 0, rfl⟩
  · right
    refine ⟨h1, t.cast (if t.signed then clampSigned neg n else clampUnsigned neg n).1, ?_⟩
    rw [h2, R.ok_bind]
    dsimp only
    rw [rd_cons, R.ok_bind, show (e == 0#8) = false from beq_eq_false_iff_ne.mpr h3]
    rfl

theorem denotes_unique {s : List Chr} {neg neg' : Bool} {n n' : Nat} (h0 : 0#8 ∉ s) (h : DenotesWs s neg n) (h' : DenotesWs s neg' n') :
    neg = neg' ∧ n = n' := by
  have key : ∀ neg n, DenotesWs s neg n → strtoX (s ++ [0#8]) = .ok (some (neg, n, [0#8])) := by
    rintro neg n ⟨ws, m, rfl, hw, sg, ds, rfl, hsg, hd0, hd, rfl⟩
    cases ds with
    | nil => exact absurd rfl hd0
    | cons d ds =>
      have hdd := hd d List.mem_cons_self
      have hrd := readDigits_app (d :: ds) 0#8 [] 0 hd (by decide)
      unfold strtoX
      rcases hsg with ⟨rfl, rfl⟩ | ⟨rfl, rfl⟩ | ⟨rfl, rfl⟩
      · rw [show (ws ++ ([] ++ d :: ds)) ++ [0#8] = ws ++ d :: (ds ++ [0#8]) by simp, skipSpace_app ws d _ hw (digit_not_space hdd), R.ok_bind,
          rd_cons, R.ok_bind]
        dsimp only
        rw [digit_ne hdd 45#8 (by decide), digit_ne hdd 43#8 (by decide)]
        change ((Str.rd (d :: (ds ++ [0#8])) 0) >>= fun _ => _) = _
        rw [rd_cons, R.ok_bind, if_pos ((isDigit_iff d).mpr hdd)]
        change (readDigits ((d :: ds) ++ 0#8 :: []) 0 >>= fun _ => _) = _
        rw [hrd]
        rfl
      · rw [show (ws ++ ([43#8] ++ d :: ds)) ++ [0#8] = ws ++ 43#8 :: (d :: ds ++ [0#8]) by simp, skipSpace_app ws 43#8 _ hw (by decide), R.ok_bind,
          rd_cons, R.ok_bind]
        change ((Str.rd (d :: (ds ++ [0#8])) 0) >>= fun _ => _) = _
        rw [rd_cons, R.ok_bind, if_pos ((isDigit_iff d).mpr hdd)]
        change (readDigits ((d :: ds) ++ 0#8 :: []) 0 >>= fun _ => _) = _
        rw [hrd]
        rfl
      · rw [show (ws ++ ([45#8] ++ d :: ds)) ++ [0#8] = ws ++ 45#8 :: (d :: ds ++ [0#8]) by simp, skipSpace_app ws 45#8 _ hw (by decide), R.ok_bind,
          rd_cons, R.ok_bind]
        change ((Str.rd (d :: (ds ++ [0#8])) 0) >>= fun _ => _) = _
        rw [rd_cons, R.ok_bind, if_pos ((isDigit_iff d).mpr hdd)]
        change (readDigits ((d :: ds) ++ 0#8 :: []) 0 >>= fun _ => _) = _
        rw [hrd]
        rfl
  have h1 := key neg n h
  rw [key neg' n' h'] at h1
  injection h1 with h1
  injection h1 with h1
  injection h1 with h2 h3
  injection h3 with h3 h4
  exact ⟨h2.symm, h3.symm⟩

/-- The types `from_string` has overloads for. -/
def IntT.parsed (t : IntT) : Prop := t ≠ .ill ∧ t ≠ .ull

/-- The numbers on which the code's way through 64 and 32 bits is exact. -/
def Exact (t : IntT) (neg : Bool) (n : Nat) : Prop :=
  match t with
  | .i64 | .ill => True
  | .i8 | .i16 | .i32 => -2 ^ 31 ≤ Spec.signed neg n ∧ Spec.signed neg n < 2 ^ 31
  | .u64 | .ull => neg = false
  | .u8 | .u16 | .u32 => neg = false ∧ n < 2 ^ 32

theorem cast_signed {t : IntT} (ht : t.signed = true) {x : Int} (h : t.InRange x) : t.cast x = x := by
  unfold IntT.InRange at h
  unfold IntT.cast
  rw [if_pos ht] at h ⊢
  cases t <;> first | cases ht | skip
  all_goals
    unfold IntT.bits at h ⊢
    dsimp only at h ⊢
    rw [Int.bmod_eq_of_le] <;> omega

theorem cast_unsigned {t : IntT} (ht : t.signed = false) {x : Int} (h : t.InRange x) : t.cast x = x := by
  unfold IntT.InRange at h
  unfold IntT.cast
  rw [if_neg (by rw [ht]; decide)] at h ⊢
  exact Int.emod_eq_of_lt h.1 h.2

theorem cast_inRange (t : IntT) (x : Int) : t.InRange (t.cast x) := by
  unfold IntT.InRange IntT.cast
  cases t
  all_goals
    simp only [IntT.signed, IntT.bits, if_true, Bool.false_eq_true, if_false]
  all_goals
    first
    | (constructor
       · exact Int.emod_nonneg _ (by decide)
       · exact Int.emod_lt_of_pos _ (by decide))
    | (have h1 := @Int.le_bmod x (2 ^ 8) (by decide)
       have h2 := @Int.bmod_lt x (2 ^ 8) (by decide)
       omega)
    | (have h1 := @Int.le_bmod x (2 ^ 16) (by decide)
       have h2 := @Int.bmod_lt x (2 ^ 16) (by decide)
       omega)
    | (have h1 := @Int.le_bmod x (2 ^ 32) (by decide)
       have h2 := @Int.bmod_lt x (2 ^ 32) (by decide)
       omega)
    | (have h1 := @Int.le_bmod x (2 ^ 64) (by decide)
       have h2 := @Int.bmod_lt x (2 ^ 64) (by decide)
       omega)

theorem clampSigned_in {neg : Bool} {n : Nat} (h1 : -2 ^ 63 ≤ Spec.signed neg n) (h2 : Spec.signed neg n < 2 ^ 63) :
    clampSigned neg n = (Spec.signed neg n, false) := by
  unfold Spec.signed at *
  unfold clampSigned
  cases neg
  · simp only [Bool.false_eq_true, if_false] at *
    rw [if_pos (by omega)]
  · simp only [if_true] at *
    rw [if_pos (by omega)]

theorem clampSigned_out {neg : Bool} {n : Nat} (h : ¬ (-2 ^ 63 ≤ Spec.signed neg n ∧ Spec.signed neg n < 2 ^ 63)) :
    (clampSigned neg n).2 = true := by
  unfold Spec.signed at h
  unfold clampSigned
  cases neg
  · simp only [Bool.false_eq_true, if_false] at *
    rw [if_neg (by omega)]
  · simp only [if_true] at *
    rw [if_neg (by omega)]

theorem clampUnsigned_in {neg : Bool} {n : Nat} (h1 : 0 ≤ Spec.signed neg n) (h2 : Spec.signed neg n < 2 ^ 64) :
    clampUnsigned neg n = (Spec.signed neg n, false) := by
  unfold Spec.signed at *
  unfold clampUnsigned
  cases neg
  · simp only [Bool.false_eq_true, if_false] at *
    rw [if_pos (by omega)]
  · simp only [if_true] at *
    have : n = 0 := by omega
    subst this
    rfl

theorem clampUnsigned_out {n : Nat} (h : ¬ n < 2 ^ 64) : (clampUnsigned false n).2 = true := by
  unfold clampUnsigned
  rw [if_neg h]

/-- `i32` and `i64`. -/
theorem wide_signed {t : IntT} (ht : t = .i32 ∨ t = .i64) (s rest : List Chr) (h0 : 0#8 ∉ s) :
    ∃ b v, fromCstrWide t (s ++ 0#8 :: rest) = .ok (b, v) ∧
      (b = true → ∃ neg n, DenotesWs s neg n ∧ (Exact t neg n → v = Spec.signed neg n)) ∧
      (b = true → t = .i64 → t.InRange v) ∧
      (∀ neg n, DenotesWs s neg n → t.InRange (Spec.signed neg n) → b = true ∧ v = Spec.signed neg n) := by
  have hts : t.signed = true := by rcases ht with rfl | rfl <;> rfl
  have h64 : ∀ x, t.InRange x → -2 ^ 63 ≤ x ∧ x < 2 ^ 63 := by
    intro x hx
    rcases ht with rfl | rfl
    · unfold IntT.InRange at hx
      simp only [IntT.signed, IntT.bits, if_true] at hx
      omega
    · unfold IntT.InRange at hx
      simp only [IntT.signed, IntT.bits, if_true] at hx
      exact hx
  rcases wide_ok t s rest h0 with ⟨neg, n, h1, h2⟩ | ⟨h1, v, h2⟩
  · rw [hts] at h2
    simp only [if_true] at h2
    refine ⟨_, _, h2, fun hb => ⟨neg, n, h1, fun he => ?_⟩, fun hb _ => cast_inRange t _, fun neg' n' hd hr => ?_⟩
    · by_cases hin : -2 ^ 63 ≤ Spec.signed neg n ∧ Spec.signed neg n < 2 ^ 63
      · rw [clampSigned_in hin.1 hin.2]
        refine cast_signed hts ?_
        rcases ht with rfl | rfl
        · exact he
        · exact hin
      · rw [clampSigned_out hin] at hb; cases hb
    · obtain ⟨rfl, rfl⟩ := denotes_unique h0 h1 hd
      have := h64 _ hr
      rw [clampSigned_in this.1 this.2]
      exact ⟨rfl, cast_signed hts hr⟩
  · exact ⟨false, v, h2, (fun h => nomatch h), (fun h => nomatch h), fun neg n hd => absurd hd (h1 neg n)⟩

/-- `u32` and `u64`. -/
theorem wide_unsigned {t : IntT} (ht : t = .u32 ∨ t = .u64) (s rest : List Chr) (h0 : 0#8 ∉ s) :
    ∃ b v, fromCstrWide t (s ++ 0#8 :: rest) = .ok (b, v) ∧
      (b = true → ∃ neg n, DenotesWs s neg n ∧ (Exact t neg n → v = Spec.signed neg n)) ∧
      (∀ neg n, DenotesWs s neg n → t.InRange (Spec.signed neg n) → b = true ∧ v = Spec.signed neg n) := by
  have hts : t.signed = false := by rcases ht with rfl | rfl <;> rfl
  have h64 : ∀ x, t.InRange x → 0 ≤ x ∧ x < 2 ^ 64 := by
    intro x hx
    rcases ht with rfl | rfl
    · unfold IntT.InRange at hx
      simp only [IntT.signed, IntT.bits, Bool.false_eq_true, if_false] at hx
      omega
    · unfold IntT.InRange at hx
      simp only [IntT.signed, IntT.bits, Bool.false_eq_true, if_false] at hx
      exact hx
  rcases wide_ok t s rest h0 with ⟨neg, n, h1, h2⟩ | ⟨h1, v, h2⟩
  · rw [hts] at h2
    simp only [Bool.false_eq_true, if_false] at h2
    refine ⟨_, _, h2, fun hb => ⟨neg, n, h1, fun he => ?_⟩, fun neg' n' hd hr => ?_⟩
    · have hneg : neg = false := by
        rcases ht with rfl | rfl
        · exact he.1
        · exact he
      subst hneg
      by_cases hin : n < 2 ^ 64
      · rw [clampUnsigned_in (by unfold Spec.signed; simp) (by unfold Spec.signed; simp only [Bool.false_eq_true, if_false]; omega)]
        refine cast_unsigned hts ?_
        unfold IntT.InRange
        rw [if_neg (by rw [hts]; decide)]
        unfold Spec.signed
        simp only [Bool.false_eq_true, if_false]
        rcases ht with rfl | rfl
        · have := he.2
          simp only [IntT.bits]
          omega
        · simp only [IntT.bits]
          omega
      · rw [clampUnsigned_out hin] at hb; cases hb
    · obtain ⟨rfl, rfl⟩ := denotes_unique h0 h1 hd
      have := h64 _ hr
      rw [clampUnsigned_in this.1 this.2]
      exact ⟨rfl, cast_unsigned hts hr⟩
  · exact ⟨false, v, h2, (fun h => nomatch h), fun neg n hd => absurd hd (h1 neg n)⟩

theorem inRange_mono {t w : IntT} (h : (w = .i32 ∧ (t = .i8 ∨ t = .i16)) ∨ (w = .u32 ∧ (t = .u8 ∨ t = .u16))) {x : Int} (hx : t.InRange x) :
    w.InRange x := by
  unfold IntT.InRange at *
  rcases h with ⟨rfl, rfl | rfl⟩ | ⟨rfl, rfl | rfl⟩
  all_goals
    simp only [IntT.signed, IntT.bits, if_true, Bool.false_eq_true, if_false] at *
    omega

/-- C49, and what is needed for C48: on a zero-terminated text `s`, the overload for type `t` returns; it succeeds on every text
that is white space, an optional sign and digits for a number representable in `t`, with that number; and it succeeds only on
such texts, with a number representable in `t`, as far as the number is one on which the code's way through 64 and 32 bits is exact.
Partial: for other numbers see `C49_wide_number_accepted` and `C49_negative_accepted`; white space before the number is
accepted. -/
theorem C49_c_str_partial (t : IntT) (ht : t.parsed) (s rest : List Chr) (h0 : 0#8 ∉ s) :
    ∃ b v, fromCstr t (s ++ 0#8 :: rest) = .ok (b, v) ∧
      (b = true → t.InRange v ∧ ∃ neg n, DenotesWs s neg n ∧ (Exact t neg n → v = Spec.signed neg n)) ∧
      (∀ neg n, DenotesWs s neg n → t.InRange (Spec.signed neg n) → b = true ∧ v = Spec.signed neg n) := by
  have small : ∀ w : IntT, ((w = .i32 ∧ (t = .i8 ∨ t = .i16)) ∨ (w = .u32 ∧ (t = .u8 ∨ t = .u16))) →
      (∃ b v, fromCstrWide w (s ++ 0#8 :: rest) = .ok (b, v) ∧
      (b = true → ∃ neg n, DenotesWs s neg n ∧ (Exact w neg n → v = Spec.signed neg n)) ∧
      (∀ neg n, DenotesWs s neg n → w.InRange (Spec.signed neg n) → b = true ∧ v = Spec.signed neg n)) →
      ∃ b v, (do let (ok, full) ← fromCstrWide w (s ++ 0#8 :: rest)
                 pure (ok && full == t.cast full, t.cast full) : R (Bool × Int)) = .ok (b, v) ∧
      (b = true → t.InRange v ∧ ∃ neg n, DenotesWs s neg n ∧ (Exact t neg n → v = Spec.signed neg n)) ∧
      (∀ neg n, DenotesWs s neg n → t.InRange (Spec.signed neg n) → b = true ∧ v = Spec.signed neg n) := by
    rintro w hw ⟨b, v, h1, h2, h3⟩
    rw [h1, R.ok_bind]
    refine ⟨_, _, rfl, fun hb => ⟨cast_inRange t v, ?_⟩, fun neg n hd hr => ?_⟩
    · rw [Bool.and_eq_true, beq_iff_eq] at hb
      obtain ⟨neg, n, hd, he⟩ := h2 hb.1
      refine ⟨neg, n, hd, fun hex => ?_⟩
      rw [← hb.2]
      refine he ?_
      rcases hw with ⟨rfl, rfl | rfl⟩ | ⟨rfl, rfl | rfl⟩ <;> exact hex
    · obtain ⟨e1, e2⟩ := h3 neg n hd (inRange_mono hw hr)
      have hc : t.cast v = v := by
        rw [e2]
        rcases hw with ⟨_, rfl | rfl⟩ | ⟨_, rfl | rfl⟩
        · exact cast_signed rfl hr
        · exact cast_signed rfl hr
        · exact cast_unsigned rfl hr
        · exact cast_unsigned rfl hr
      rw [hc]
      exact ⟨by rw [e1, Bool.true_and]; exact beq_self_eq_true v, e2⟩
  have wide : ∀ w : IntT, (∃ b v, fromCstrWide w (s ++ 0#8 :: rest) = .ok (b, v) ∧
      (b = true → ∃ neg n, DenotesWs s neg n ∧ (Exact w neg n → v = Spec.signed neg n)) ∧
      (∀ neg n, DenotesWs s neg n → w.InRange (Spec.signed neg n) → b = true ∧ v = Spec.signed neg n)) →
      ∃ b v, fromCstrWide w (s ++ 0#8 :: rest) = .ok (b, v) ∧
      (b = true → w.InRange v ∧ ∃ neg n, DenotesWs s neg n ∧ (Exact w neg n → v = Spec.signed neg n)) ∧
      (∀ neg n, DenotesWs s neg n → w.InRange (Spec.signed neg n) → b = true ∧ v = Spec.signed neg n) := by
    rintro w ⟨b, v, h1, h2, h3⟩
    refine ⟨b, v, h1, fun hb => ⟨?_, h2 hb⟩, h3⟩
    rcases wide_ok w s rest h0 with ⟨neg, n, _, e⟩ | ⟨_, v', e⟩
    · rw [e] at h1
      have := congrArg Prod.snd (Except.ok.inj h1)
      dsimp only at this
      rw [← this]
      exact cast_inRange _ _
    · rw [e] at h1
      have := congrArg Prod.fst (Except.ok.inj h1)
      dsimp only at this
      rw [hb] at this
      cases this
  have sg : ∀ w : IntT, w = .i32 ∨ w = .i64 → (∃ b v, fromCstrWide w (s ++ 0#8 :: rest) = .ok (b, v) ∧
      (b = true → ∃ neg n, DenotesWs s neg n ∧ (Exact w neg n → v = Spec.signed neg n)) ∧
      (∀ neg n, DenotesWs s neg n → w.InRange (Spec.signed neg n) → b = true ∧ v = Spec.signed neg n)) := by
    intro w hw
    obtain ⟨b, v, h1, h2, _, h3⟩ := wide_signed hw s rest h0
    exact ⟨b, v, h1, h2, h3⟩
  cases t with
  | i8 => exact small .i32 (Or.inl ⟨rfl, Or.inl rfl⟩) (sg _ (Or.inl rfl))
  | i16 => exact small .i32 (Or.inl ⟨rfl, Or.inr rfl⟩) (sg _ (Or.inl rfl))
  | i32 => exact wide .i32 (sg _ (Or.inl rfl))
  | i64 => exact wide .i64 (sg _ (Or.inr rfl))
  | ill => exact absurd rfl ht.1
  | u8 => exact small .u32 (Or.inr ⟨rfl, Or.inl rfl⟩) (wide_unsigned (Or.inl rfl) s rest h0)
  | u16 => exact small .u32 (Or.inr ⟨rfl, Or.inr rfl⟩) (wide_unsigned (Or.inl rfl) s rest h0)
  | u32 => exact wide .u32 (wide_unsigned (Or.inl rfl) s rest h0)
  | u64 => exact wide .u64 (wide_unsigned (Or.inr rfl) s rest h0)
  | ull => exact absurd rfl ht.2

/-- C49 for `int64_t`: success exactly on the texts (after white space) of representable numbers. -/
theorem C49_int64 (s rest : List Chr) (h0 : 0#8 ∉ s) :
    ∃ b v, fromCstr .i64 (s ++ 0#8 :: rest) = .ok (b, v) ∧
      (b = true ↔ ∃ neg n, DenotesWs s neg n ∧ IntT.i64.InRange (Spec.signed neg n) ∧ v = Spec.signed neg n) := by
  obtain ⟨b, v, h1, h2, h3⟩ := C49_c_str_partial .i64 (by unfold IntT.parsed; decide) s rest h0
  refine ⟨b, v, h1, fun hb => ?_, ?_⟩
  · obtain ⟨hr, neg, n, hd, he⟩ := h2 hb
    have := he trivial
    exact ⟨neg, n, hd, by rw [← this]; exact hr, this⟩
  · rintro ⟨neg, n, hd, hr, _⟩
    exact (h3 neg n hd hr).1

theorem printS_app (l : List Chr) (r : List Chr) (h : 0#8 ∉ l) : printS l.length (l ++ r) = .ok l := by
  induction l with
  | nil => rfl
  | cons c t ih =>
    rw [List.length_cons, List.cons_append, printS, if_neg (fun e => h (by rw [e]; exact List.mem_cons_self)),
      ih fun e => h (List.mem_cons_of_mem _ e)]
    rfl

/-- C49: the overload for views does the same as the one for zero-terminated texts, for views of less than 256
characters none of which is zero. -/
theorem C49_view_partial (t : IntT) (v : View) (hv : v.Inside) (hz : 0#8 ∉ v.chars) (hl : v.size < 256) :
    fromView t v = fromCstr t (v.chars ++ [0#8]) := by
  unfold fromView
  dsimp only
  have hlen : v.chars.length = v.size := StrView.chars_length hv
  have hs : v.size % 2 ^ 32 = v.size := Nat.mod_eq_of_lt (by omega)
  have hmem : v.mem.drop v.off = v.chars ++ (v.mem.drop v.off).drop v.size := by
    unfold View.chars
    exact (List.take_append_drop ..).symm
  rw [hs, if_pos (by omega), hmem]
  conv => lhs; rw [← hlen]
  rw [printS_app _ _ hz, R.ok_bind, List.take_of_length_le (by omega)]

theorem printS_take : ∀ (n : Nat) (mem : List Chr), n ≤ mem.length → printS n mem = .ok ((mem.take n).takeWhile (· ≠ 0#8))
  | 0, _, _ => rfl
  | n + 1, [], h => by simp at h
  | n + 1, c :: t, h => by
    have ih := printS_take n t (by simpa using h)
    rw [printS, List.take_succ_cons]
    by_cases e : c = 0#8
    · rw [if_pos e, List.takeWhile_cons_of_neg (by simp [e])]; rfl
    · rw [if_neg e, ih, List.takeWhile_cons_of_pos (by simp [e])]; rfl

theorem printSAll_none : ∀ (mem : List Chr), 0#8 ∉ mem → printSAll mem = .error .ub
  | [], _ => rfl
  | c :: t, h => by
    rw [printSAll, if_neg (fun e => h (by rw [e]; exact List.mem_cons_self)), printSAll_none t fun e => h (List.mem_cons_of_mem _ e)]
    rfl

/-- C49, what the overload for views does with every view: it reads the number in front of the first zero character, of the first 255 characters, and
never behind the view if its size modulo 2³² is below 2³¹. -/
theorem C49_view_exact_partial (t : IntT) (v : View) (hv : v.Inside) (hs : v.size % 2 ^ 32 < 2 ^ 31) :
    fromView t v = fromCstr t ((((v.chars.take (v.size % 2 ^ 32)).takeWhile (· ≠ 0#8)).take 255) ++ [0#8]) := by
  unfold fromView
  dsimp only
  have hlen : v.chars.length = v.size := StrView.chars_length hv
  have hle : v.size % 2 ^ 32 ≤ v.size := Nat.mod_le ..
  have hm : v.size ≤ (v.mem.drop v.off).length := by
    have : v.chars = (v.mem.drop v.off).take v.size := rfl
    rw [this, List.length_take] at hlen
    omega
  rw [if_pos hs, printS_take _ _ (by omega), R.ok_bind]
  have : (v.mem.drop v.off).take (v.size % 2 ^ 32) = v.chars.take (v.size % 2 ^ 32) := by
    change _ = ((v.mem.drop v.off).take v.size).take _
    rw [List.take_take, Nat.min_eq_left hle]
  rw [this]

/-- C49 fails: a view whose size modulo 2³² is 2³¹ or more is read up to a zero character, wherever that is; without one, reading leaves the memory. -/
theorem C49_huge_view (t : IntT) (v : View) (hs : 2 ^ 31 ≤ v.size % 2 ^ 32) (hz : 0#8 ∉ v.mem.drop v.off) : fromView t v = .error .ub := by
  unfold fromView
  dsimp only
  rw [if_neg (by omega), printSAll_none _ hz, R.error_bind]

/-- C48: every value of every integer type is printed as its usual decimal form, within the buffer; and reading it back, as a
zero-terminated text or as a view, gives the value. -/
theorem C48_round_trip (t : IntT) (x : Int) (hx : t.InRange x) :
    ∃ l, toStr t x = .ok l ∧ IsDecimal l x ∧
      (t.parsed → (∀ rest, fromCstr t (l ++ 0#8 :: rest) = .ok (true, x)) ∧
        ∀ v : View, v.Inside → v.chars = l → fromView t v = .ok (true, x)) := by
  have hd := decimal_ok x
  have hlen : (decimal x).length ≤ t.buffer - 1 := by
    rcases hd with ⟨h1, h2⟩ | ⟨h1, m, e, h2⟩
    · cases t
      all_goals
        unfold IntT.InRange at hx
        simp only [IntT.signed, IntT.bits, if_true, Bool.false_eq_true, if_false] at hx
        simp only [IntT.buffer]
      · have := numeral_length (k := 3) h2 (by decide) (by omega); omega
      · have := numeral_length (k := 5) h2 (by decide) (by omega); omega
      · have := numeral_length (k := 10) h2 (by decide) (by omega); omega
      · have := numeral_length (k := 19) h2 (by decide) (by omega); omega
      · have := numeral_length (k := 19) h2 (by decide) (by omega); omega
      · have := numeral_length (k := 3) h2 (by decide) (by omega); omega
      · have := numeral_length (k := 5) h2 (by decide) (by omega); omega
      · have := numeral_length (k := 10) h2 (by decide) (by omega); omega
      · have := numeral_length (k := 20) h2 (by decide) (by omega); omega
      · have := numeral_length (k := 20) h2 (by decide) (by omega); omega
    · rw [e, List.length_cons]
      cases t
      all_goals
        unfold IntT.InRange at hx
        simp only [IntT.signed, IntT.bits, if_true, Bool.false_eq_true, if_false] at hx
        simp only [IntT.buffer]
      · have := numeral_length (k := 3) h2 (by decide) (by omega); omega
      · have := numeral_length (k := 5) h2 (by decide) (by omega); omega
      · have := numeral_length (k := 10) h2 (by decide) (by omega); omega
      · have := numeral_length (k := 19) h2 (by decide) (by omega); omega
      · have := numeral_length (k := 19) h2 (by decide) (by omega); omega
      all_goals omega
  have hnz := decimal_no_zero hd
  have hst : toStr t x = .ok (decimal x) := by
    unfold toStr viaBuffer Str.slice
    rw [List.take_of_length_le hlen, if_pos (by rw [List.length_append]; simp), List.drop_zero, List.take_left' rfl]
    rfl
  have hc : t.parsed → ∀ rest, fromCstr t (decimal x ++ 0#8 :: rest) = .ok (true, x) := by
    intro hp rest
    obtain ⟨b, v, h1, _, h3⟩ := C49_c_str_partial t hp (decimal x) rest hnz
    have hsg : Spec.signed (decide (x < 0)) x.natAbs = x := by
      unfold Spec.signed
      by_cases e : x < 0
      · rw [decide_eq_true e, if_pos rfl]; omega
      · rw [decide_eq_false e, if_neg (by decide)]; omega
    obtain ⟨e1, e2⟩ := h3 _ _ (denotes_decimal hd) (by rw [hsg]; exact hx)
    rw [h1, e1, e2, hsg]
  refine ⟨decimal x, hst, hd, fun hp => ⟨hc hp, fun v hv he => ?_⟩⟩
  have hb : t.buffer ≤ 21 := by cases t <;> decide
  rw [C49_view_partial t v hv (by rw [he]; exact hnz) (by rw [← StrView.chars_length hv, he]; omega), he]
  exact hc hp []

/-- C48: the usual decimal form of a number is unique. -/
theorem C48_decimal_unique (l l' : List Chr) (x : Int) (h : IsDecimal l x) (h' : IsDecimal l' x) : l = l' := by
  have dig : ∀ c d : Chr, IsDigit c → IsDigit d → c.toNat - 48 = d.toNat - 48 → c = d := by
    intro c d hc hd e
    have h1 := hc.1
    have h2 := hd.1
    exact BitVec.eq_of_toNat_eq (by omega)
  -- digit sequences of the same length and value are equal
  have same : ∀ (a b : List Chr), a.length = b.length → (∀ c ∈ a, IsDigit c) → (∀ c ∈ b, IsDigit c) → value 0 a = value 0 b → a = b := by
    intro a
    induction a with
    | nil =>
      intro b hl _ _ _
      exact (List.length_eq_zero_iff.mp hl.symm).symm
    | cons c a ih =>
      intro b hl ha hb hv
      cases b with
      | nil => cases hl
      | cons d b =>
        rw [List.length_cons, List.length_cons] at hl
        have hl : a.length = b.length := by omega
        rw [value_cons, value_cons, value_acc, value_acc (10 * 0 + _) b, hl] at hv
        have lt : ∀ (m : List Chr), (∀ c ∈ m, IsDigit c) → value 0 m < 10 ^ m.length := by
          intro m
          induction m with
          | nil => intro _; rw [value_nil]; decide
          | cons x m ihm =>
            intro hm
            have h1 := ihm fun y hy => hm y (List.mem_cons_of_mem _ hy)
            have h2 := hm x List.mem_cons_self
            rw [value_cons, value_acc, List.length_cons, Nat.pow_succ]
            have h3 : 10 * 0 + (x.toNat - 48) ≤ 9 := by
              have := h2.2
              omega
            have : (10 * 0 + (x.toNat - 48)) * 10 ^ m.length ≤ 9 * 10 ^ m.length := Nat.mul_le_mul_right _ h3
            omega
        have la := lt a fun y hy => ha y (List.mem_cons_of_mem _ hy)
        have lb := lt b fun y hy => hb y (List.mem_cons_of_mem _ hy)
        rw [hl] at la
        generalize 10 ^ b.length = P at hv la lb
        have hz1 : 10 * 0 + (c.toNat - 48) = c.toNat - 48 := by omega
        have hz2 : 10 * 0 + (d.toNat - 48) = d.toNat - 48 := by omega
        rw [hz1, hz2] at hv
        have hq : c.toNat - 48 = d.toNat - 48 := by
          have h1 : ((c.toNat - 48) * P + value 0 a) / P = c.toNat - 48 := by
            rw [Nat.mul_comm, Nat.mul_add_div (by omega), Nat.div_eq_of_lt la, Nat.add_zero]
          have h2 : ((d.toNat - 48) * P + value 0 b) / P = d.toNat - 48 := by
            rw [Nat.mul_comm, Nat.mul_add_div (by omega), Nat.div_eq_of_lt lb, Nat.add_zero]
          rw [← h1, ← h2, hv]
        rw [hq] at hv
        rw [dig c d (ha c List.mem_cons_self) (hb d List.mem_cons_self) hq,
          ih b hl (fun y hy => ha y (List.mem_cons_of_mem _ hy)) (fun y hy => hb y (List.mem_cons_of_mem _ hy)) (by omega)]
  have num : ∀ (a b : List Chr) (n : Nat), IsNumeral a n → IsNumeral b n → a = b := by
    intro a b n ha hb
    have hle : ∀ (a b : List Chr), IsNumeral a n → IsNumeral b n → a.length ≤ b.length := by
      intro a b ha hb
      have hp := List.length_pos_iff.mpr hb.1
      refine numeral_length ha hp ?_
      have lt : ∀ (m : List Chr), (∀ c ∈ m, IsDigit c) → value 0 m < 10 ^ m.length := by
        intro m
        induction m with
        | nil => intro _; rw [value_nil]; decide
        | cons x m ihm =>
          intro hm
          have h1 := ihm fun y hy => hm y (List.mem_cons_of_mem _ hy)
          have h2 := hm x List.mem_cons_self
          rw [value_cons, value_acc, List.length_cons, Nat.pow_succ]
          have h3 : 10 * 0 + (x.toNat - 48) ≤ 9 := by
            have := h2.2
            omega
          have : (10 * 0 + (x.toNat - 48)) * 10 ^ m.length ≤ 9 * 10 ^ m.length := Nat.mul_le_mul_right _ h3
          omega
      rw [← hb.2.2.2]
      exact lt b hb.2.1
    refine same a b (Nat.le_antisymm (hle a b ha hb) (hle b a hb ha)) ha.2.1 hb.2.1 ?_
    rw [ha.2.2.2, hb.2.2.2]
  rcases h with ⟨h1, h2⟩ | ⟨h1, m, rfl, h2⟩
  · rcases h' with ⟨_, h3⟩ | ⟨h3, _⟩
    · exact num l l' _ h2 h3
    · omega
  · rcases h' with ⟨h3, _⟩ | ⟨_, m', rfl, h3⟩
    · omega
    · rw [num m m' _ h2 h3]

/-- C48: characters, truth values and bytes survive the round trip, too. -/
theorem C48_char (c : Chr) : charFrom ⟨charToStr c, 0, (charToStr c).length⟩ = .ok (some c) := rfl

theorem C48_bool (b : Bool) : boolFrom ⟨boolToStr b, 0, (boolToStr b).length⟩ = .ok (some b) := by cases b <;> decide +kernel

theorem C48_byte : ∀ b : BitVec 8, (byteToStr b >>= fun l => byteFrom ⟨l, 0, l.length⟩) = .ok (some b) := by decide +kernel

/-- C48: a byte is printed as exactly two hexadecimal digits in capitals, the more significant one first. -/
theorem C48_byte_digits (b : BitVec 8) : ∃ c0 c1 d0 d1, byteToStr b = .ok [c0, c1] ∧ Spec.HexDigit c0 d0 ∧ Spec.HexDigit c1 d1 ∧
    Spec.NotSmall c0 ∧ Spec.NotSmall c1 ∧ 16 * d0 + d1 = b.toNat := by
  have digit : ∀ d : Fin 16, ∃ c, Str.rd hexTable d.val = .ok c ∧ (Spec.HexDigit c d.val ∧ Spec.NotSmall c) := by
    intro d
    have : ∀ d : Fin 16, Str.rd hexTable d.val = .ok (hexTable[d.val]?.getD 0#8) ∧
        ((d.val < 10 ∧ (hexTable[d.val]?.getD 0#8).toNat = 48 + d.val) ∨
          (10 ≤ d.val ∧ (hexTable[d.val]?.getD 0#8).toNat = 65 + (d.val - 10))) := by decide +kernel
    obtain ⟨e, h⟩ := this d
    refine ⟨_, e, ?_, ?_⟩
    · rcases h with h | h
      · exact Or.inl h
      · exact Or.inr ⟨h.1, d.isLt, Or.inl h.2⟩
    · unfold Spec.NotSmall
      have := d.isLt
      omega
  have hb := b.isLt
  obtain ⟨c0, e0, h0⟩ := digit ⟨b.toNat / 16, by omega⟩
  obtain ⟨c1, e1, h1⟩ := digit ⟨b.toNat % 16, by omega⟩
  refine ⟨c0, c1, b.toNat / 16, b.toNat % 16, ?_, h0.1, h1.1, h0.2, h1.2, by omega⟩
  unfold byteToStr
  rw [e0, R.ok_bind, e1]
  rfl

theorem hexFromChar_spec (c : Chr) : (hexFromChar c = -1 ∧ ∀ d, ¬ Spec.HexDigit c d) ∨ ∃ d : Nat, d < 16 ∧ hexFromChar c = (d : Int) ∧ Spec.HexDigit c d := by
  have hc := c.isLt
  have hi : c.toInt = if c.toNat < 128 then (c.toNat : Int) else (c.toNat : Int) - 256 := by
    rw [BitVec.toInt_eq_toNat_cond]
    split <;> split <;> omega
  unfold hexFromChar Spec.HexDigit
  generalize c.toInt = i at *
  generalize c.toNat = n at *
  by_cases h1 : 48 ≤ i ∧ i ≤ 57
  · rw [if_pos h1]
    refine Or.inr ⟨n - 48, ?_⟩
    split at hi <;> omega
  · rw [if_neg h1]
    by_cases h2 : 97 ≤ i ∧ i ≤ 102
    · rw [if_pos h2]
      refine Or.inr ⟨n - 87, ?_⟩
      split at hi <;> omega
    · rw [if_neg h2]
      by_cases h3 : 65 ≤ i ∧ i ≤ 70
      · rw [if_pos h3]
        refine Or.inr ⟨n - 55, ?_⟩
        split at hi <;> omega
      · rw [if_neg h3]
        refine Or.inl ⟨rfl, fun d hd => ?_⟩
        split at hi <;> omega

theorem hexDigit_unique {c : Chr} {d d' : Nat} (h : Spec.HexDigit c d) (h' : Spec.HexDigit c d') : d = d' := by
  unfold Spec.HexDigit at h h'
  omega

theorem at_ok {v : View} (hv : v.Inside) {i : Nat} {c : Chr} (hc : v.chars[i]? = some c) : v.at i = .ok c := by
  have hi : i < v.size := by
    have := (List.getElem?_eq_some_iff.mp hc).1
    rwa [StrView.chars_length hv] at this
  unfold View.at
  rw [ccAssert_true (by simpa using hi), R.ok_bind, StrView.rd_of_get hv hc]

/-- C49: a byte is read from exactly the texts of two hexadecimal digits, in capital or small letters. -/
theorem C49_byte (v : View) (hv : v.Inside) : ∃ r, byteFrom v = .ok r ∧ ∀ b, r = some b ↔
    ∃ c0 c1 d0 d1, v.chars = [c0, c1] ∧ Spec.HexDigit c0 d0 ∧ Spec.HexDigit c1 d1 ∧ 16 * d0 + d1 = b.toNat := by
  unfold byteFrom
  have hl := StrView.chars_length hv
  by_cases e : v.size = 2
  · rw [if_neg (by simpa using e)]
    obtain ⟨c0, c1, hc⟩ : ∃ c0 c1, v.chars = [c0, c1] := by
      rw [e] at hl
      rcases hh : v.chars with _ | ⟨a, _ | ⟨b, _ | ⟨c, t⟩⟩⟩ <;> rw [hh] at hl <;> simp at hl
      exact ⟨a, b, rfl⟩
    rw [at_ok hv (i := 0) (c := c0) (by rw [hc]; rfl), R.ok_bind, at_ok hv (i := 1) (c := c1) (by rw [hc]; rfl), R.ok_bind]
    dsimp only
    have inj : ∀ {a b : Chr}, v.chars = [a, b] → a = c0 ∧ b = c1 := by
      intro a b h
      rw [hc] at h
      injection h with h1 h2
      injection h2 with h2
      exact ⟨h1.symm, h2.symm⟩
    rcases hexFromChar_spec c0 with ⟨h0, n0⟩ | ⟨d0, l0, h0, s0⟩
    · rw [if_pos (Or.inl h0)]
      refine ⟨none, rfl, fun b => ⟨fun h => (nomatch h), ?_⟩⟩
      rintro ⟨a, a', d, d', h, hd, _⟩
      exact absurd ((inj h).1 ▸ hd) (n0 d)
    · rcases hexFromChar_spec c1 with ⟨h1, n1⟩ | ⟨d1, l1, h1, s1⟩
      · rw [if_pos (Or.inr h1)]
        refine ⟨none, rfl, fun b => ⟨fun h => (nomatch h), ?_⟩⟩
        rintro ⟨a, a', d, d', h, _, hd, _⟩
        exact absurd ((inj h).2 ▸ hd) (n1 d')
      · rw [if_neg (by omega), h0, h1]
        have hv8 : (BitVec.ofInt 8 ((d0 : Int) * 16 + d1)).toNat = 16 * d0 + d1 := by
          rw [BitVec.toNat_ofInt]
          omega
        refine ⟨_, rfl, fun b => ⟨fun h => ?_, ?_⟩⟩
        · injection h with h
          exact ⟨c0, c1, d0, d1, hc, s0, s1, by rw [← h, hv8]⟩
        · rintro ⟨a, a', d, d', h, hd, hd', hb⟩
          rw [(inj h).1] at hd
          rw [(inj h).2] at hd'
          have := hexDigit_unique hd s0
          have := hexDigit_unique hd' s1
          subst d d'
          congr 1
          apply BitVec.eq_of_toNat_eq
          rw [hv8, hb]
  · rw [if_pos e]
    refine ⟨none, rfl, fun b => ⟨fun h => (nomatch h), ?_⟩⟩
    rintro ⟨a, a', d, d', h, _⟩
    rw [h] at hl
    exact absurd hl.symm e

/-- C49: a character is read from exactly the texts of one character. -/
theorem C49_char (v : View) (hv : v.Inside) : ∃ r, charFrom v = .ok r ∧ ∀ c, r = some c ↔ v.chars = [c] := by
  unfold charFrom
  have hl := StrView.chars_length hv
  by_cases e : v.size = 1
  · rw [if_neg (by simpa using e)]
    obtain ⟨a, hc⟩ : ∃ a, v.chars = [a] := by
      rw [e] at hl
      rcases hh : v.chars with _ | ⟨a, _ | ⟨b, t⟩⟩ <;> rw [hh] at hl <;> simp at hl
      exact ⟨a, rfl⟩
    rw [at_ok hv (i := 0) (c := a) (by rw [hc]; rfl), R.ok_bind]
    refine ⟨_, rfl, fun c => ?_⟩
    rw [hc]
    simp
  · rw [if_pos e]
    refine ⟨none, rfl, fun b => ⟨fun h => (nomatch h), fun h => ?_⟩⟩
    rw [h] at hl
    exact absurd hl.symm e

/-- Text for the examples. -/
def txt (s : String) : List Chr := s.toList.map fun c => BitVec.ofNat 8 c.toNat

/-- C49: a truth value is read from exactly the texts `true` and `false`. -/
theorem C49_bool (v : View) (hv : v.Inside) : ∃ r, boolFrom v = .ok r ∧
    (r = some true ↔ v.chars = txt "true") ∧ (r = some false ↔ v.chars = txt "false") := by
  have t : txt "true" = (View.mk (boolToStr true) 0 4).chars := by decide +kernel
  have f : txt "false" = (View.mk (boolToStr false) 0 5).chars := by decide +kernel
  have ne : txt "true" ≠ txt "false" := by decide +kernel
  unfold boolFrom
  rw [StrView.eq_ok hv ⟨by decide, by decide⟩, R.ok_bind, ← t]
  by_cases h1 : v.chars = txt "true"
  · rw [if_pos (by simpa using h1)]
    exact ⟨_, rfl, ⟨fun _ => h1, fun _ => rfl⟩, fun h => (nomatch h), fun h => absurd (h1.symm.trans h) ne⟩
  · rw [if_neg (by simpa using h1), StrView.eq_ok hv ⟨by decide, by decide⟩, R.ok_bind, ← f]
    by_cases h2 : v.chars = txt "false"
    · rw [if_pos (by simpa using h2)]
      exact ⟨_, rfl, ⟨fun h => (nomatch h), fun h => absurd h h1⟩, fun _ => h2, fun _ => rfl⟩
    · rw [if_neg (by simpa using h2)]
      exact ⟨_, rfl, ⟨fun h => (nomatch h), fun h => absurd h h1⟩, fun h => (nomatch h), fun h => absurd h h2⟩

example : byteToStr 0xAF#8 = .ok (txt "AF") ∧ byteFrom ⟨txt "xaF", 1, 2⟩ = .ok (some 0xAF#8) ∧ byteFrom ⟨txt "0g", 0, 2⟩ = .ok none := by
  decide +kernel
example : (View.mk (txt "xaF") 1 2).Inside ∧ (View.mk (txt "xaF") 1 2).chars = txt "aF" := ⟨⟨by decide, by decide⟩, by decide +kernel⟩

example : IntT.i64.InRange (-9223372036854775808) ∧ toStr .i64 (-9223372036854775808) = .ok (txt "-9223372036854775808") := by decide +kernel
example : IntT.u8.InRange 255 ∧ toStr .u8 255 = .ok (txt "255") := by decide +kernel
example : toStr .i32 0 = .ok (txt "0") ∧ fromCstr .i32 (txt "-2147483648" ++ [0#8]) = .ok (true, -2147483648) := by decide +kernel
example : fromCstr .i32 (txt "12x" ++ [0#8]) = .ok (false, 12) ∧ fromCstr .i8 (txt "128" ++ [0#8]) = .ok (false, -128) := by decide +kernel

/-! ### Where the code and C49 disagree -/

/-- C49 fails: a number that needs more than 32 bits is accepted and truncated, since `strtol` works on 64 bits. -/
theorem C49_wide_number_accepted :
    fromCstr .i32 (txt "4294967297" ++ [0#8]) = .ok (true, 1) ∧ fromCstr .i8 (txt "4294967297" ++ [0#8]) = .ok (true, 1) ∧
    fromCstr .u32 (txt "4294967296" ++ [0#8]) = .ok (true, 0) ∧ fromCstr .u8 (txt "8589934592" ++ [0#8]) = .ok (true, 0) := by decide +kernel

/-- C49 fails: negative numbers are accepted for unsigned types. -/
theorem C49_negative_accepted :
    fromCstr .u64 (txt "-1" ++ [0#8]) = .ok (true, 18446744073709551615) ∧ fromCstr .u32 (txt "-1" ++ [0#8]) = .ok (true, 4294967295) ∧
    fromCstr .u8 (txt "-4294967295" ++ [0#8]) = .ok (true, 1) := by decide +kernel

/-- C49 fails: white space in front of the number is accepted, although behind it it is not. -/
theorem C49_leading_space_accepted : fromCstr .i32 (txt " \n 7" ++ [0#8]) = .ok (true, 7) ∧ fromCstr .i32 (txt "7 " ++ [0#8]) = .ok (false, 7) := by
  decide +kernel

/-- C49 fails: a view is only looked at up to a zero character. -/
theorem C49_embedded_zero_accepted : fromView .i32 ⟨txt "12" ++ [0#8] ++ txt "garbage", 0, 10⟩ = .ok (true, 12) := by decide +kernel

/-- C49 fails: only the first 255 characters of a view are looked at. -/
theorem C49_long_view_truncated : fromView .i32 ⟨List.replicate 254 48#8 ++ txt "7garbage", 0, 262⟩ = .ok (true, 7) := by decide +kernel

/-- A view that `C49_view_exact_partial` covers and `C49_view_partial` does not. -/
example : (⟨txt "12" ++ [0#8] ++ txt "garbage", 0, 10⟩ : View).Inside ∧ (10 : Nat) % 2 ^ 32 < 2 ^ 31 :=
  ⟨⟨by decide, by decide⟩, by decide⟩

/-- A view of 2³¹ characters without a zero. -/
example : ∃ v : View, v.Inside ∧ 2 ^ 31 ≤ v.size % 2 ^ 32 ∧ 0#8 ∉ v.mem.drop v.off := by
  refine ⟨⟨List.replicate (2 ^ 31) 48#8, 0, 2 ^ 31⟩, ?_, by decide, ?_⟩
  · have e : (List.replicate (2 ^ 31) 48#8).length = 2 ^ 31 := List.length_replicate
    refine ⟨Nat.le_of_eq ((Nat.zero_add _).trans e.symm), ?_⟩
    change (List.replicate (2 ^ 31) 48#8).length < 2 ^ 63
    rw [e]
    decide
  · change 0#8 ∉ List.replicate (2 ^ 31) 48#8
    rw [List.mem_replicate]
    exact fun h => absurd h.2 (by decide)

end Verif.Num
