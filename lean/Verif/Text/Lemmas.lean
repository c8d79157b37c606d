import Verif.Text.Spec
import Verif.Flt.Props

namespace Verif.Text
open Verif.StrView (Chr)
open Verif.Num (IntT viaBuffer numeral numLoop digitChr txt)
open Verif.Fmt (viaBuffer_ok)
open Verif.Flt (Fl Format Known Number single double extended)
open Spec

/-! ### pointers -/

theorem digitChr_hex {d : Nat} (h : d < 16) : digitChr false d = hexDigit d := by
  unfold digitChr hexDigit
  split
  · rfl
  · have : (if false = true then 65 else 97) + (d - 10) = 87 + d := by
      rw [if_neg (by decide)]; omega
    rw [this]

/-- The digits of `n` at `k` places. -/
def places (k n : Nat) : List Chr := (List.range k).map fun i => hexDigit (n / 16 ^ (k - 1 - i) % 16)

theorem places_succ (k n : Nat) : places (k + 1) n = places k (n / 16) ++ [hexDigit (n % 16)] := by
  unfold places
  rw [List.range_succ, List.map_append]
  congr 1
  · refine List.map_congr_left fun i hi => ?_
    have hi := List.mem_range.1 hi
    have e : k + 1 - 1 - i = (k - 1 - i) + 1 := by omega
    rw [e, Nat.pow_succ, Nat.mul_comm, ← Nat.div_div_eq_div_mul]
  · show [hexDigit (n / 16 ^ (k + 1 - 1 - k) % 16)] = _
    have e : k + 1 - 1 - k = 0 := by omega
    rw [e, Nat.pow_zero, Nat.div_one]

theorem places_zero (k : Nat) : places k 0 = List.replicate k 48#8 := by
  induction k with
  | zero => rfl
  | succ k ih =>
    rw [places_succ, Nat.zero_div, ih, List.replicate_succ']
    rfl

/-- The digits, filled up with zeros, are the digits at all places. -/
theorem numLoop_places (k : Nat) : ∀ f n, n < 2 ^ f → 0 < f → n < 16 ^ k → 0 < k →
    List.replicate (k - (numLoop false 16 f n []).length) 48#8 ++ numLoop false 16 f n [] = places k n ∧ (numLoop false 16 f n []).length ≤ k := by
  induction k with
  | zero => intro f n _ _ _ h; exact absurd h (Nat.lt_irrefl 0)
  | succ k ih =>
    intro f n hf h0 hk _
    obtain ⟨f, rfl⟩ : ∃ g, f = g + 1 := ⟨f - 1, by omega⟩
    rw [numLoop, digitChr_hex (by omega)]
    by_cases e : n / 16 = 0
    · rw [if_pos e]
      refine ⟨?_, by simp only [List.length_cons, List.length_nil]; omega⟩
      rw [places_succ, e, places_zero]
      rfl
    · rw [if_neg e, Num.numLoop_app]
      have hf' : n / 16 < 2 ^ f := by rw [Nat.pow_succ] at hf; omega
      have hf0 : 0 < f := by
        rcases Nat.eq_zero_or_pos f with rfl | h
        · rw [Nat.pow_zero] at hf'; omega
        · exact h
      have hk' : n / 16 < 16 ^ k := by rw [Nat.pow_succ] at hk; omega
      have hk0 : 0 < k := by
        rcases Nat.eq_zero_or_pos k with rfl | h
        · rw [Nat.pow_zero] at hk'; omega
        · exact h
      obtain ⟨h1, h2⟩ := ih f (n / 16) hf' hf0 hk' hk0
      refine ⟨?_, by rw [List.length_append]; simp only [List.length_cons, List.length_nil]; omega⟩
      have hl : k + 1 - (numLoop false 16 f (n / 16) [] ++ [hexDigit (n % 16)]).length = k - (numLoop false 16 f (n / 16) []).length := by
        rw [List.length_append]; simp only [List.length_cons, List.length_nil]; omega
      rw [hl, places_succ, ← h1, List.append_assoc]

theorem ptrText_eq (p : BitVec 64) : ptrText p.toNat = txt "0x" ++ places 16 p.toNat := by
  have := (numLoop_places 16 (p.toNat.log2 + 1) p.toNat Nat.lt_log2_self (Nat.succ_pos _) (by have := p.isLt; omega) (by decide)).1
  unfold ptrText numeral
  rw [← this]
  rfl

theorem places_length (k n : Nat) : (places k n).length = k := by unfold places; rw [List.length_map, List.length_range]

theorem ptrToStr_eq (p : BitVec 64) : ptrToStr p = .ok (pointer p) := by
  unfold ptrToStr pointer
  by_cases h : p = 0#64
  · rw [if_pos h, if_pos h]; rfl
  · rw [if_neg h, if_neg h, ptrText_eq]
    refine viaBuffer_ok ?_
    rw [List.length_append, places_length]
    decide

theorem hexDigit_inj : ∀ a, a < 16 → ∀ b, b < 16 → hexDigit a = hexDigit b → a = b := by decide +kernel

theorem places_inj (k : Nat) : ∀ n m, n < 16 ^ k → m < 16 ^ k → places k n = places k m → n = m := by
  induction k with
  | zero => intro n m hn hm _; rw [Nat.pow_zero] at hn hm; omega
  | succ k ih =>
    intro n m hn hm h
    rw [places_succ, places_succ] at h
    obtain ⟨h1, h2⟩ := List.append_inj' h rfl
    have e1 := ih _ _ (by rw [Nat.pow_succ] at hn; omega) (by rw [Nat.pow_succ] at hm; omega) h1
    have e2 := hexDigit_inj _ (Nat.mod_lt n (by decide)) _ (Nat.mod_lt m (by decide)) (List.cons.inj h2).1
    omega

theorem pointer_inj {p q : BitVec 64} (h : pointer p = pointer q) : p = q := by
  unfold pointer at h
  by_cases hp : p = 0#64
  · by_cases hq : q = 0#64
    · rw [hp, hq]
    · rw [if_pos hp, if_neg hq] at h
      have := congrArg List.head? h
      exact absurd this (by show some 91#8 ≠ some 48#8; decide)
  · by_cases hq : q = 0#64
    · rw [if_neg hp, if_pos hq] at h
      have := congrArg List.head? h
      exact absurd this (by show some 48#8 ≠ some 91#8; decide)
    · rw [if_neg hp, if_neg hq] at h
      have := places_inj 16 p.toNat q.toNat (by have := p.isLt; omega) (by have := q.isLt; omega) (List.append_cancel_left h)
      exact BitVec.eq_of_toNat_eq this

/-! ### numbers -/

theorem int_agree {t : IntT} {x : Int} (hx : t.InRange x) (hb : ¬ Fmt.Least t x) : Fmt.intFmt t x [] = Num.toStr t x := by
  rw [(Fmt.C69_default_partial t x hx hb).1]
  obtain ⟨l, h1, h2, _⟩ := Num.C48_round_trip t x hx
  rw [h1, Num.C48_decimal_unique _ _ x (Fmt.C69_default_partial t x hx hb).2 h2]

/-- The text of a float without a specification. -/
def fmtText : Fl → List Chr := Flt.printf (fun _ _ => []) {}

theorem fmtText_length {F : Format} {v : Fl} (hv : IsValue (.float F v)) : (fmtText v).length ≤ 20 := by
  cases v with
  | nan neg => cases neg <;> decide
  | inf neg => cases neg <;> decide
  | fin neg q =>
    have hv : Known F ∧ Number F q := hv
    have hl := (Flt.textG_ok false false 6 (Flt.number_nonneg hv.2)).2 4 (by omega) (Flt.log_bound hv.1 hv.2)
    have hp : fmtText (.fin neg q) = Flt.minus neg ++ Flt.textG false false 6 q := by
      show List.replicate (0 - _) 32#8 ++ (Flt.signText {} neg ++ Flt.body (fun _ _ => []) {} q) = _
      rw [Nat.zero_sub]
      cases neg <;> rfl
    have : (Flt.minus neg).length ≤ 1 := by cases neg <;> decide
    rw [hp, List.length_append]
    omega

theorem fmtText_hex (hex : Flt.Spc → ℚ → List Chr) (v : Fl) : Flt.printf hex {} v = fmtText v := by
  cases v <;> rfl

theorem float_agree (hex : Flt.Spc → ℚ → List Chr) {F : Format} {v : Fl} (hv : IsValue (.float F v)) (hb : F ≠ extended) : Flt.floatFmt hex F v [] = Flt.toStr F v := by
  have hl := fmtText_length hv
  have h21 : 21 ≤ Flt.bufferSize F := by unfold Flt.bufferSize; split; decide; split <;> decide
  have h1 : Flt.toStr F v = .ok (fmtText v) := viaBuffer_ok (by show (fmtText v).length ≤ _; omega)
  have h2 : Flt.floatFmt hex F v [] = Flt.floatImpl hex F v {} := rfl
  rw [h1, h2]
  unfold Flt.floatImpl
  have h3 : Flt.spcOf {} = .ok {} := rfl
  rw [h3, R.ok_bind, if_neg hb, fmtText_hex]
  dsimp only
  rw [decide_eq_true (by omega), ccAssert_true rfl, R.ok_bind]
  exact viaBuffer_ok (by omega)

end Verif.Text
