import Verif.Text.Lemmas
import Verif.WChar.Props

/-! C122: the overloads of `to_string`. -/
namespace Verif.Text
open Verif.StrView (Chr)
open Verif.Num (IntT txt)
open Verif.Flt (Fl Format single double extended)
open Spec

def env : Env := { locale := .utf8, hex := fun _ _ => [] }

/-- C122 in full: the forms of `to_string` give the same text: as a string, and appended to a stream, and with an empty specification. -/
def FormsAgree (env : Env) : Prop := ∀ v, IsValue v → streamPlain env v = plain env v ∧ formatted env v [] = plain env v

theorem formatted_eq (env : Env) (v : Val) (fmt : List Chr) : formatted env v fmt = stream env v fmt := by
  unfold formatted
  cases stream env v fmt <;> rfl

/-- C122. The forms agree for all values of all types, except the least ones of `int`, `long` and `long long`, and `long double`. -/
theorem C122_forms_partial (env : Env) (v : Val) (hv : IsValue v) (hb : ¬ Bad v) : streamPlain env v = plain env v ∧ formatted env v [] = plain env v := by
  rw [formatted_eq]
  show stream env v [] = plain env v ∧ stream env v [] = plain env v
  refine (and_self_iff).2 ?_
  cases v with
  | bool b => cases b <;> rfl
  | char c => rfl
  | byte b => rfl
  | int t x => exact int_agree hv hb
  | float F x => exact float_agree env.hex hv hb
  | null => rfl
  | ptr c p => rfl
  | cstr s => cases s <;> rfl
  | wide s => rfl
  | view s => rfl

example : IsValue (.int .i32 (-2147483647)) ∧ ¬ Bad (.int .i32 (-2147483647)) ∧ streamPlain env (.int .i32 (-2147483647)) = .ok (txt "-2147483647") := by
  refine ⟨by show IntT.InRange _ _; decide, by unfold Bad; decide, by decide +kernel⟩
example : formatted env (.float single (.fin true (3 / 2))) [] = .ok (txt "-1.5") ∧ plain env (.float single (.fin true (3 / 2))) = .ok (txt "-1.5") := by decide +kernel
example : streamPlain env (.wide (some [65, 66, 0])) = .ok (txt "AB") := by decide +kernel

/-- C122. For those exceptions the string is right, but appending to a stream is undefined. -/
theorem C122_least (env : Env) (t : IntT) (x : Int) (h : Bad (.int t x)) : (∃ l, plain env (.int t x) = .ok l ∧ Num.Spec.IsDecimal l x) ∧ streamPlain env (.int t x) = .error .ub := by
  obtain ⟨h1, h2, h3⟩ := h
  have hx : t.InRange x := by
    unfold IntT.InRange
    rw [if_pos h1, h3]
    have : (0 : Int) < 2 ^ (t.bits - 1) := Int.pow_pos (by decide)
    omega
  obtain ⟨l, e, d, _⟩ := Num.C48_round_trip t x hx
  refine ⟨⟨l, e, d⟩, ?_⟩
  show Fmt.intFmt t x [] = _
  have hp : Fmt.parseArgs [] = .ok {} := rfl
  unfold Fmt.intFmt
  rw [hp, R.ok_bind, if_pos h1]
  unfold Fmt.signedFmt
  have : 2 ^ (max t.bits 32 - 1) = (2 : Int) ^ (t.bits - 1) := by rw [Nat.max_eq_left h2]
  have hp : (0 : Int) < 2 ^ (t.bits - 1) := Int.pow_pos (by decide)
  rw [if_pos ⟨by omega, by rw [this]; omega⟩]

example : Bad (.int .i64 (-9223372036854775808)) := by unfold Bad; decide

theorem C122_long_double (env : Env) (x : Fl) : streamPlain env (.float extended x) = .error .ub := rfl

theorem C122_full_fails (env : Env) : ¬ FormsAgree env := by
  intro h
  have hb : Bad (.int .i32 (-2147483648)) := by unfold Bad; decide
  obtain ⟨⟨l, h1, _⟩, h2⟩ := C122_least env .i32 (-2147483648) hb
  have := (h (.int .i32 (-2147483648)) (by show IntT.InRange _ _; decide)).1
  rw [h1, h2] at this
  cases this

/-- C122. With a specification, the string is what is appended to a stream. -/
theorem C122_formatted (env : Env) (v : Val) (fmt : List Chr) : formatted env v fmt = stream env v fmt := formatted_eq env v fmt

example : formatted env (.int .u8 255) (txt "05") = .ok (txt "00255") ∧ stream env (.view (txt "ab")) (txt "*^5") = .ok (txt "**ab*") := by decide +kernel

/-- C122. A pointer is printed with all of its 16 hexadecimal digits, … -/
theorem C122_pointer (env : Env) (c : Bool) (p : BitVec 64) : plain env (.ptr c p) = .ok (pointer p) := ptrToStr_eq p

example : plain env (.ptr true 0xdeadbeef01#64) = .ok (txt "0x000000deadbeef01") ∧ plain env (.ptr false 0#64) = .ok (txt "[nullptr]") := by decide +kernel

/-- … so that different pointers have different texts, and none has the text of null. -/
theorem C122_pointer_unique (env : Env) (c d : Bool) (p q : BitVec 64) (h : plain env (.ptr c p) = plain env (.ptr d q)) : p = q := by
  rw [C122_pointer, C122_pointer] at h
  exact pointer_inj (Except.ok.inj h)

example : plain env (.ptr true 1#64) ≠ plain env (.ptr true 16#64) := by decide +kernel

/-- C122. All forms of null have one text. -/
theorem C122_null (env : Env) (c : Bool) : plain env .null = .ok (txt "[nullptr]") ∧ plain env (.ptr c 0#64) = .ok (txt "[nullptr]") ∧ plain env (.cstr none) = .ok (txt "[nullptr]") ∧
    plain env (.wide none) = .ok (txt "[nullptr]") := ⟨rfl, rfl, rfl, rfl⟩

/-- C122. Pointers and bytes reject every specification … -/
theorem C122_rejected (env : Env) (fmt : List Chr) (h : fmt ≠ []) (c : Bool) (p : BitVec 64) (b : BitVec 8) :
    stream env (.ptr c p) fmt = .error .assert ∧ stream env .null fmt = .error .assert ∧ stream env (.byte b) fmt = .error .assert := by
  unfold stream
  dsimp only
  rw [decide_eq_false h]
  exact ⟨rfl, rfl, rfl⟩

example : txt "20" ≠ [] := by decide

/-- … but for wide strings it is ignored, right or wrong, and also for pointers to characters that are null. -/
theorem C122_ignored (env : Env) (fmt : List Chr) (s : Option (List Nat)) : stream env (.wide s) fmt = plain env (.wide s) ∧ stream env (.cstr none) fmt = .ok (txt "[nullptr]") := ⟨rfl, rfl⟩

example : stream env (.wide (some [65, 0])) (txt "5") = .ok (txt "A") ∧ stream env (.cstr (some (txt "A"))) (txt "5") = .ok (txt "    A") ∧ stream env (.cstr none) (txt "...") = .ok (txt "[nullptr]") := by decide +kernel

end Verif.Text
