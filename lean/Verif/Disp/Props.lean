import Verif.Disp.Spec
/-!
# C109: a type is formatted by the functions it offers
-/
namespace Verif.Disp
open Verif.StrView (Chr)

variable {V : Type}

/-- Formatting is right for every type that has the function with stream and specification, or both `to_string(s, v)` and
`to_string(v, spec)`, or neither of the two but some other function. -/
theorem C109_formats_partial (o : Offers V) (any : o.Any)
    (h : o.ssArgs.isSome ∨ o.ss.isSome = o.args.isSome) : Right o := by
  rcases o with ⟨a, b, c, d, e, g⟩
  unfold Offers.Any at any
  cases a with
  | some f =>
    refine ⟨f, by simp [doFormat, hasSsArgs], ⟨fun v => .inl ⟨f, rfl, rfl⟩, fun v s _ _ => .inl ⟨f, rfl, rfl⟩, fun v s _ h => ?_⟩⟩
    simp at h
  | none =>
    cases c with
    | some f =>
      cases b with
      | none => simp at h
      | some k =>
        refine ⟨_, by simp [doFormat, hasSsArgs, hasArgs, hasSs]; rfl, ⟨fun v => ?_, fun v s hs _ => ?_, fun v s _ _ h => ?_⟩⟩
        · exact .inr (.inr (.inl ⟨f, rfl, by simp⟩))
        · refine .inr ⟨k, rfl, ?_⟩
          cases s with
          | nil => exact absurd rfl hs
          | cons x t => simp
        · simp at h
    | none =>
      cases b with
      | some k => simp at h
      | none =>
        cases d with
        | some f =>
          exact ⟨viaString f, by simp [doFormat, hasSsArgs, hasArgs, hasSs, hasPlain],
            ⟨fun v => .inr (.inr (.inr (.inl ⟨f, rfl, rfl⟩))), fun v s _ h => by simp at h, fun v s _ _ _ _ => .inl ⟨f, rfl, rfl⟩⟩⟩
        | none =>
          cases e with
          | some f =>
            exact ⟨viaString f, by simp [doFormat, hasSsArgs, hasArgs, hasSs, hasPlain, hasMember],
              ⟨fun v => .inr (.inr (.inr (.inr (.inl ⟨f, rfl, rfl⟩)))), fun v s _ h => by simp at h,
                fun v s _ _ _ _ => .inr (.inl ⟨f, rfl, rfl⟩)⟩⟩
          | none =>
            cases g with
            | some f =>
              exact ⟨viaString f, by simp [doFormat, hasSsArgs, hasArgs, hasSs, hasPlain, hasMember, hasStd],
                ⟨fun v => .inr (.inr (.inr (.inr (.inr ⟨f, rfl, rfl⟩)))), fun v s _ h => by simp at h,
                  fun v s _ _ _ _ => .inr (.inr ⟨f, rfl, rfl⟩)⟩⟩
            | none => simp at any

/-- A type with `to_string()` only: a width pads the text. -/
example : Right ({ member := some fun n => .ok [BitVec.ofNat 8 (48 + n)] } : Offers Nat) :=
  C109_formats_partial _ (by simp [Offers.Any]) (.inr rfl)
example : (doFormat ({ member := some fun n => .ok [BitVec.ofNat 8 (48 + n)] } : Offers Nat)).map
    (fun f => f 5 [62#8, 51#8]) = some (.ok [32#8, 32#8, 53#8]) := by decide +kernel

/-- The function with stream and specification gets every specification as it is. -/
theorem C109_own_function (o : Offers V) (f : V → List Chr → R (List Chr)) (h : o.ssArgs = some f) :
    doFormat o = some f := by
  simp [doFormat, hasSsArgs, h]

example : doFormat ({ ssArgs := some fun (n : Nat) s => .ok (s ++ [BitVec.ofNat 8 n]), plain := some fun _ => .ok [] } : Offers Nat) =
    some fun n s => .ok (s ++ [BitVec.ofNat 8 n]) := C109_own_function _ _ rfl

/-- Exactly which types can be formatted. -/
theorem C109_accepted (o : Offers V) :
    (doFormat o).isSome ↔
      (o.ssArgs.isSome ∨ (o.ss.isSome ∧ o.args.isSome) ∨
        (¬ o.ss.isSome ∧ (o.plain.isSome ∨ o.member.isSome ∨ o.std.isSome))) := by
  rcases o with ⟨a, b, c, d, e, g⟩
  cases a <;> cases b <;> cases c <;> cases d <;> cases e <;> cases g <;>
    simp [doFormat, hasSsArgs, hasArgs, hasSs, hasPlain, hasMember, hasStd]

/-- A type that offers only `to_string(stream, value)` cannot be formatted: the program does not compile. -/
theorem C109_stream_only_rejected (f : V → R (List Chr)) :
    ({ ss := some f } : Offers V).Any ∧ ¬ Right ({ ss := some f } : Offers V) := by
  refine ⟨by simp [Offers.Any], fun ⟨g, h, _⟩ => ?_⟩
  simp [doFormat, hasSsArgs, hasArgs, hasSs] at h

/-- Even when it offers other functions in addition, as long as none of them takes a specification. -/
theorem C109_stream_hides_others (f p m s : V → R (List Chr)) :
    doFormat ({ ss := some f, plain := some p, member := some m, std := some s } : Offers V) = none := by
  simp [doFormat, hasSsArgs, hasArgs, hasSs]

/-- A type that offers only `to_string(value, spec)` cannot be formatted either. -/
theorem C109_string_with_spec_rejected (f : V → List Chr → R (List Chr)) :
    ({ args := some f } : Offers V).Any ∧ ¬ Right ({ args := some f } : Offers V) := by
  refine ⟨by simp [Offers.Any], fun ⟨g, h, _⟩ => ?_⟩
  simp [doFormat, hasSsArgs, hasArgs, hasSs, hasPlain, hasMember, hasStd] at h

/-- With `to_string(value)` in addition the program compiles, and the specification is never handed to `to_string(value, spec)`:
the text is formatted as a string. -/
theorem C109_spec_not_passed (f : V → List Chr → R (List Chr)) (p : V → R (List Chr)) :
    doFormat ({ args := some f, plain := some p } : Offers V) = some (viaString p) := by
  simp [doFormat, hasSsArgs, hasArgs, hasSs, hasPlain]

/-- A length that can be shown in metres or in inches: asked for inches (`{i}`), the value is shown in metres. -/
theorem C109_spec_not_passed_witness :
    ∃ o : Offers Nat, o.Any ∧ o.args.isSome ∧ ¬ Right o ∧
      (doFormat o).map (fun f => f 2 [105#8]) = some (.ok [50#8, 109#8]) := by
  refine ⟨{ args := some fun n s => .ok (BitVec.ofNat 8 (48 + n) :: s), plain := some fun n => .ok [BitVec.ofNat 8 (48 + n), 109#8] },
    by simp [Offers.Any], rfl, ?_, by decide +kernel⟩
  rintro ⟨g, h, hf⟩
  rw [C109_spec_not_passed] at h
  have h2 := hf.spec 2 [105#8] (by simp) (.inr rfl)
  rw [← Option.some.inj h] at h2
  rcases h2 with ⟨k, hk, _⟩ | ⟨k, hk, he⟩
  · simp at hk
  · rw [← Option.some.inj hk] at he
    revert he
    decide +kernel

end Verif.Disp
