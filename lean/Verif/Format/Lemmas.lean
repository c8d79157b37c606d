import Verif.Format.Round
/-! # The loop handles one piece of the format string after the other -/
namespace Verif.Format
open Verif.StrView (Chr)
open Verif.Num (isDigit isDigit_iff value_nil value_cons)
open Verif.Num.Spec (IsDigit value)
open Spec (PrintfSpec Piece NameStart IsName renderSpec NoClose Denote Argument Flag Conv Width Precision Length)

/-- The arguments of the specification. -/
def toSpec (args : List Arg) : List Argument := args.map fun a => (a.name, a.fmt)

/-- `curr_arg_id` -/
def enc : Option Nat → Int
  | some k => k
  | none => -1

/-- What one piece adds to the text (`t`) and to the arguments used (`us`), with the index as the code computes it. -/
inductive Sem (args : List Arg) : Option Nat → Piece → List Chr → Option Nat → List Nat → Prop
  | lit {k} (c) : Sem args k (.lit c) [c] k []
  | esc {k} (c) : Sem args k (.esc c) [c] k []
  | auto {k sp a t} : args[k]? = some a → a.fmt (sp.getD []) = .ok t → Sem args (some k) (.auto sp) t (some (k + 1)) [k]
  | index {k ds sp a t} : args[value 0 ds % 2 ^ 64]? = some a → a.fmt (sp.getD []) = .ok t → Sem args k (.index ds sp) t none [value 0 ds % 2 ^ 64]
  | named {k nm sp a t i} : args[i]? = some a → a.name = nm → (∀ (j : Nat) (b : Arg), j < i → args[j]? = some b → b.name ≠ nm) → a.fmt (sp.getD []) = .ok t →
      Sem args k (.named nm sp) t none [i]
  | printf {k sp a t} : args[k]? = some a → a.fmt (if sp = [115#8] then [] else sp) = .ok t → Sem args (some k) (.printf sp) t (some (k + 1)) [k]

/-- One round has handled a piece with the text `t`. -/
structure Did (s s' : St) (p : Pos) (t : List Chr) (k' : Option Nat) (us : List Nat) : Prop where
  pos : s'.pos = p
  out : s'.out ++ s'.seg = s.out ++ s.seg ++ t
  argId : s'.argId = enc k'
  used : s'.used = us ++ s.used

theorem advPrintf_percent (T x : List Chr) : advPrintf (P T (37#8 :: x)) = .error .assert := by
  have h2 : ((37#8 :: x).length : Int) ≠ 0 := by rw [List.length_cons]; omega
  have hs : ∀ p, p 37#8 = false → skipWhile p (37#8 :: (x ++ T)) ((37#8 :: x).length : Int) = .ok (37#8 :: (x ++ T), ((37#8 :: x).length : Int)) := by
    intro p hp
    rw [skipWhile, if_neg h2, if_neg (by rw [hp]; decide)]
    rfl
  unfold advPrintf
  change skipWhile isFlag (37#8 :: (x ++ T)) ((37#8 :: x).length : Int) >>= advWidth >>= advPrecision >>= advLength >>= advConv = _
  rw [hs isFlag (by decide), R.ok_bind]
  unfold advWidth
  dsimp only
  rw [if_pos h2, rd_zero, R.ok_bind, if_neg (by decide), hs isDigit (by decide), R.ok_bind]
  unfold advPrecision
  dsimp only
  rw [if_pos h2, rd_zero, R.ok_bind, if_neg (by decide), R.pure_eq, R.ok_bind]
  unfold advLength
  dsimp only
  rw [if_pos h2, rd_zero, R.ok_bind, if_neg (by decide), if_neg (by decide), if_neg (by decide), R.pure_eq, R.ok_bind]
  unfold advConv
  dsimp only
  rw [rd_zero, R.ok_bind, if_neg (by decide)]

theorem between_P (T sp r : List Chr) : between (P T (sp ++ r)) (P T r) = sp := by
  unfold between P
  dsimp only
  have : (sp ++ r ++ T).length - (r ++ T).length = sp.length := by
    rw [List.append_assoc, List.length_append]; omega
  rw [this, List.append_assoc, List.take_left]

theorem lt_of_get {α : Type} {l : List α} {i : Nat} {a : α} (h : l[i]? = some a) : i < l.length := (List.getElem?_eq_some_iff.mp h).1

/-- The branch for `%`, at `%` and a specification. -/
theorem stepPercent_ok {args : List Arg} {k : Nat} {a : Arg} {sp t : List Chr} (s : St) (T r : List Chr) (hs : s.pos = P T (37#8 :: (sp ++ r))) (hid : s.argId = k)
    (hv : PrintfSpec sp) (h : args[k]? = some a) (ht : a.fmt (if sp = [115#8] then [] else sp) = .ok t) :
    ∃ s', stepPercent args s = .ok s' ∧ Did s s' (P T r) t (some (k + 1)) [k] := by
  obtain ⟨pos, seg, out, argId, used⟩ := s
  dsimp only at hs hid
  subst hs hid
  have hk := lt_of_get h
  refine ⟨⟨P T r, [], out ++ seg ++ t, (k : Int) + 1, k :: used⟩, ?_, ⟨rfl, by simp, rfl, rfl⟩⟩
  cases hsp : sp ++ r with
  | nil => exact absurd (List.append_eq_nil_iff.mp hsp).1 (printf_ne_nil hv)
  | cons c x =>
    have h37 : c ≠ 37#8 := by
      intro e
      have h1 := advPrintf_ok T sp r hv
      rw [hsp, e, advPrintf_percent] at h1
      cases h1
    unfold stepPercent
    dsimp only
    rw [P_next, decide_eq_true (P_snd_ne T _ _), ccAssert_true rfl, R.ok_bind, P_fst, R.ok_bind, if_neg h37, ← hsp, advPrintf_ok T sp r hv, R.ok_bind, between_P]
    rw [decide_eq_true (printf_ne_nil hv), ccAssert_true rfl, R.ok_bind, ccAssert_true (decide_eq_true (by omega)), R.ok_bind,
      ccAssert_true (decide_eq_true (by omega)), R.ok_bind, Int.toNat_natCast, useArg_ok _ h ht]
    rfl

theorem stepOpen_ref {args : List Arg} (s : St) (T x : List Chr) (c : Chr) (hs : s.pos = P T (123#8 :: c :: x)) (h1 : c ≠ 123#8) (h2 : c ≠ 125#8) :
    stepOpen args s = (argRef args s.argId (P T (c :: x)) >>= fun r => argTail args { s with out := s.out ++ s.seg, seg := [] } r.1 r.2.1 r.2.2) := by
  obtain ⟨pos, seg, out, argId, used⟩ := s
  dsimp only at hs
  subst hs
  unfold stepOpen
  dsimp only
  rw [P_next, decide_eq_true (P_snd_ne T _ _), ccAssert_true rfl, R.ok_bind, P_fst, R.ok_bind, if_neg h1, if_neg h2]

theorem spec_head (sp : Option (List Chr)) (r : List Chr) : ∃ d y, renderSpec sp ++ 125#8 :: r = d :: y ∧ (d = 58#8 ∨ d = 125#8) := by
  cases sp with
  | none => exact ⟨125#8, r, rfl, Or.inr rfl⟩
  | some l => exact ⟨58#8, l ++ 125#8 :: r, rfl, Or.inl rfl⟩

theorem spec_head_props (sp : Option (List Chr)) (r : List Chr) : renderSpec sp ++ 125#8 :: r ≠ [] ∧ (∀ c, (renderSpec sp ++ 125#8 :: r).head? = some c → ¬ IsDigit c) ∧
    ∀ c, (renderSpec sp ++ 125#8 :: r).head? = some c → isNameChr c = false := by
  obtain ⟨d, y, e, h⟩ := spec_head sp r
  rw [e]
  refine ⟨by simp, ?_, ?_⟩
  · intro c hc
    rw [← Option.some.inj hc]
    rcases h with rfl | rfl <;> (unfold IsDigit; decide)
  · intro c hc
    rw [← Option.some.inj hc]
    rcases h with rfl | rfl <;> decide

theorem digit_ne_brace {c : Chr} (h : IsDigit c) : c ≠ 123#8 ∧ c ≠ 125#8 := by
  constructor <;> (rintro rfl; revert h; unfold IsDigit; decide)

theorem nameStart_ne {c : Chr} (h : isNameStart c = true) : c ≠ 123#8 ∧ c ≠ 125#8 := by
  constructor <;> (rintro rfl; revert h; decide)

theorem findName_eq {args : List Arg} (hl : args.length < 2 ^ 31) {nm : List Chr} (h0 : nm ≠ []) {i : Nat} {a : Arg} (h : args[i]? = some a) (hn : a.name = nm)
    (hf : ∀ (j : Nat) (b : Arg), j < i → args[j]? = some b → b.name ≠ nm) : findName args nm args.length 0 = i := by
  rcases findName_spec args hl nm h0 args.length 0 (by omega) (by omega) (fun j b hj => absurd hj (by omega)) with ⟨b, g1, g2, g3⟩ | ⟨_, g⟩
  · rcases Nat.lt_trichotomy (findName args nm args.length 0) i with e | e | e
    · exact absurd g2 (hf _ b e g1)
    · exact e
    · exact absurd hn (g3 i a e h)
  · exact absurd hn (g i a h)

/-- A round at a valid piece that has a meaning handles it. -/
theorem step_ok {pf py : Bool} {args : List Arg} (hl : args.length < 2 ^ 31) {p : Piece} {k k' : Option Nat} {t : List Chr} {us : List Nat} (s : St) (T r : List Chr)
    (hv : p.Valid pf py) (hsem : Sem args k p t k' us) (hs : s.pos = P T (p.render ++ r)) (hid : s.argId = enc k) :
    ∃ s', step pf py args s = .ok s' ∧ Did s s' (P T r) t k' us := by
  cases hsem with
  | lit c =>
    obtain ⟨hp, hq⟩ := hv
    obtain ⟨pos, seg, out, argId, used⟩ := s
    dsimp only at hs hid
    have hs' : pos = P T (c :: r) := hs
    subst hs'
    refine ⟨⟨P T r, seg ++ [c], out, argId, used⟩, ?_, ⟨rfl, by simp, hid, rfl⟩⟩
    unfold step
    dsimp only
    rw [P_fst, R.ok_bind]
    have e1 : (pf && c == 37#8) = false := by
      cases pf with
      | false => rfl
      | true => rw [Bool.true_and, beq_eq_false_iff_ne]; exact hp rfl
    have e2 : (py && c == 125#8) = false := by
      cases py with
      | false => rfl
      | true => rw [Bool.true_and, beq_eq_false_iff_ne]; exact (hq rfl).2
    have e3 : (py && c == 123#8) = false := by
      cases py with
      | false => rfl
      | true => rw [Bool.true_and, beq_eq_false_iff_ne]; exact (hq rfl).1
    rw [e1, e2, e3, if_neg (by decide), if_neg (by decide), if_neg (by decide), P_next]
    rfl
  | esc c =>
    obtain ⟨pos, seg, out, argId, used⟩ := s
    dsimp only at hs hid
    have hs' : pos = P T (c :: c :: r) := hs
    subst hs'
    rcases hv with ⟨rfl, rfl⟩ | ⟨rfl, rfl | rfl⟩
    · refine ⟨⟨P T r, [37#8], out ++ seg, argId, used⟩, ?_, ⟨rfl, rfl, hid, rfl⟩⟩
      unfold step
      dsimp only
      rw [P_fst, R.ok_bind, if_pos (by decide)]
      unfold stepPercent
      dsimp only
      rw [P_next, decide_eq_true (P_snd_ne T _ _), ccAssert_true rfl, R.ok_bind, P_fst, R.ok_bind, if_pos rfl, P_next]
      rfl
    · refine ⟨⟨P T r, [123#8], out ++ seg, argId, used⟩, ?_, ⟨rfl, rfl, hid, rfl⟩⟩
      unfold step
      dsimp only
      rw [P_fst, R.ok_bind, if_neg (by cases pf <;> decide), if_neg (by decide), if_pos (by decide)]
      unfold stepOpen
      dsimp only
      rw [P_next, decide_eq_true (P_snd_ne T _ _), ccAssert_true rfl, R.ok_bind, P_fst, R.ok_bind, if_pos rfl, P_next]
      rfl
    · refine ⟨⟨P T r, [], out ++ (seg ++ [125#8]), argId, used⟩, ?_, ⟨rfl, by simp, hid, rfl⟩⟩
      unfold step
      dsimp only
      rw [P_fst, R.ok_bind, if_neg (by cases pf <;> decide), if_pos (by decide)]
      unfold stepClose
      dsimp only
      rw [P_next, if_pos (P_snd_ne T _ _), P_fst, R.ok_bind, ccAssert_true (by decide), R.ok_bind, P_next]
      rfl
  | @printf k sp a t h ht =>
    obtain ⟨rfl, hsp⟩ := hv
    have hs' : s.pos = P T (37#8 :: (sp ++ r)) := hs
    obtain ⟨s', g1, g2⟩ := stepPercent_ok s T r hs' hid hsp h ht
    refine ⟨s', ?_, g2⟩
    unfold step
    rw [hs', P_fst, R.ok_bind, if_pos (by decide)]
    exact g1
  | @auto k sp a t h ht =>
    obtain ⟨rfl, hn⟩ := hv
    have hk := lt_of_get h
    have hs' : s.pos = P T (123#8 :: (renderSpec sp ++ 125#8 :: r)) := by
      rw [hs]; simp only [Piece.render, List.cons_append, List.append_assoc, List.nil_append]
    have hst : step pf true args s = stepOpen args s := by
      unfold step
      rw [hs', P_fst, R.ok_bind, if_neg (by cases pf <;> decide), if_neg (by decide), if_pos (by decide)]
    rw [hst]
    cases sp with
    | none =>
      have hs2 : s.pos = P T (123#8 :: 125#8 :: r) := hs'
      obtain ⟨pos, seg, out, argId, used⟩ := s
      dsimp only at hs2 hid
      subst hs2 hid
      refine ⟨⟨P T r, [], out ++ seg ++ t, (k : Int) + 1, k :: used⟩, ?_, ⟨rfl, by simp, rfl, rfl⟩⟩
      unfold stepOpen
      dsimp only
      rw [P_next, decide_eq_true (P_snd_ne T _ _), ccAssert_true rfl, R.ok_bind, P_fst, R.ok_bind, if_neg (by decide), if_pos rfl, ccAssert_true (decide_eq_true (by unfold enc; dsimp only; omega)), R.ok_bind,
        ccAssert_true (decide_eq_true (by unfold enc; dsimp only; omega)), R.ok_bind]
      unfold enc
      dsimp only
      rw [Int.toNat_natCast, useArg_ok (sp := []) _ h ht, R.ok_bind, P_next]
      rfl
    | some l =>
      have hs2 : s.pos = P T (123#8 :: 58#8 :: (l ++ 125#8 :: r)) := hs'
      rw [stepOpen_ref s T _ _ hs2 (by decide) (by decide)]
      unfold argRef
      rw [P_fst, R.ok_bind, if_neg (by decide), if_neg (by decide), R.pure_eq, R.ok_bind, hid]
      dsimp only
      have : (enc (some k) % 2 ^ 64).toNat = k := by unfold enc; dsimp only; omega
      rw [this]
      refine ⟨_, argTail_ok (sp := some l) _ _ T r h ht hn, ⟨rfl, ?_, rfl, rfl⟩⟩
      simp
  | @index k ds sp a t h ht =>
    obtain ⟨rfl, h0, hd, hn⟩ := hv
    have hs' : s.pos = P T (123#8 :: (ds ++ (renderSpec sp ++ 125#8 :: r))) := by
      rw [hs]; simp only [Piece.render, List.cons_append, List.append_assoc, List.nil_append]
    have hst : step pf true args s = stepOpen args s := by
      unfold step
      rw [hs', P_fst, R.ok_bind, if_neg (by cases pf <;> decide), if_neg (by decide), if_pos (by decide)]
    rw [hst]
    obtain ⟨q1, q2, q3⟩ := spec_head_props sp r
    have href := argRef_index args s.argId T ds _ h0 hd q1 q2
    cases ds with
    | nil => exact absurd rfl h0
    | cons c ds =>
      obtain ⟨n1, n2⟩ := digit_ne_brace (hd c List.mem_cons_self)
      rw [stepOpen_ref s T (ds ++ (renderSpec sp ++ 125#8 :: r)) c hs' n1 n2]
      change argRef args s.argId (P T (c :: (ds ++ (renderSpec sp ++ 125#8 :: r)))) = _ at href
      rw [href, if_pos (lt_of_get h), R.ok_bind]
      dsimp only
      refine ⟨_, argTail_ok _ _ T r h ht hn, ⟨rfl, ?_, rfl, rfl⟩⟩
      simp
  | @named k nm sp a t i h hnm hfirst ht =>
    obtain ⟨rfl, hname, hn⟩ := hv
    have hs' : s.pos = P T (123#8 :: (nm ++ (renderSpec sp ++ 125#8 :: r))) := by
      rw [hs]; simp only [Piece.render, List.cons_append, List.append_assoc, List.nil_append]
    have hst : step pf true args s = stepOpen args s := by
      unfold step
      rw [hs', P_fst, R.ok_bind, if_neg (by cases pf <;> decide), if_neg (by decide), if_pos (by decide)]
    rw [hst]
    obtain ⟨q1, q2, q3⟩ := spec_head_props sp r
    have href := argRef_name args s.argId T nm _ hname q1 q3
    have hnm0 : nm ≠ [] := by obtain ⟨c, u, e, _⟩ := hname; rw [e]; simp
    rw [findName_eq hl hnm0 h hnm hfirst] at href
    cases hc : nm with
    | nil => exact absurd hc hnm0
    | cons c u =>
      subst hc
      obtain ⟨n1, n2⟩ := nameStart_ne ((isName_iff c u).mp hname).1
      rw [stepOpen_ref s T (u ++ (renderSpec sp ++ 125#8 :: r)) c hs' n1 n2]
      change argRef args s.argId (P T (c :: (u ++ (renderSpec sp ++ 125#8 :: r)))) = _ at href
      rw [href, if_pos (lt_of_get h), R.ok_bind]
      dsimp only
      refine ⟨_, argTail_ok _ _ T r h ht hn, ⟨rfl, ?_, rfl, rfl⟩⟩
      simp

/-- The other direction: a round either handles a valid piece that has a meaning, or fails. -/
theorem step_cases (pf py : Bool) {args : List Arg} (hl : args.length < 2 ^ 31) (k : Option Nat) (s : St) (rest : List Chr) (c : Chr) (x : List Chr)
    (hs : s.pos = P (0#8 :: rest) (c :: x)) (hid : s.argId = enc k) (hk : ∀ j, k = some j → j ≤ args.length) :
    (∃ p r t k' us, c :: x = p.render ++ r ∧ p.Valid pf py ∧ Sem args k p t k' us) ∨ ∃ e, step pf py args s = .error e ∧ (Good args → e = .assert) := by
  by_cases e1 : pf = true ∧ c = 37#8
  · obtain ⟨rfl, rfl⟩ := e1
    have hst : step true py args s = stepPercent args s := by
      unfold step
      rw [hs, P_fst, R.ok_bind, if_pos (by decide)]
    rw [hst]
    obtain ⟨pos, seg, out, argId, used⟩ := s
    dsimp only at hs hid
    subst hs hid
    cases hx : x with
    | nil => exact Or.inr ⟨.assert, rfl, fun _ => rfl⟩
    | cons d y =>
      by_cases e2 : d = 37#8
      · subst e2
        exact Or.inl ⟨.esc 37#8, y, [37#8], k, [], rfl, Or.inl ⟨rfl, rfl⟩, .esc _⟩
      · have hgo : stepPercent args ⟨P (0#8 :: rest) (37#8 :: d :: y), seg, out, enc k, used⟩ =
            (do
              let e ← advPrintf (P (0#8 :: rest) (d :: y))
              let spec := between (P (0#8 :: rest) (d :: y)) e
              ccAssert (decide (spec ≠ []))
              ccAssert (decide (enc k ≥ 0))
              ccAssert (decide (enc k < (args.length : Int)))
              let spec := if spec = [115#8] then [] else spec
              let s ← useArg args ⟨P (0#8 :: rest) (37#8 :: d :: y), [], out ++ seg, enc k, used⟩ (enc k).toNat spec
              pure { s with argId := s.argId + 1, pos := e } : R St) := by
          unfold stepPercent
          dsimp only
          rw [P_next, decide_eq_true (P_snd_ne _ _ _), ccAssert_true rfl, R.ok_bind, P_fst, R.ok_bind, if_neg e2]
        rw [hgo]
        rcases advPrintf_cases rest (d :: y) with ⟨sp, r, g1, g2, g3⟩ | g3
        · rw [g3, R.ok_bind, g1, between_P]
          dsimp only
          rw [decide_eq_true (printf_ne_nil g2), ccAssert_true rfl, R.ok_bind]
          cases k with
          | none => exact Or.inr ⟨.assert, rfl, fun _ => rfl⟩
          | some k =>
            rw [ccAssert_true (decide_eq_true (by unfold enc; dsimp only; omega)), R.ok_bind]
            rcases useArg_cases args k (if sp = [115#8] then [] else sp) ⟨P (0#8 :: rest) (37#8 :: (sp ++ r)), [], out ++ seg, enc (some k), used⟩ with ⟨a, t, h1, h2⟩ | ⟨e, h1, h2⟩
            · refine Or.inl ⟨.printf sp, r, t, some (k + 1), [k], rfl, ⟨rfl, g2⟩, .printf h1 h2⟩
            · by_cases hlt : k < args.length
              · rw [ccAssert_true (decide_eq_true (by unfold enc; dsimp only; omega)), R.ok_bind]
                refine Or.inr ⟨e, ?_, h2⟩
                rw [show (enc (some k)).toNat = k from rfl, h1]
                rfl
              · refine Or.inr ⟨.assert, ?_, fun _ => rfl⟩
                rw [decide_eq_false (by unfold enc; dsimp only; omega)]
                rfl
        · rw [g3]
          exact Or.inr ⟨.assert, rfl, fun _ => rfl⟩
  · have hn1 : (pf && c == 37#8) = false := by
      cases pf with
      | false => rfl
      | true => rw [Bool.true_and, beq_eq_false_iff_ne]; exact fun g => e1 ⟨rfl, g⟩
    by_cases e2 : py = true ∧ c = 125#8
    · obtain ⟨rfl, rfl⟩ := e2
      have hst : step pf true args s = stepClose s := by
        unfold step
        rw [hs, P_fst, R.ok_bind, hn1, if_neg (by decide), if_pos (by decide)]
      rw [hst]
      obtain ⟨pos, seg, out, argId, used⟩ := s
      dsimp only at hs hid
      subst hs hid
      cases hx : x with
      | nil => exact Or.inr ⟨.assert, rfl, fun _ => rfl⟩
      | cons d y =>
        by_cases e3 : d = 125#8
        · subst e3
          exact Or.inl ⟨.esc 125#8, y, [125#8], k, [], rfl, Or.inr ⟨rfl, Or.inr rfl⟩, .esc _⟩
        · refine Or.inr ⟨.assert, ?_, fun _ => rfl⟩
          unfold stepClose
          dsimp only
          rw [P_next, if_pos (P_snd_ne _ _ _), P_fst, R.ok_bind, decide_eq_false e3]
          rfl
    · have hn2 : (py && c == 125#8) = false := by
        cases py with
        | false => rfl
        | true => rw [Bool.true_and, beq_eq_false_iff_ne]; exact fun g => e2 ⟨rfl, g⟩
      by_cases e3 : py = true ∧ c = 123#8
      · obtain ⟨rfl, rfl⟩ := e3
        have hst : step pf true args s = stepOpen args s := by
          unfold step
          rw [hs, P_fst, R.ok_bind, hn1, hn2, if_neg (by decide), if_neg (by decide), if_pos (by decide)]
        rw [hst]
        cases hx : x with
        | nil =>
          refine Or.inr ⟨.assert, ?_, fun _ => rfl⟩
          obtain ⟨pos, seg, out, argId, used⟩ := s
          dsimp only at hs hid
          subst hs hx
          rfl
        | cons d y =>
          subst hx
          by_cases f1 : d = 123#8
          · subst f1
            exact Or.inl ⟨.esc 123#8, y, [123#8], k, [], rfl, Or.inr ⟨rfl, Or.inl rfl⟩, .esc _⟩
          · by_cases f2 : d = 125#8
            · subst f2
              obtain ⟨pos, seg, out, argId, used⟩ := s
              dsimp only at hs hid
              subst hs hid
              have hgo : stepOpen args ⟨P (0#8 :: rest) (123#8 :: 125#8 :: y), seg, out, enc k, used⟩ = (do
                  ccAssert (decide (enc k ≥ 0))
                  ccAssert (decide (enc k < (args.length : Int)))
                  let s ← useArg args ⟨P (0#8 :: rest) (123#8 :: 125#8 :: y), [], out ++ seg, enc k, used⟩ (enc k).toNat []
                  pure { s with argId := s.argId + 1, pos := P (0#8 :: rest) y } : R St) := by
                unfold stepOpen
                dsimp only
                rw [P_next, decide_eq_true (P_snd_ne _ _ _), ccAssert_true rfl, R.ok_bind, P_fst, R.ok_bind, if_neg (by decide), if_pos rfl, P_next]
              rw [hgo]
              cases k with
              | none => exact Or.inr ⟨.assert, rfl, fun _ => rfl⟩
              | some k =>
                rw [ccAssert_true (decide_eq_true (by unfold enc; dsimp only; omega)), R.ok_bind]
                rcases useArg_cases args k [] ⟨P (0#8 :: rest) (123#8 :: 125#8 :: y), [], out ++ seg, enc (some k), used⟩ with ⟨a, t, h1, h2⟩ | ⟨e, h1, h2⟩
                · exact Or.inl ⟨.auto none, y, t, some (k + 1), [k], rfl, ⟨rfl, (fun l hl => nomatch hl)⟩, .auto h1 h2⟩
                · by_cases hlt : k < args.length
                  · rw [ccAssert_true (decide_eq_true (by unfold enc; dsimp only; omega)), R.ok_bind]
                    refine Or.inr ⟨e, ?_, h2⟩
                    rw [show (enc (some k)).toNat = k from rfl, h1]
                    rfl
                  · refine Or.inr ⟨.assert, ?_, fun _ => rfl⟩
                    rw [decide_eq_false (by unfold enc; dsimp only; omega)]
                    rfl
            · rw [stepOpen_ref s _ y d hs f1 f2]
              rcases argRef_cases args s.argId (0#8 :: rest) d y with ⟨ds, b, g1, g2, g3, g4, g5, g6⟩ | ⟨nm, b, g1, g2, g3, g4, g5⟩ | ⟨g1, g2, g3⟩ | g
              · rw [g6, R.ok_bind]
                dsimp only
                rcases argTail_cases args (value 0 ds % 2 ^ 64) { s with out := s.out ++ s.seg, seg := [] } (-1) (0#8 :: rest) b with ⟨sp, r, a, t, h1, h2, h3, h4⟩ | ⟨e, h1, h2⟩
                · refine Or.inl ⟨.index ds sp, r, t, none, [_], ?_, ⟨rfl, g2, g3, h2⟩, .index h3 h4⟩
                  rw [g1, h1]
                  simp only [Piece.render, List.cons_append, List.append_assoc, List.nil_append]
                · exact Or.inr ⟨e, h1, h2⟩
              · rw [g5, R.ok_bind]
                dsimp only
                rcases argTail_cases args (findName args nm args.length 0) { s with out := s.out ++ s.seg, seg := [] } (-1) (0#8 :: rest) b with ⟨sp, r, a, t, h1, h2, h3, h4⟩ | ⟨e, h1, h2⟩
                · have hnm0 : nm ≠ [] := by obtain ⟨c, u, e, _⟩ := g2; rw [e]; simp
                  rcases findName_spec args hl nm hnm0 args.length 0 (by omega) (by omega) (fun j b hj => absurd hj (by omega)) with ⟨b', k1, k2, k3⟩ | ⟨k1, _⟩
                  · rw [h3] at k1
                    obtain rfl := Option.some.inj k1
                    refine Or.inl ⟨.named nm sp, r, t, none, [_], ?_, ⟨rfl, g2, h2⟩, .named h3 k2 k3 h4⟩
                    rw [g1, h1]
                    simp only [Piece.render, List.cons_append, List.append_assoc, List.nil_append]
                  · exact absurd g4 k1
                · exact Or.inr ⟨e, h1, h2⟩
              · rw [g3, R.ok_bind]
                dsimp only
                rcases argTail_cases args ((s.argId % 2 ^ 64).toNat) { s with out := s.out ++ s.seg, seg := [] } (s.argId + 1) (0#8 :: rest) (d :: y) with ⟨sp, r, a, t, h1, h2, h3, h4⟩ | ⟨e, h1, h2⟩
                · cases k with
                  | none =>
                    have hlt := lt_of_get h3
                    rw [hid] at hlt
                    have : (enc none % 2 ^ 64).toNat = 2 ^ 64 - 1 := by decide
                    rw [this] at hlt
                    omega
                  | some k =>
                    have hkl := hk k rfl
                    have hid2 : (s.argId % 2 ^ 64).toNat = k := by rw [hid]; unfold enc; dsimp only; omega
                    rw [hid2] at h3
                    refine Or.inl ⟨.auto sp, r, t, some (k + 1), [k], ?_, ⟨rfl, h2⟩, .auto h3 h4⟩
                    rw [h1]
                    simp only [Piece.render, List.cons_append, List.append_assoc, List.nil_append]
                · exact Or.inr ⟨e, h1, h2⟩
              · rw [g]
                exact Or.inr ⟨.assert, rfl, fun _ => rfl⟩
      · refine Or.inl ⟨.lit c, x, [c], k, [], rfl, ⟨fun g1 g2 => e1 ⟨g1, g2⟩, fun g => ⟨fun g2 => e3 ⟨g, g2⟩, fun g2 => e2 ⟨g, g2⟩⟩⟩, .lit c⟩

end Verif.Format
