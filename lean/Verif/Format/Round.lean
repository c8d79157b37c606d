import Verif.Format.Step
/-! # One round of the loop -/
namespace Verif.Format
open Verif.StrView (Chr)
open Verif.Num (isDigit isDigit_iff value_nil value_cons)
open Verif.Num.Spec (IsDigit value)
open Spec (PrintfSpec Piece NameStart IsName renderSpec NoClose Denote Argument)

/-- No argument's own formatting is undefined. -/
def Good (args : List Arg) : Prop := ∀ a ∈ args, ∀ sp, a.fmt sp ≠ .error .ub

theorem useArg_ok {args : List Arg} {i : Nat} {a : Arg} {sp t : List Chr} (s : St) (h : args[i]? = some a) (ht : a.fmt sp = .ok t) :
    useArg args s i sp = .ok { s with out := s.out ++ t, used := i :: s.used } := by
  unfold useArg getArg
  rw [h]
  dsimp only
  rw [R.ok_bind, ht]
  rfl

theorem useArg_cases (args : List Arg) (i : Nat) (sp : List Chr) (s : St) :
    (∃ a t, args[i]? = some a ∧ a.fmt sp = .ok t) ∨ ∃ e, useArg args s i sp = .error e ∧ (Good args → e = .assert) := by
  cases h : args[i]? with
  | none =>
    refine Or.inr ⟨.assert, ?_, fun _ => rfl⟩
    unfold useArg getArg
    rw [h]
    rfl
  | some a =>
    cases ht : a.fmt sp with
    | ok t => exact Or.inl ⟨a, t, rfl, ht⟩
    | error e =>
      refine Or.inr ⟨e, ?_, ?_⟩
      · unfold useArg getArg
        rw [h]
        dsimp only
        rw [R.ok_bind, ht]
        rfl
      · intro g
        cases e with
        | assert => rfl
        | ub => exact absurd ht (g a (List.mem_of_getElem? h) sp)

theorem P_next (T : List Chr) (c : Chr) (s : List Chr) : next (P T (c :: s)) = P T s := P_drop T c s

theorem P_fst (T : List Chr) (c : Chr) (s : List Chr) : Str.rd (P T (c :: s)).1 0 = .ok c := rfl

theorem P_snd_ne (T : List Chr) (c : Chr) (s : List Chr) : (P T (c :: s)).2 ≠ 0 := by
  unfold P
  simp only [List.length_cons]
  omega

theorem P_nil_snd (T : List Chr) : (P T []).2 = 0 := rfl

theorem P_drop1 (T : List Chr) (c : Chr) (s : List Chr) : (P T (c :: s)).1.drop 1 = s ++ T := rfl

theorem P_sub1 (T : List Chr) (c : Chr) (s : List Chr) : (P T (c :: s)).2 - 1 = (s.length : Int) := by
  unfold P
  simp only [List.length_cons]
  omega

theorem argTail_ok {args : List Arg} {i : Nat} {a : Arg} {sp : Option (List Chr)} {t : List Chr} (s : St) (id : Int) (T r : List Chr) (h : args[i]? = some a)
    (ht : a.fmt (sp.getD []) = .ok t) (hn : NoClose sp) :
    argTail args s i id (P T (renderSpec sp ++ 125#8 :: r)) = .ok { s with out := s.out ++ t, used := i :: s.used, argId := id, pos := P T r } := by
  cases sp with
  | none =>
    change argTail args s i id (P T (125#8 :: r)) = _
    unfold argTail
    rw [decide_eq_true (P_snd_ne T _ _), ccAssert_true rfl, R.ok_bind, P_fst, R.ok_bind, if_pos rfl, useArg_ok (sp := []) s h ht, R.ok_bind, P_next]
    rfl
  | some l =>
    have hl : 125#8 ∉ l := hn l rfl
    change argTail args s i id (P T (58#8 :: (l ++ 125#8 :: r))) = _
    unfold argTail
    have hne : ((l ++ 125#8 :: r).length : Int) ≠ 0 := by
      rw [List.length_append, List.length_cons]; omega
    rw [decide_eq_true (P_snd_ne T _ _), ccAssert_true rfl, R.ok_bind, P_fst, R.ok_bind, if_neg (by decide), ccAssert_true (by decide), R.ok_bind, P_sub1,
      decide_eq_true hne, ccAssert_true rfl, R.ok_bind, P_drop1, specLoop_ok T l r [] hl, R.ok_bind]
    dsimp only
    rw [List.nil_append, useArg_ok (sp := l) s h ht, R.ok_bind, P_next]
    rfl

theorem argTail_cases (args : List Arg) (i : Nat) (s : St) (id : Int) (T x : List Chr) :
    (∃ sp r a t, x = renderSpec sp ++ 125#8 :: r ∧ NoClose sp ∧ args[i]? = some a ∧ a.fmt (sp.getD []) = .ok t) ∨
    ∃ e, argTail args s i id (P T x) = .error e ∧ (Good args → e = .assert) := by
  cases x with
  | nil => exact Or.inr ⟨.assert, rfl, fun _ => rfl⟩
  | cons d x =>
    by_cases e1 : d = 125#8
    · subst e1
      rcases useArg_cases args i [] s with ⟨a, t, h1, h2⟩ | ⟨e, h1, h2⟩
      · exact Or.inl ⟨none, x, a, t, rfl, (fun l hl => nomatch hl), h1, h2⟩
      · refine Or.inr ⟨e, ?_, h2⟩
        unfold argTail
        rw [decide_eq_true (P_snd_ne T _ _), ccAssert_true rfl, R.ok_bind, P_fst, R.ok_bind, if_pos rfl, h1]
        rfl
    · by_cases e2 : d = 58#8
      · subst e2
        have hstep : argTail args s i id (P T (58#8 :: x)) = (do
            ccAssert (decide ((x.length : Int) ≠ 0))
            let (spec, r) ← specLoop (x ++ T) (x.length : Int) []
            let s ← useArg args s i spec
            pure { s with argId := id, pos := next r } : R St) := by
          unfold argTail
          rw [decide_eq_true (P_snd_ne T _ _), ccAssert_true rfl, R.ok_bind, P_fst, R.ok_bind, if_neg (by decide), ccAssert_true (by decide), R.ok_bind, P_sub1, P_drop1]
        cases hx : x with
        | nil => exact Or.inr ⟨.assert, by rw [hx] at hstep; rw [hstep]; rfl, fun _ => rfl⟩
        | cons y z =>
          rw [← hx]
          rw [decide_eq_true (by rw [hx, List.length_cons]; omega), ccAssert_true rfl, R.ok_bind] at hstep
          rcases specLoop_cases T x [] (by rw [hx]; simp) with ⟨l, r, g1, g2, g3⟩ | g3
          · rw [g3, R.ok_bind] at hstep
            dsimp only at hstep
            rw [List.nil_append] at hstep
            rcases useArg_cases args i l s with ⟨a, t, h1, h2⟩ | ⟨e, h1, h2⟩
            · refine Or.inl ⟨some l, r, a, t, by rw [g1]; rfl, ?_, h1, h2⟩
              intro l' hl'
              rw [← Option.some.inj hl']
              exact g2
            · exact Or.inr ⟨e, by rw [hstep, h1]; rfl, h2⟩
          · rw [g3] at hstep
            exact Or.inr ⟨.assert, hstep, fun _ => rfl⟩
      · refine Or.inr ⟨.assert, ?_, fun _ => rfl⟩
        unfold argTail
        rw [decide_eq_true (P_snd_ne T _ _), ccAssert_true rfl, R.ok_bind, P_fst, R.ok_bind, if_neg e1, decide_eq_false e2]
        rfl

/-! ### The index or name -/

theorem argRef_index (args : List Arg) (id : Int) (T ds b : List Chr) (h0 : ds ≠ []) (hd : ∀ c ∈ ds, IsDigit c) (hb0 : b ≠ []) (hb : ∀ c, b.head? = some c → ¬ IsDigit c) :
    argRef args id (P T (ds ++ b)) = if value 0 ds % 2 ^ 64 < args.length then .ok (value 0 ds % 2 ^ 64, -1, P T b) else .error .assert := by
  cases ds with
  | nil => exact absurd rfl h0
  | cons c ds =>
    have hc := hd c List.mem_cons_self
    have hc9 : c.toNat - 48 < 2 ^ 64 := by have := c.isLt; omega
    have hne : ((ds ++ b).length : Int) ≠ 0 := by
      have := List.length_pos_iff.mpr hb0
      rw [List.length_append]; omega
    change argRef args id (P T (c :: (ds ++ b))) = _
    unfold argRef
    rw [P_fst, R.ok_bind, if_pos ((isDigit_iff c).mpr hc), P_sub1, decide_eq_true hne, ccAssert_true rfl, R.ok_bind, P_drop1,
      indexLoop_ok T ds b _ hc9 (fun x hx => hd x (List.mem_cons_of_mem _ hx)) hb0 hb, R.ok_bind, value_cons]
    dsimp only
    rw [show 10 * 0 + (c.toNat - 48) = c.toNat - 48 by omega]
    by_cases e : value (c.toNat - 48) ds % 2 ^ 64 < args.length
    · rw [if_pos e, decide_eq_true e, ccAssert_true rfl]; rfl
    · rw [if_neg e, decide_eq_false e]; rfl

theorem argRef_name (args : List Arg) (id : Int) (T nm b : List Chr) (hn : IsName nm) (hb0 : b ≠ []) (hb : ∀ c, b.head? = some c → isNameChr c = false) :
    argRef args id (P T (nm ++ b)) = if findName args nm args.length 0 < args.length then .ok (findName args nm args.length 0, -1, P T b) else .error .assert := by
  cases nm with
  | nil => obtain ⟨c, t, e, _⟩ := hn; cases e
  | cons c nm =>
    obtain ⟨hc, hd⟩ := (isName_iff c nm).mp hn
    have hne : ((nm ++ b).length : Int) ≠ 0 := by
      have := List.length_pos_iff.mpr hb0
      rw [List.length_append]; omega
    change argRef args id (P T (c :: (nm ++ b))) = _
    unfold argRef
    rw [P_fst, R.ok_bind, if_neg (by rw [nameStart_not_digit hc]; decide), if_pos hc, P_sub1, decide_eq_true hne, ccAssert_true rfl, R.ok_bind, P_drop1,
      nameLoop_ok T nm b _ hd hb0 hb, R.ok_bind]
    dsimp only
    change (ccAssert (decide (findName args (c :: nm) args.length 0 < args.length)) >>= fun _ => pure (findName args (c :: nm) args.length 0, -1, P T b)) = _
    by_cases e : findName args (c :: nm) args.length 0 < args.length
    · rw [if_pos e, decide_eq_true e, ccAssert_true rfl]; rfl
    · rw [if_neg e, decide_eq_false e]; rfl

/-- All that can happen at the index or name. -/
theorem argRef_cases (args : List Arg) (id : Int) (T : List Chr) (c : Chr) (x : List Chr) :
    (∃ ds b, c :: x = ds ++ b ∧ ds ≠ [] ∧ (∀ d ∈ ds, IsDigit d) ∧ b ≠ [] ∧ value 0 ds % 2 ^ 64 < args.length ∧
      argRef args id (P T (c :: x)) = .ok (value 0 ds % 2 ^ 64, -1, P T b)) ∨
    (∃ nm b, c :: x = nm ++ b ∧ IsName nm ∧ b ≠ [] ∧ findName args nm args.length 0 < args.length ∧
      argRef args id (P T (c :: x)) = .ok (findName args nm args.length 0, -1, P T b)) ∨
    (¬ IsDigit c ∧ isNameStart c = false ∧ argRef args id (P T (c :: x)) = .ok ((id % 2 ^ 64).toNat, id + 1, P T (c :: x))) ∨
    argRef args id (P T (c :: x)) = .error .assert := by
  by_cases h1 : isDigit c = true
  · obtain ⟨ds, b, e, g1, g2⟩ := split_while isDigit (c :: x)
    have g1' : ∀ c ∈ ds, IsDigit c := fun c hc => (isDigit_iff c).mp (g1 c hc)
    have hds : ds ≠ [] := by
      intro g
      rw [g, List.nil_append] at e
      have := g2 c (by rw [← e]; rfl)
      rw [h1] at this
      cases this
    by_cases hb : b = []
    · refine Or.inr (Or.inr (Or.inr ?_))
      unfold argRef
      rw [P_fst, R.ok_bind, if_pos h1, P_sub1, P_drop1]
      rw [hb, List.append_nil] at e
      cases x with
      | nil => rfl
      | cons y x =>
        rw [decide_eq_true (by rw [List.length_cons]; omega), ccAssert_true rfl, R.ok_bind,
          indexLoop_all T (y :: x) _ (fun d hd => g1' d (by rw [← e]; exact List.mem_cons_of_mem _ hd)) (by simp)]
        rfl
    · have g2' : ∀ c, b.head? = some c → ¬ IsDigit c := by
        intro c hc g
        have := g2 c hc
        rw [(isDigit_iff c).mpr g] at this
        cases this
      rw [e, argRef_index args id T ds b hds g1' hb g2']
      by_cases hlt : value 0 ds % 2 ^ 64 < args.length
      · rw [if_pos hlt]
        exact Or.inl ⟨ds, b, rfl, hds, g1', hb, hlt, rfl⟩
      · rw [if_neg hlt]
        exact Or.inr (Or.inr (Or.inr rfl))
  · by_cases h2 : isNameStart c = true
    · obtain ⟨nm, b, e, g1, g2⟩ := split_while isNameChr x
      by_cases hb : b = []
      · refine Or.inr (Or.inr (Or.inr ?_))
        unfold argRef
        rw [P_fst, R.ok_bind, if_neg h1, if_pos h2, P_sub1, P_drop1]
        rw [hb, List.append_nil] at e
        cases x with
        | nil => rfl
        | cons y x =>
          rw [decide_eq_true (by rw [List.length_cons]; omega), ccAssert_true rfl, R.ok_bind,
            nameLoop_all T (y :: x) _ (fun d hd => g1 d (by rw [← e]; exact hd)) (by simp)]
          rfl
      · have hn : IsName (c :: nm) := (isName_iff c nm).mpr ⟨h2, g1⟩
        rw [e, ← List.cons_append, argRef_name args id T (c :: nm) b hn hb g2]
        by_cases hlt : findName args (c :: nm) args.length 0 < args.length
        · rw [if_pos hlt]
          exact Or.inr (Or.inl ⟨c :: nm, b, rfl, hn, hb, hlt, rfl⟩)
        · rw [if_neg hlt]
          exact Or.inr (Or.inr (Or.inr rfl))
    · refine Or.inr (Or.inr (Or.inl ⟨fun g => h1 ((isDigit_iff c).mpr g), Bool.eq_false_iff.mpr h2, ?_⟩))
      unfold argRef
      rw [P_fst, R.ok_bind, if_neg h1, if_neg h2]
      rfl

end Verif.Format
