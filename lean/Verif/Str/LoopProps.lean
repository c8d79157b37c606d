import Verif.Str.LoopSpec
import Verif.Str.ViewProps
/-!
# C145: the body of a loop over a string may change it within its capacity
-/
namespace Verif.Str
open Verif.StrView (Chr View)
open Spec (Cell)

theorem take_one {l : List Chr} {i : Nat} {c : Chr} (h : l[i]? = some c) : (l.drop i).take 1 = [c] := by
  obtain ⟨hi, rfl⟩ := List.getElem?_eq_some_iff.mp h
  rw [List.drop_eq_getElem_cons hi]
  rfl

theorem loop_ok {C : Nat} (h7 : 7 ≤ C) (hC : C < 2 ^ 61) {junk : Nat → Chr} {cap d : Nat} {body : Nat → Chr → List Op} (k : Nat) :
    ∀ {st : Sys} {σ σ' : List Cell} {cs : List Chr} {s : Str} (i : Nat), Inv C st σ → st.vars[d]? = some (some s) → s.capacity C = cap →
      Spec.loop d body k i σ = some (σ', cs) → Spec.LoopWithin cap d body k i σ →
      ∃ st' s', Sys.loop C junk d body s.place k i st = .ok (st', cs) ∧ Inv C st' σ' ∧ st'.vars[d]? = some (some s') ∧
        s'.place = s.place ∧ s'.capacity C = cap := by
  induction k with
  | zero =>
    intro st σ σ' cs s i hI hv hcap hl _
    simp only [Spec.loop, Option.some.injEq, Prod.mk.injEq] at hl
    obtain ⟨rfl, rfl⟩ := hl
    exact ⟨st, s, rfl, hI, hv, rfl, hcap⟩
  | succ k ih =>
    intro st σ σ' cs s i hI hv hcap hl hw
    simp only [Spec.loop] at hl
    cases e1 : σ[d]? with
    | none => rw [e1] at hl; cases hl
    | some cell =>
      cases cell with
      | dead => rw [e1] at hl; cases hl
      | moved => rw [e1] at hl; cases hl
      | val l t =>
        rw [e1] at hl
        dsimp only at hl
        cases e2 : l[i]? with
        | none => rw [e2] at hl; cases hl
        | some c =>
          rw [e2] at hl
          dsimp only at hl
          cases e3 : Spec.run σ (body i c) with
          | none => rw [e3] at hl; cases hl
          | some σ1 =>
            rw [e3] at hl
            dsimp only at hl
            obtain ⟨r, hr, hx⟩ := Option.map_eq_some_iff.mp hl
            cases hx
            obtain ⟨hw1, hw2⟩ := hw l t c e1 e2
            obtain ⟨st1, s1, q1, q2, q3, q4, q5⟩ := within_ok h7 hC (junk := junk) (body i c) hI hv hcap e3 hw1
            obtain ⟨st', s', p1, p2, p3, p4, p5⟩ := ih (i + 1) q2 q3 q5 hr (hw2 σ1 e3)
            obtain ⟨o, ho, s2, rfl, -, k', hg⟩ := inv_get hI e1
            rw [hv] at ho
            cases ho
            have hb : i + 1 ≤ l.length := (List.getElem?_eq_some_iff.mp e2).1
            refine ⟨st', s', ?_, p2, p3, p4.trans q4, p5⟩
            rw [q4] at p1
            rw [Sys.loop]
            have hget : st.get d = .ok s := by unfold Sys.get; rw [hv]
            rw [hget, R.ok_bind, through_ok hg hb, R.ok_bind, take_one e2]
            dsimp only
            rw [q1, R.ok_bind, p1]
            rfl

/-- **C145**: after any history, a loop over a string whose body makes calls that need no more room than the capacity of the string, and any
calls on other strings, visits as many positions as the string had characters when it began, from the first to the last, and at each
the character that is there at that time. -/
theorem C145_loop {C : Nat} (h7 : 7 ≤ C) (hC : C < 2 ^ 61) (junk : Nat → Chr) (n : Nat) (ops : List Op) (σ σ' : List Cell)
    (h : Spec.run (Spec.init n) ops = some σ) (st : Sys) (hst : Sys.run C junk (Sys.init n) ops = .ok st)
    (d : Nat) (s : Str) (hv : st.vars[d]? = some (some s)) (l : List Chr) (t : Bool) (hc : σ[d]? = some (.val l t))
    (body : Nat → Chr → List Op) (cs : List Chr) (hl : Spec.loop d body l.length 0 σ = some (σ', cs))
    (hw : Spec.LoopWithin (s.capacity C) d body l.length 0 σ) :
    ∃ st' s', Sys.forEach C junk d body st = .ok (st', cs) ∧ st'.vars[d]? = some (some s') ∧
      s'.place = s.place ∧ s'.capacity C = s.capacity C ∧
      ∀ (i : Nat) (l' : List Chr) (t' : Bool), σ'[i]? = some (.val l' t') → ∃ r, st'.vars[i]? = some (some r) ∧ r.chars = .ok l' := by
  obtain ⟨st0, h1, hI⟩ := run_ok h7 hC (junk := junk) ops (init_inv C n) h
  rw [hst] at h1
  cases h1
  obtain ⟨st', s', e1, e2, e3, e4, e5⟩ := loop_ok h7 hC (junk := junk) l.length 0 hI hv rfl hl hw
  obtain ⟨o, ho, s2, rfl, -, k, hg⟩ := inv_get hI hc
  rw [hv] at ho
  cases ho
  refine ⟨st', s', ?_, e3, e4, e5, fun i l' t' hi => ?_⟩
  · unfold Sys.forEach
    have hget : st.get d = .ok s := by unfold Sys.get; rw [hv]
    rw [hget, R.ok_bind, hg.size]
    exact e1
  · obtain ⟨o, ho, r, rfl, -, k', hr⟩ := inv_get e2 hi
    exact ⟨r, ho, chars_ok hr⟩

/-- **C145**: if the body has changed the memory of the string (a call that needed more room, `clear`, an assignment; see C144) or ended its
life, the next iteration is undefined. -/
theorem C145_loop_fails {C : Nat} (junk : Nat → Chr) (d : Nat) (body : Nat → Chr → List Op) (p : Place) (k i : Nat) (st st' : Sys) (s : Str)
    (c : Chr) (hv : st.vars[d]? = some (some s)) (hr : s.through p i 1 = .ok [c]) (hb : Sys.run C junk st (body i c) = .ok st')
    (hp : ∀ s', st'.vars[d]? = some (some s') → s'.place ≠ p) :
    Sys.loop C junk d body p (k + 2) i st = .error .ub := by
  have hget : st.get d = .ok s := by unfold Sys.get; rw [hv]
  have hnext : Sys.loop C junk d body p (k + 1) (i + 1) st' = .error .ub := by
    rw [Sys.loop]
    cases e : st'.get d with
    | error x =>
      unfold Sys.get at e
      split at e
      · cases e
      · cases e; rfl
    | ok s' =>
      have hv' : st'.vars[d]? = some (some s') := by
        unfold Sys.get at e
        split at e
        · rename_i q
          cases e
          exact q
        · cases e
      rw [R.ok_bind, through_other (Ne.symm (hp s' hv'))]
      rfl
  rw [Sys.loop, hget, R.ok_bind, hr, R.ok_bind]
  dsimp only
  rw [hb, R.ok_bind, hnext]
  rfl

/-! ### Cases that meet the hypotheses -/

/-- A body that changes the characters ahead and appends to the string and to another one. -/
def loopBody (i : Nat) (c : Chr) : List Op :=
  if i = 0 then [.replaceAt 0 1 1 [c], .pushBack 0 33#8, .append 1 (txt "a text longer than the small buffer")] else [.pushBack 1 c]

def loopOps : List Op := [.make 0 (txt "abc"), .make 1 (txt "")]

/-- The loop sees the changed character and not the appended one. -/
example :
    (do let st ← viewSys loopOps
        let (st, cs) ← Sys.forEach 15 (fun i => BitVec.ofNat 8 i) 0 loopBody st
        let s ← st.get 0
        let r ← s.chars
        pure (cs, r)) = .ok (txt "aac", txt "aac!") := by decide +kernel

example : ∃ σ σ', Spec.run (Spec.init 4) loopOps = some σ ∧ Spec.loop 0 loopBody 3 0 σ = some (σ', txt "aac") ∧
    Spec.LoopWithin 15 0 loopBody 3 0 σ := by
  refine ⟨[.val (txt "abc") true, .val [] true, .dead, .dead],
    [.val (txt "aac!") true, .val (txt "a text longer than the small bufferac") true, .dead, .dead], by decide +kernel, by decide +kernel, ?_⟩
  intro l t c h1 h2
  cases h1
  cases h2
  refine ⟨⟨Or.inr ⟨rfl, _, _, _, rfl, rfl, by decide +kernel⟩, fun σ1 g1 => ?_⟩, fun σ' hr => ?_⟩
  · obtain rfl := Option.some.inj g1
    refine ⟨Or.inr ⟨rfl, _, _, _, rfl, rfl, by decide +kernel⟩, fun σ2 g2 => ?_⟩
    obtain rfl := Option.some.inj g2
    exact ⟨Or.inl ⟨by decide, by decide⟩, fun _ _ => trivial⟩
  · obtain rfl := Option.some.inj hr
    intro l t c h1 h2
    cases h1
    cases h2
    refine ⟨⟨Or.inl ⟨by decide, by decide⟩, fun _ _ => trivial⟩, fun σ' hr => ?_⟩
    obtain rfl := Option.some.inj hr
    intro l t c h1 h2
    cases h1
    cases h2
    exact ⟨⟨Or.inl ⟨by decide, by decide⟩, fun _ _ => trivial⟩, fun _ _ => trivial⟩

/-- The body appends more than there is room for: the second iteration reads memory that the string does not use any more. -/
example :
    (do let st ← viewSys loopOps
        let (_, cs) ← Sys.forEach 15 (fun i => BitVec.ofNat 8 i) 0 (fun _ _ => [.append 0 (txt "0123456789abc")]) st
        pure cs) = .error .ub := by decide +kernel

end Verif.Str
