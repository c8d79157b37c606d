import Verif.Call.Spec
import Verif.Mem.Own

/-! C82: calling through a reference or a unique function is calling the callable. -/
namespace Verif.Call
open Mem Mem.Own
variable {T S Γ B : Type} {e : Env T S Γ B}

theorem put_same {p : Prog T S Γ} {i : Nat} {o : Obj S} (h : p.objs i = some o) : p.put i (some o) = p := by
  obtain ⟨objs, rngs, g⟩ := p
  unfold Prog.put
  congr 1
  funext j
  by_cases hj : j = i
  · subst hj; simp only [if_true]; exact h.symm
  · simp only [if_neg hj]

theorem put_put (p : Prog T S Γ) (i : Nat) (o o' : Option (Obj S)) : (p.put i o).put i o' = p.put i o' := by
  unfold Prog.put
  congr 1
  funext j
  by_cases hj : j = i
  · simp only [if_pos hj]
  · simp only [if_neg hj]

theorem put_self (p : Prog T S Γ) (i : Nat) (o : Option (Obj S)) : (p.put i o).objs i = o := by simp [Prog.put]

theorem each_loop (e : Env T S Γ B) (t : Nat) (a : List T) : ∀ {p : Prog T S Γ} {c : Nat} {s : S}, p.objs t = some (.plain c s) →
    eachLoop e t p a = .ok { (p.put t (some (.plain c (Spec.folded e c s p.g a).1))) with g := (Spec.folded e c s p.g a).2 } := by
  induction a with
  | nil =>
    intro p c s h
    simp only [eachLoop, Spec.folded, List.foldl_nil]
    rw [put_same h]
  | cons v vs ih =>
    intro p c s h
    simp only [eachLoop, h]
    rw [ih (p := { (p.put t (some (.plain c (e.call1 c s p.g v).1))) with g := (e.call1 c s p.g v).2 }) (put_self _ _ _)]
    simp only [Spec.folded, List.foldl_cons]
    congr 1
    have := put_put p t (some (.plain c (e.call1 c s p.g v).1)) (some (.plain c (Spec.folded e c (e.call1 c s p.g v).1 (e.call1 c s p.g v).2 vs).1))
    simp only [Spec.folded, Prog.put, Prog.mk.injEq, and_true] at this ⊢
    exact this

/-- A reference and what it stands for. -/
def RefOK (f : FRef) : Spec.Target → Prop
  | .nothing => f.fn = none
  | .fun_ n => f = { data := .fun_ n, fn := some .fun_ }
  | .obj k i => f = { data := .obj i, fn := some (.obj k) }

theorem invoke_fun {p : Prog T S Γ} {a : List T} (n : Nat) :
    ({ data := .fun_ n, fn := some .fun_ } : FRef).invoke e p a = .ok ((e.func n p.g a).1, { p with g := (e.func n p.g a).2 }) := rfl

theorem invoke_obj {p : Prog T S Γ} {a : List T} (k : Kind) (i : Nat) : ({ data := .obj i, fn := some (.obj k) } : FRef).invoke e p a = callObj e p k i a := rfl

theorem invoke_ok {f : FRef} {t : Spec.Target} (hr : RefOK f t) {p : Prog T S Γ} {a : List T} {x : B × Prog T S Γ} (h : Spec.callTarget e p t a = some x) :
    f.invoke e p a = .ok x := by
  cases t with
  | nothing => cases h
  | fun_ n =>
    obtain rfl := hr
    simp only [Spec.callTarget, Option.some.injEq] at h
    subst h
    exact invoke_fun n
  | obj k i =>
    obtain rfl := hr
    rw [invoke_obj]
    simp only [Spec.callTarget] at h
    unfold callObj
    cases ho : p.objs i with
    | none => rw [ho] at h; cases h
    | some o =>
      rw [ho] at h
      simp only at h ⊢
      by_cases hk : o.kind ≠ k
      · rw [if_pos hk] at h; cases h
      · rw [if_neg hk] at h
        rw [if_neg hk]
        cases o with
        | plain c s =>
          simp only [Option.some.injEq] at h
          subst h
          rfl
        | each t =>
          simp only at h ⊢
          split at h
          · rename_i c s ht
            rw [each_loop e t a ht, R.ok_bind]
            rw [Option.some.inj h]
          · cases h
        | whole t =>
          simp only at h ⊢
          split at h
          · rename_i c s ht
            simp only [ht]
            rw [← Option.some.inj h]
            rfl
          · cases h

theorem forLoop_ok {f : FRef} {t : Spec.Target} (hr : RefOK f t) (l : List T) : ∀ {p q : Prog T S Γ}, Spec.callEach e p t l = some q → forLoop e f p l = .ok q := by
  induction l with
  | nil => intro p q h; simp only [Spec.callEach, List.foldlM_nil] at h; simp only [forLoop]; rw [Option.some.inj h]
  | cons v vs ih =>
    intro p q h
    simp only [Spec.callEach, List.foldlM_cons] at h
    cases hx : Spec.callTarget e p t [v] with
    | none => rw [hx] at h; cases h
    | some x =>
      rw [hx] at h
      simp only [forLoop]
      rw [invoke_ok hr hx, R.ok_bind]
      exact ih h

/-! ### unique functions -/

/-- A unique function and its callable. -/
structure Good (h : Heap (Ctx S)) (u : UF) (x : Option (Nat × S)) : Prop where
  none : u.ctx = none → x = none
  some : ∀ p, u.ctx = some p → ∃ s, x = some (u.cls, s) ∧ p < h.next ∧ h.blocks p = some [.live (u.alloc, u.cls, s)]

theorem local_ : Local UF.ctx (Good (S := S)) := by
  refine ⟨fun {h h' s l} g hk hn => ⟨g.none, fun b eb => ?_⟩, fun {h s l} g b eb => ?_⟩
  · obtain ⟨o, a0, a1, a2⟩ := g.some b eb
    exact ⟨o, a0, Nat.lt_of_lt_of_le a1 hn, by rw [hk b eb]; exact a2⟩
  · obtain ⟨o, a0, a1, a2⟩ := g.some b eb
    exact ⟨a1, _, a2⟩

theorem good_empty (h : Heap (Ctx S)) (u : UF) : Good h { u with ctx := none } none := ⟨fun _ => rfl, (fun _ e => by cases e)⟩

/-- The relation between the world and what the program sees. -/
structure WInv (w : World T S Γ) (σ : Spec.St T S Γ) : Prop where
  prog : w.prog = σ.prog
  refs : ∀ r, match w.refs r, σ.refs r with
    | none, none => True
    | some f, some t => RefOK f t
    | _, _ => False
  rrefs : w.rrefs = σ.rrefs
  own : Own.Inv UF.ctx (Good (S := S)) w.heap w.ufs σ.ufs

theorem ref_get {w : World T S Γ} {σ : Spec.St T S Γ} (I : WInv w σ) {r : Nat} {t : Spec.Target} (h : σ.refs r = some t) : ∃ f, look w.refs r = .ok f ∧ RefOK f t := by
  have := I.refs r
  rw [h] at this
  unfold look
  cases hw : w.refs r with
  | none => rw [hw] at this; exact this.elim
  | some f => rw [hw] at this; exact ⟨f, rfl, this⟩

theorem refs_upd {v : Nat → Option FRef} {σ : Nat → Option Spec.Target}
    (h : ∀ r, match v r, σ r with | none, none => True | some f, some t => RefOK f t | _, _ => False) (r : Nat) {f : FRef} {t : Spec.Target} (hr : RefOK f t) :
    ∀ q, match upd v r (some f) q, upd σ r (some t) q with | none, none => True | some f, some t => RefOK f t | _, _ => False := by
  intro q
  unfold upd
  by_cases hq : q = r
  · simp only [if_pos hq]; exact hr
  · simp only [if_neg hq]; exact h q

theorem destroy_ok {h : Heap (Ctx S)} (hb : Bound h) {u : UF} {x : Option (Nat × S)} (g : Good h u x) :
    ∃ h', u.destroy h = .ok h' ∧ Ch h h' u.ctx none ∧ h'.leaked = h.leaked := by
  unfold UF.destroy
  cases ed : u.ctx with
  | none => exact ⟨h, rfl, ch_refl hb, rfl⟩
  | some p =>
    obtain ⟨s, _, a1, a2⟩ := g.some p ed
    simp only [Option.isSome_some, if_true]
    rw [read_mid (i := 0) (pre := []) (post := []) a2 rfl rfl, R.ok_bind]
    dsimp only
    rw [if_neg (by simp), destroy_mid (i := 0) (pre := []) (post := []) a2 rfl rfl rfl, R.ok_bind,
      free_ok (Heap.set_blocks_self _ _ _) (Or.inr (by intro x hx; simp at hx; rw [hx]; rfl))]
    refine ⟨_, rfl, ?_, rfl⟩
    rw [Heap.set_unset]
    exact ch_unset hb p

theorem look_ok {X : Type} {v : Nat → Option X} {i : Nat} {x : X} (h : v i = some x) : look v i = .ok x := by unfold look; rw [h]

theorem move_ok {w : World T S Γ} {σ : Spec.St T S Γ} {h : Heap (Ctx S)} {s d : UF} {y x : Option (Nat × S)} {i j : Nat}
    (I : Own.Inv UF.ctx (Good (S := S)) h (Own.upd w.ufs i (some d)) (Own.upd σ.ufs i (some y))) (hd : d.ctx = none) (hj : w.ufs j = some s) (hs : σ.ufs j = some x) :
    ∃ w', ufMoveFrom w h i j = .ok w' ∧ w'.heap = h ∧ w'.prog = w.prog ∧ w'.refs = w.refs ∧ w'.rrefs = w.rrefs ∧
      Own.Inv UF.ctx (Good (S := S)) w'.heap w'.ufs (Own.upd (Own.upd σ.ufs i (some x)) j (some none)) := by
  have w2 : ∃ s', look (upd w.ufs i (some s)) j = .ok s' := by
    unfold look upd
    by_cases hji : j = i
    · rw [if_pos hji]; exact ⟨_, rfl⟩
    · rw [if_neg hji, hj]; exact ⟨_, rfl⟩
  obtain ⟨s', w2⟩ := w2
  refine ⟨{ w with heap := h, ufs := upd (upd w.ufs i (some s)) j (some { s' with ctx := none }) }, ?_, rfl, rfl, rfl, rfl, ?_⟩
  · unfold ufMoveFrom
    rw [look_ok hj, R.ok_bind]
    dsimp only
    rw [w2, R.ok_bind]
  · have ge := good_empty (S := S) h s'
    by_cases hij : i = j
    · subst hij
      show Own.Inv _ _ h (Own.upd (Own.upd w.ufs i _) i _) _
      rw [upd_upd, upd_upd]
      have := I.change local_ (h' := h) i (o := some { s' with ctx := none }) (l := some none) ge
        (by rw [upd_self]; show Ch h h d.ctx none; rw [hd]; exact ch_refl I.bound)
      rw [upd_upd, upd_upd] at this
      exact this
    · have hji : j ≠ i := fun e => hij e.symm
      obtain ⟨s1, e1, g⟩ := I.get (i := j) (l := x) (by rw [upd_ne _ _ hji]; exact hs)
      rw [upd_ne _ _ hji, hj] at e1
      obtain rfl := Option.some.inj e1
      have := I.move (i := i) (j := j) hij (r := s) (r' := s) (e := { s' with ctx := none }) (l := x) (by rw [upd_ne _ _ hji]; exact hj)
        (by rw [upd_self]; exact hd) rfl g rfl ge
      rw [upd_upd, upd_upd] at this
      exact this

theorem step_ok [DecidableEq S] {w : World T S Γ} {σ σ' : Spec.St T S Γ} {op : Op T S} {o : Obs B} (I : WInv w σ) (h : Spec.step e σ op = some (σ', o)) :
    ∃ w', step e w op = .ok (w', o) ∧ WInv w' σ' ∧ w'.heap.leaked = w.heap.leaked := by
  cases op with
  | obj i x =>
    simp only [Spec.step, Option.some.injEq, Prod.mk.injEq] at h
    obtain ⟨rfl, rfl⟩ := h
    exact ⟨_, rfl, ⟨by simp only [I.prog], I.refs, I.rrefs, I.own⟩, rfl⟩
  | rng i l =>
    simp only [Spec.step, Option.some.injEq, Prod.mk.injEq] at h
    obtain ⟨rfl, rfl⟩ := h
    exact ⟨_, rfl, ⟨by simp only [I.prog], I.refs, I.rrefs, I.own⟩, rfl⟩
  | refNew r =>
    simp only [Spec.step, Option.some.injEq, Prod.mk.injEq] at h
    obtain ⟨rfl, rfl⟩ := h
    exact ⟨_, rfl, ⟨I.prog, refs_upd I.refs r rfl, I.rrefs, I.own⟩, rfl⟩
  | ref r c =>
    cases c with
    | fun_ f =>
      cases f with
      | none => cases h
      | some f =>
        simp only [Spec.step, Option.some.injEq, Prod.mk.injEq] at h
        obtain ⟨rfl, rfl⟩ := h
        exact ⟨_, rfl, ⟨I.prog, refs_upd I.refs r rfl, I.rrefs, I.own⟩, rfl⟩
    | obj i =>
      simp only [Spec.step] at h
      cases ho : σ.prog.objs i with
      | none => rw [ho] at h; cases h
      | some x =>
        rw [ho] at h
        simp only [Option.bind_eq_bind, Option.bind_some, Option.some.injEq, Prod.mk.injEq] at h
        obtain ⟨rfl, rfl⟩ := h
        refine ⟨{ w with refs := upd w.refs r (some { data := .obj i, fn := some (.obj x.kind) }) }, ?_, ⟨I.prog, refs_upd I.refs r rfl, I.rrefs, I.own⟩, rfl⟩
        simp only [step, FRef.of]
        rw [I.prog, ho]
        rfl
  | refCopy r q =>
    simp only [Spec.step] at h
    cases ht : σ.refs q with
    | none => rw [ht] at h; cases h
    | some t =>
      rw [ht] at h
      simp only [Option.bind_eq_bind, Option.bind_some, Option.some.injEq, Prod.mk.injEq] at h
      obtain ⟨rfl, rfl⟩ := h
      obtain ⟨f, e1, g⟩ := ref_get I ht
      refine ⟨{ w with refs := upd w.refs r (some f) }, ?_, ⟨I.prog, refs_upd I.refs r g, I.rrefs, I.own⟩, rfl⟩
      simp only [step]
      rw [e1, R.ok_bind]
  | call r a =>
    simp only [Spec.step] at h
    cases ht : σ.refs r with
    | none => rw [ht] at h; cases h
    | some t =>
      rw [ht] at h
      simp only [Option.bind_eq_bind, Option.bind_some] at h
      cases hx : Spec.callTarget e σ.prog t a with
      | none => rw [hx] at h; cases h
      | some x =>
        rw [hx] at h
        simp only [Option.bind_some, Option.some.injEq, Prod.mk.injEq] at h
        obtain ⟨rfl, rfl⟩ := h
        obtain ⟨f, e1, g⟩ := ref_get I ht
        refine ⟨{ w with prog := x.2 }, ?_, ⟨rfl, I.refs, I.rrefs, I.own⟩, rfl⟩
        simp only [step]
        rw [e1, R.ok_bind, I.prog, invoke_ok g hx, R.ok_bind]
  | put r v =>
    simp only [Spec.step] at h
    cases ht : σ.refs r with
    | none => rw [ht] at h; cases h
    | some t =>
      rw [ht] at h
      simp only [Option.bind_eq_bind, Option.bind_some] at h
      cases hx : Spec.callTarget e σ.prog t [v] with
      | none => rw [hx] at h; cases h
      | some x =>
        rw [hx] at h
        simp only [Option.bind_some, Option.some.injEq, Prod.mk.injEq] at h
        obtain ⟨rfl, rfl⟩ := h
        obtain ⟨f, e1, g⟩ := ref_get I ht
        refine ⟨{ w with prog := x.2 }, ?_, ⟨rfl, I.refs, I.rrefs, I.own⟩, rfl⟩
        simp only [step, streamPut]
        rw [e1, R.ok_bind, I.prog, invoke_ok g hx, R.ok_bind, R.ok_bind]
  | puts r vs =>
    simp only [Spec.step] at h
    cases ht : σ.refs r with
    | none => rw [ht] at h; cases h
    | some t =>
      rw [ht] at h
      simp only [Option.bind_eq_bind, Option.bind_some] at h
      cases hx : Spec.callTarget e σ.prog t vs with
      | none => rw [hx] at h; cases h
      | some x =>
        rw [hx] at h
        simp only [Option.bind_some, Option.some.injEq, Prod.mk.injEq] at h
        obtain ⟨rfl, rfl⟩ := h
        obtain ⟨f, e1, g⟩ := ref_get I ht
        refine ⟨{ w with prog := x.2 }, ?_, ⟨rfl, I.refs, I.rrefs, I.own⟩, rfl⟩
        simp only [step, streamPuts]
        rw [e1, R.ok_bind, I.prog, invoke_ok g hx, R.ok_bind, R.ok_bind]
  | streamNew r i c s => cases h
  | rrefNew r =>
    simp only [Spec.step, Option.some.injEq, Prod.mk.injEq] at h
    obtain ⟨rfl, rfl⟩ := h
    exact ⟨_, rfl, ⟨I.prog, I.refs, by simp only [I.rrefs], I.own⟩, rfl⟩
  | rref r i =>
    simp only [Spec.step, Option.some.injEq, Prod.mk.injEq] at h
    obtain ⟨rfl, rfl⟩ := h
    exact ⟨_, rfl, ⟨I.prog, I.refs, by simp only [I.rrefs], I.own⟩, rfl⟩
  | forEach r f =>
    simp only [Spec.step] at h
    cases hx : σ.rrefs r with
    | none => rw [hx] at h; cases h
    | some x =>
      rw [hx] at h
      simp only [Option.bind_eq_bind, Option.bind_some] at h
      cases ht : σ.refs f with
      | none => rw [ht] at h; cases h
      | some t =>
        rw [ht] at h
        simp only [Option.bind_some] at h
        obtain ⟨f', e1, g⟩ := ref_get I ht
        have hr : look w.rrefs r = .ok x := look_ok (by rw [I.rrefs]; exact hx)
        simp only [step]
        rw [hr, R.ok_bind, e1, R.ok_bind]
        cases x with
        | none =>
          simp only [Option.some.injEq, Prod.mk.injEq] at h
          obtain ⟨rfl, rfl⟩ := h
          exact ⟨w, by simp only [forEach]; rw [R.ok_bind], I, rfl⟩
        | some i =>
          simp only at h
          cases hl : σ.prog.rngs i with
          | none => rw [hl] at h; cases h
          | some l =>
            rw [hl] at h
            simp only [Option.bind_some] at h
            cases hp : Spec.callEach e σ.prog t l with
            | none => rw [hp] at h; cases h
            | some p =>
              rw [hp] at h
              simp only [Option.bind_some, Option.some.injEq, Prod.mk.injEq] at h
              obtain ⟨rfl, rfl⟩ := h
              refine ⟨{ w with prog := p }, ?_, ⟨rfl, I.refs, I.rrefs, I.own⟩, rfl⟩
              simp only [forEach]
              rw [I.prog, hl]
              simp only
              rw [forLoop_ok g l hp, R.ok_bind]
  | ufNew u =>
    simp only [Spec.step] at h
    by_cases hu : σ.ufs u = none
    · rw [if_pos hu] at h
      simp only [Option.some.injEq, Prod.mk.injEq] at h
      obtain ⟨rfl, rfl⟩ := h
      refine ⟨{ w with ufs := upd w.ufs u (some UF.new) }, rfl, ⟨I.prog, I.refs, I.rrefs, ?_⟩, rfl⟩
      exact I.own.change local_ u (show Both Good w.heap (some UF.new) (some none) from good_empty _ UF.new)
        (by rw [I.own.dead hu]; exact ch_refl I.own.bound)
    · rw [if_neg hu] at h; cases h
  | uf u i lv al =>
    simp only [Spec.step] at h
    by_cases hu : σ.ufs u = none
    · rw [if_pos hu] at h
      split at h
      · rename_i c s ho
        have key : ∀ q : Prog T S Γ, q = w.prog.put i (some (.plain c (e.left c s))) → ∃ w', step e w (.uf u i lv al) = .ok (w', .none) ∧
            WInv w' { σ with prog := q, ufs := upd σ.ufs u (some (some (c, s))) } ∧ w'.heap.leaked = w.heap.leaked := by
          intro q hq
          let h1 : Heap (Ctx S) := { (w.heap.set w.heap.next [.live (al, c, s)]) with next := w.heap.next + 1 }
          refine ⟨{ w with prog := q, heap := h1, ufs := upd w.ufs u (some { cls := c, alloc := al, ctx := some w.heap.next }) }, ?_, ⟨rfl, I.refs, I.rrefs, ?_⟩, rfl⟩
          · simp only [step, UF.of]
            rw [I.prog, ho]
            simp only
            rw [R.ok_bind, hq, I.prog]
          · refine I.own.change local_ u (show Both Good _ (some _) (some _) from ⟨(fun e => by cases e), fun p ep => ?_⟩) ?_
            · obtain rfl := Option.some.inj ep
              exact ⟨s, rfl, Nat.lt_succ_self _, by simp [h1, Heap.set]⟩
            · rw [I.own.dead hu]; exact ch_fresh I.own.bound (has_none _) _
        cases lv with
        | true =>
          simp only [if_true] at h
          by_cases hs : e.left c s = s
          · rw [if_pos hs] at h
            simp only [Option.some.injEq, Prod.mk.injEq] at h
            obtain ⟨rfl, rfl⟩ := h
            exact key σ.prog (by rw [hs, I.prog, put_same ho])
          · rw [if_neg hs] at h; cases h
        | false =>
          simp only [Bool.false_eq_true, if_false, Option.some.injEq, Prod.mk.injEq] at h
          obtain ⟨rfl, rfl⟩ := h
          exact key (σ.prog.put i (some (.plain c (e.left c s)))) (by rw [I.prog])
      · cases h
    · rw [if_neg hu] at h; cases h
  | ufMove u v =>
    simp only [Spec.step] at h
    by_cases hu : σ.ufs u = none
    · rw [if_pos hu] at h
      cases hv : σ.ufs v with
      | none => rw [hv] at h; cases h
      | some x =>
        rw [hv] at h
        simp only [Option.bind_eq_bind, Option.bind_some, Option.some.injEq, Prod.mk.injEq] at h
        obtain ⟨rfl, rfl⟩ := h
        obtain ⟨s, e1, g⟩ := I.own.get hv
        have J : Own.Inv UF.ctx (Good (S := S)) w.heap (Own.upd w.ufs u (some UF.new)) (Own.upd σ.ufs u (some none)) :=
          I.own.change local_ u (show Both Good w.heap (some UF.new) (some none) from good_empty _ UF.new) (by rw [I.own.dead hu]; exact ch_refl I.own.bound)
        obtain ⟨w', e2, e3, e4, e5, e6, K⟩ := move_ok (w := w) (σ := σ) J rfl e1 hv
        refine ⟨w', ?_, ⟨e4.trans I.prog, by rw [e5]; exact I.refs, e6.trans I.rrefs, K⟩, by rw [e3]⟩
        simp only [step]
        rw [e2, R.ok_bind]
    · rw [if_neg hu] at h; cases h
  | ufAssign u v =>
    simp only [Spec.step] at h
    cases hu : σ.ufs u with
    | none => rw [hu] at h; cases h
    | some y =>
      rw [hu] at h
      simp only [Option.bind_eq_bind, Option.bind_some] at h
      cases hv : σ.ufs v with
      | none => rw [hv] at h; cases h
      | some x =>
        rw [hv] at h
        simp only [Option.bind_some, Option.some.injEq, Prod.mk.injEq] at h
        obtain ⟨rfl, rfl⟩ := h
        obtain ⟨s, e1, g⟩ := I.own.get hv
        obtain ⟨d, f1, gd⟩ := I.own.get hu
        obtain ⟨h', e0, c, l⟩ := destroy_ok I.own.bound gd
        have J : Own.Inv UF.ctx (Good (S := S)) h' (Own.upd w.ufs u (some { d with ctx := none })) (Own.upd σ.ufs u (some none)) :=
          I.own.change local_ u (show Both Good h' (some { d with ctx := none }) (some none) from good_empty _ d) (by rw [f1]; exact c)
        obtain ⟨w', e2, e3, e4, e5, e6, K⟩ := move_ok (w := w) (σ := σ) J rfl e1 hv
        refine ⟨w', ?_, ⟨e4.trans I.prog, by rw [e5]; exact I.refs, e6.trans I.rrefs, K⟩, by rw [e3, l]⟩
        simp only [step]
        rw [look_ok f1, R.ok_bind, e0, R.ok_bind, e2, R.ok_bind]
  | ufDrop u =>
    simp only [Spec.step] at h
    cases hu : σ.ufs u with
    | none => rw [hu] at h; cases h
    | some y =>
      rw [hu] at h
      simp only [Option.bind_eq_bind, Option.bind_some, Option.some.injEq, Prod.mk.injEq] at h
      obtain ⟨rfl, rfl⟩ := h
      obtain ⟨d, f1, gd⟩ := I.own.get hu
      obtain ⟨h', e0, c, l⟩ := destroy_ok I.own.bound gd
      refine ⟨{ w with heap := h', ufs := upd w.ufs u none }, ?_, ⟨I.prog, I.refs, I.rrefs, ?_⟩, l⟩
      · simp only [step]
        rw [look_ok f1, R.ok_bind, e0, R.ok_bind]
      · exact I.own.change local_ u (o := none) (l := none) trivial (by rw [f1]; exact c)
  | ufCall u a =>
    simp only [Spec.step] at h
    split at h
    · rename_i c s hu
      simp only [Option.some.injEq, Prod.mk.injEq] at h
      obtain ⟨rfl, rfl⟩ := h
      obtain ⟨d, f1, gd⟩ := I.own.get hu
      cases ed : d.ctx with
      | none => have := gd.none ed; cases this
      | some p =>
        obtain ⟨s', a0, a1, a2⟩ := gd.some p ed
        simp only [Option.some.injEq, Prod.mk.injEq] at a0
        obtain ⟨rfl, rfl⟩ := a0
        refine ⟨{ w with heap := w.heap.set p [.live (d.alloc, d.cls, (e.call d.cls s w.prog.g a).2.1)], prog := { w.prog with g := (e.call d.cls s w.prog.g a).2.2 } }, ?_,
          ⟨by simp only [I.prog], I.refs, I.rrefs, ?_⟩, rfl⟩
        · simp only [step, UF.invoke]
          rw [look_ok f1, R.ok_bind, ed, ccAssert_true (c := (some p).isSome) rfl, R.ok_bind, read_mid (i := 0) (pre := []) (post := []) a2 rfl rfl, R.ok_bind]
          dsimp only
          rw [if_neg (by simp), put_mid (i := 0) (pre := []) (post := []) _ a2 rfl rfl, R.ok_bind, R.ok_bind, I.prog]
          rfl
        · have := I.own.change local_ (h' := w.heap.set p [.live (d.alloc, d.cls, (e.call d.cls s w.prog.g a).2.1)]) u (o := some d)
            (l := some (some (d.cls, (e.call d.cls s w.prog.g a).2.1)))
            (show Good _ d _ from ⟨(fun e => by rw [ed] at e; cases e), fun q eq => by
              rw [ed] at eq
              obtain rfl := Option.some.inj eq
              exact ⟨_, rfl, a1, Heap.set_blocks_self _ _ _⟩⟩)
            (by rw [f1]; show Ch _ _ d.ctx d.ctx; rw [ed]; exact ch_set I.own.bound a1 _)
          rw [upd_same w.ufs f1] at this
          rw [I.prog] at this ⊢
          exact this
    · cases h
  | ufValid u =>
    simp only [Spec.step] at h
    cases hu : σ.ufs u with
    | none => rw [hu] at h; cases h
    | some y =>
      rw [hu] at h
      simp only [Option.bind_eq_bind, Option.bind_some, Option.some.injEq, Prod.mk.injEq] at h
      obtain ⟨rfl, rfl⟩ := h
      obtain ⟨d, f1, gd⟩ := I.own.get hu
      refine ⟨w, ?_, I, rfl⟩
      simp only [step]
      rw [look_ok f1, R.ok_bind]
      cases ed : d.ctx with
      | none => rw [gd.none ed]; rfl
      | some p => obtain ⟨s, a0, _⟩ := gd.some p ed; rw [a0]; rfl

theorem init_ok (g : Γ) : WInv (T := T) (S := S) (World.init g) (Spec.St.init g) :=
  ⟨rfl, fun _ => trivial, rfl, Own.Inv.init fun _ => rfl⟩

theorem run_ok [DecidableEq S] (ops : List (Op T S)) : ∀ {w : World T S Γ} {σ σ' : Spec.St T S Γ} {os : List (Obs B)}, WInv w σ → Spec.run e σ ops = some (σ', os) →
    ∃ w', run e w ops = .ok (w', os) ∧ WInv w' σ' ∧ w'.heap.leaked = w.heap.leaked := by
  induction ops with
  | nil =>
    intro w σ σ' os I h
    simp only [Spec.run, Option.some.injEq, Prod.mk.injEq] at h
    obtain ⟨rfl, rfl⟩ := h
    exact ⟨w, rfl, I, rfl⟩
  | cons op ops ih =>
    intro w σ σ' os I h
    simp only [Spec.run] at h
    cases hx : Spec.step e σ op with
    | none => rw [hx] at h; cases h
    | some x =>
      obtain ⟨σ1, o⟩ := x
      rw [hx] at h
      simp only [Option.bind_eq_bind, Option.bind_some] at h
      cases hy : Spec.run e σ1 ops with
      | none => rw [hy] at h; cases h
      | some y =>
        obtain ⟨σ2, os2⟩ := y
        rw [hy] at h
        simp only [Option.bind_some, Option.some.injEq, Prod.mk.injEq] at h
        obtain ⟨rfl, rfl⟩ := h
        obtain ⟨w1, e1, I1, l1⟩ := step_ok I hx
        obtain ⟨w2, e2, I2, l2⟩ := ih I1 hy
        refine ⟨w2, ?_, I2, by rw [l2, l1]⟩
        simp only [run]
        rw [e1, R.ok_bind]
        dsimp only
        rw [e2, R.ok_bind]

/-- C82 (all but default streams, and unique functions from lvalues that a move would change): in every history, each call through a reference, stream, range or unique function
gives the result, and leaves the program in the state, of calling the callable itself; no callable is lost, and when all unique functions are gone nothing is left on the heap. -/
theorem C82_callables_partial [DecidableEq S] (e : Env T S Γ B) (g : Γ) (ops : List (Op T S)) (σ : Spec.St T S Γ) (os : List (Obs B))
    (h : Spec.run e (Spec.St.init g) ops = some (σ, os)) :
    ∃ w, run e (World.init g) ops = .ok (w, os) ∧ w.prog = σ.prog ∧ w.heap.leaked = 0 ∧ ((∀ u, σ.ufs u = none) → ∀ b, w.heap.blocks b = none) := by
  obtain ⟨w, e1, I, l⟩ := run_ok ops (init_ok g) h
  exact ⟨w, e1, I.prog, l, fun hd b => I.own.empty hd b⟩

/-- C82: in every such history, calling a default-constructed `function_ref` or an empty or moved-from `unique_function`, or making a reference from a null function pointer, is
caught by an assertion. -/
theorem C82_empty_caught [DecidableEq S] (e : Env T S Γ B) (g : Γ) (ops : List (Op T S)) (σ : Spec.St T S Γ) (os : List (Obs B))
    (h : Spec.run e (Spec.St.init g) ops = some (σ, os)) :
    ∃ w, run e (World.init g) ops = .ok (w, os) ∧
      (∀ r a, σ.refs r = some .nothing → step e w (.call r a) = .error .assert) ∧
      (∀ u a, σ.ufs u = some none → step e w (.ufCall u a) = .error .assert) ∧
      ∀ r, step e w (.ref r (.fun_ none)) = .error .assert := by
  obtain ⟨w, e1, I, l⟩ := run_ok ops (init_ok g) h
  refine ⟨w, e1, fun r a hr => ?_, fun u a hu => ?_, fun r => rfl⟩
  · obtain ⟨f, e2, hf⟩ := ref_get I hr
    simp only [step]
    rw [e2, R.ok_bind]
    unfold FRef.invoke
    rw [show f.fn = none from hf]
    rfl
  · obtain ⟨d, f1, gd⟩ := I.own.get hu
    simp only [step]
    rw [look_ok f1, R.ok_bind]
    unfold UF.invoke
    cases ed : d.ctx with
    | none => rfl
    | some p => obtain ⟨s, a0, _⟩ := gd.some p ed; cases a0

/-- C82: a stream made from a callable for single values passes on every value, in order: writing spans one after another is writing all their values one by one. -/
theorem C82_stream_in_order (e : Env T S Γ B) (t : Nat) (a b : List T) {p q : Prog T S Γ} {c : Nat} {s : S} (h : p.objs t = some (.plain c s)) (hq : eachLoop e t p a = .ok q) :
    eachLoop e t p (a ++ b) = eachLoop e t q b := by
  induction a generalizing p s with
  | nil => simp only [eachLoop] at hq; rw [Except.ok.inj hq]; rfl
  | cons v vs ih =>
    simp only [List.cons_append, eachLoop, h] at hq ⊢
    exact ih (put_self _ _ _) hq

/-- Disagreement: `stream_ref()` "behaves like /dev/null", but it refers to a lambda that is gone when the constructor returns. Writing to it uses a dead object. -/
theorem C82_default_stream_dangles (e : Env T S Γ B) (w : World T S Γ) (r i c : Nat) (s : S) (v : T) (hi : w.prog.objs i = none) :
    ∃ w', step e w (.streamNew r i c s) = .ok (w', .none) ∧ step e w' (.put r v) = .error .ub := by
  refine ⟨{ w with refs := upd w.refs r (some { data := .obj i, fn := some (.obj (.plain c)) }) }, ?_, ?_⟩
  · simp only [step, streamNew, FRef.of]
    rw [put_self]
    rfl
  · simp only [step, streamPut]
    rw [look_ok (x := { data := .obj i, fn := some (.obj (.plain c)) }) (by simp [upd]), R.ok_bind]
    rw [invoke_obj]
    simp only [callObj, hi]
    rfl

/-- Disagreement: a `unique_function` made from an lvalue moves from it, so that the caller's object changes. -/
theorem C82_lvalue_is_moved (e : Env T S Γ B) (w : World T S Γ) (u i al c : Nat) (s : S) (h : w.prog.objs i = some (.plain c s)) :
    ∃ w', step e w (.uf u i true al) = .ok (w', .none) ∧ w'.prog.objs i = some (.plain c (e.left c s)) := by
  simp only [step, UF.of, h]
  exact ⟨_, rfl, put_self _ _ _⟩

section examples

/-- Callables that collect numbers: class 0 gets spans, class 1 single values; a moved-from collector is empty. The global state is the number of calls. -/
def demo : Env Nat (List Nat) Nat Nat where
  call := fun _ s g a => (s.length, s ++ a, g + 1)
  call1 := fun _ s g v => (s ++ [v], g + 1)
  func := fun f g a => (f + a.length, g + 1)
  left := fun _ _ => []
  void := 0

def ops : List (Op Nat (List Nat)) :=
  [.obj 0 (some (.plain 0 [])), .obj 1 (some (.plain 1 [])), .obj 2 (some (.each 1)), .obj 3 (some (.whole 0)), .ref 0 (.obj 0), .ref 1 (.obj 2), .refCopy 2 1, .ref 3 (.fun_ (some 7)),
   .ref 4 (.obj 3), .call 0 [5, 6], .put 2 7, .puts 1 [8, 9], .call 3 [1, 2, 3], .puts 4 [4], .rng 0 (some [10, 11]), .rref 0 0, .forEach 0 2, .forEach 0 0,
   .uf 0 1 false 3, .ufCall 0 [1], .ufNew 1, .ufAssign 1 0, .ufCall 1 [2], .ufValid 0, .ufAssign 1 1, .ufValid 1, .ufDrop 0, .ufDrop 1, .obj 2 none]

def seen (x : Option (Spec.St Nat (List Nat) Nat × List (Obs Nat))) : Option (List (Option (Obj (List Nat))) × List (Obs Nat) × Nat) :=
  x.map fun y => ((List.range 3).map y.1.prog.objs, y.2, y.1.prog.g)

example : seen (Spec.run demo (Spec.St.init 0) ops) =
    some ([some (.plain 0 [5, 6, 4, 10, 11]), some (.plain 1 []), none],
      [.none, .none, .none, .none, .none, .none, .none, .none, .none, .res 0, .none, .none, .res 10, .none, .none, .none, .none, .none,
       .none, .res 5, .none, .none, .res 6, .bool false, .none, .bool false, .none, .none, .none], 12) := by decide +kernel

/-- The caller's collector is empty after it was given, as an lvalue, to a unique function. -/
example : ((run demo (World.init 0) [.obj 0 (some (.plain 0 [])), .ref 0 (.obj 0), .call 0 [5], .uf 0 0 true 0]).map fun x => x.1.prog.objs 0) = .ok (some (.plain 0 [])) := by
  decide +kernel

example : ((run demo (World.init 0) [.streamNew 0 9 0 [], .put 0 1]).map fun x => x.2) = .error .ub := by decide +kernel

end examples

end Verif.Call
