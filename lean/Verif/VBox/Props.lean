import Verif.VBox.Lemmas

/-! C79: `box`, `poly_box` and `fwd_box` hold exactly the object they were given and destroy it exactly once. -/
namespace Verif.VBox
open Mem Mem.Own
variable {α : Type} {e : Env α}

/-- Each variable holds its object, in memory of its own; there are no other objects. -/
abbrev WInv (e : Env α) (w : World α) (σ : Spec.St α) : Prop := HInv e w.heap w.vars σ

theorem get_ok {w : World α} {i : Nat} {b : Box} (h : w.vars i = some b) : w.get i = .ok b := by unfold World.get; rw [h]

theorem deref_ok {b : Box} {p : Nat} (h : b.data = some p) : b.deref = .ok (some p) := by unfold Box.deref; rw [h]; rfl

theorem arg_ok {w : World α} {σ : Spec.St α} (I : WInv e w σ) {a : Arg α} {u : Cls} {x : α} (ha : Spec.arg e σ u a = some x) :
    ∃ r, w.arg a = .ok r ∧ RefOK w.vars a r := by
  cases a with
  | val a => exact ⟨_, rfl, rfl⟩
  | copy i =>
    simp only [Spec.arg] at ha
    split at ha
    · rename_i k t' c a' hi
      obtain ⟨b, p, e1, _, _, e4, _⟩ := obj_ok I hi
      exact ⟨.copy b.ty (some p), by simp only [World.arg]; rw [get_ok e1, R.ok_bind, deref_ok e4, R.ok_bind], b, e1, rfl, e4.symm⟩
    · cases ha
  | move i =>
    simp only [Spec.arg] at ha
    split at ha
    · rename_i k t' c a' hi
      obtain ⟨b, p, e1, _, _, e4, _⟩ := obj_ok I hi
      exact ⟨.move b.ty (some p), by simp only [World.arg]; rw [get_ok e1, R.ok_bind, deref_ok e4, R.ok_bind], b, e1, rfl, e4.symm⟩
    · cases ha

/-- An argument that is an object of `i` has a living `i`. -/
theorem not_isObj {σ : Spec.St α} {a : Arg α} {u : Cls} {x : α} (ha : Spec.arg e σ u a = some x) {i : Nat} (hi : σ i = none) : ¬ Spec.isObj i a := by
  intro h
  cases a with
  | val a => exact h
  | copy j => simp only [Spec.isObj] at h; subst h; simp only [Spec.arg, hi] at ha; cases ha
  | move j => simp only [Spec.isObj] at h; subst h; simp only [Spec.arg, hi] at ha; cases ha

theorem moveFrom_ok {w : World α} {σ : Spec.St α} {h : Heap (Obj α)} {s d : Box} {k x : Spec.Bx α} {i j : Nat} {t : Cls}
    (I : HInv e h (upd w.vars i (some d)) (upd σ i (some k))) (hd : d.data = none) (hj : w.vars j = some s) (hs : σ j = some x) (hsk : s.kind = x.kind) (hst : s.ty = x.ty)
    (hf : ∀ c, x.obj.map Prod.fst = some c → Spec.fits e x.kind t c) (hij : i = j → x.ty = t) :
    ∃ w', moveFrom w h i t j = .ok w' ∧ w'.heap = h ∧ HInv e w'.heap w'.vars (upd (upd σ i (some { x with ty := t })) j (some { x with obj := none })) := by
  have w2 : ∃ s', (w.put h i (some { s with ty := t })).get j = .ok s' ∧ s'.kind = s.kind ∧ s'.ty = s.ty := by
    unfold World.get World.put
    simp only
    by_cases hji : j = i
    · rw [if_pos hji]
      exact ⟨_, rfl, rfl, by rw [hst, hij hji.symm]⟩
    · rw [if_neg hji, hj]
      exact ⟨_, rfl, rfl, rfl⟩
  obtain ⟨s', w2, k2, t2⟩ := w2
  refine ⟨(w.put h i (some { s with ty := t })).put h j (some { s' with data := none, del := false }), ?_, rfl, ?_⟩
  · unfold moveFrom
    rw [get_ok hj, R.ok_bind]
    dsimp only
    rw [w2, R.ok_bind]
  · have ge : Good e h { s' with data := none, del := false } { x with obj := none } := good_empty h (k2.trans hsk) (t2.trans hst)
    by_cases hij' : i = j
    · subst hij'
      show HInv e h (upd (upd w.vars i _) i _) _
      rw [upd_upd, upd_upd]
      have := I.change local_ (h' := h) i (o := some { s' with data := none, del := false }) (l := some { x with obj := none }) ge
        (by rw [upd_self]; show Ch h h d.data none; rw [hd]; exact ch_refl I.bound)
      rw [upd_upd, upd_upd] at this
      exact this
    · have hji : j ≠ i := fun e => hij' e.symm
      obtain ⟨s1, e1, g⟩ := I.get (i := j) (l := x) (by rw [upd_ne _ _ hji]; exact hs)
      rw [upd_ne _ _ hji, hj] at e1
      obtain rfl := Option.some.inj e1
      have g' : Good e h { s with ty := t } { x with ty := t } := by
        refine ⟨g.kind, rfl, g.none, fun p ep => ?_, g.del⟩
        obtain ⟨o, a0, a1, a2, a3⟩ := g.some p ep
        exact ⟨o, a0, a1, a2, hf o.1 (by rw [a0]; rfl)⟩
      have := I.move (i := i) (j := j) hij' (r := s) (r' := { s with ty := t }) (e := { s' with data := none, del := false }) (l := x) (by rw [upd_ne _ _ hji]; exact hj)
        (by rw [upd_self]; exact hd) rfl g' rfl ge
      rw [upd_upd, upd_upd] at this
      exact this

theorem polyAssign_ok {w : World α} {σ : Spec.St α} (I : WInv e w σ) {i : Nat} {d : Spec.Bx α} {u : Cls} {x : α} {a : Arg α} (hi : σ i = some d)
    (ha : Spec.arg e σ u a = some x) (hf : Spec.fits e .poly d.ty u) (hn : ¬ Spec.isObj i a) (hk : d.kind = .poly) :
    ∃ w', step e w (.assign i u a) = .ok (w', .none) ∧ WInv e w' ((Spec.after e σ a).put i (some { d with obj := some (u, some x) })) ∧ w'.heap.leaked = w.heap.leaked := by
  obtain ⟨r, e1, hr⟩ := arg_ok I ha
  obtain ⟨b, e2, g⟩ := I.get hi
  obtain ⟨h1, e3, c, l1⟩ := release_ok I.bound g
  have I1 := I.change local_ (h' := h1) i (o := some { b with data := none, del := false }) (l := some { d with obj := none }) (good_empty h1 g.kind g.ty) (by rw [e2]; exact c)
  obtain ⟨h2, e4, I2, l2⟩ := take_ok I1 (hr.upd hn _) (u := u) (x := x) (by rw [arg_put hn]; exact ha)
  have I3 := new_ok I2 (i := i) (by rw [upd_self]; rfl) (k := .poly) (t := d.ty) (u := u) x (d := b.del) hf (by intro h; cases h)
  rw [upd_upd, after_put hn] at I3
  have hb : b.kind = .poly := g.kind.trans hk
  refine ⟨w.put (newObj h2 u x).2 i (some { b with data := (newObj h2 u x).1 }), ?_, ?_, ?_⟩
  · simp only [step]
    rw [e1, R.ok_bind, get_ok e2, R.ok_bind, hb]
    simp only [polyAssign]
    have : (if b.data.isSome then deleteObj e w.heap b.ty b.data else .ok w.heap : R (Heap (Obj α))) = .ok h1 := by
      unfold Box.release at e3
      rw [hb] at e3
      exact e3
    rw [this, R.ok_bind, e4, R.ok_bind, R.ok_bind]
    have hy : ({ b with data := (newObj h2 u x).1 } : Box) = { kind := .poly, ty := b.ty, data := (newObj h2 u x).1, del := b.del } := by rw [← hb]
    rw [← hy]
  · have hx : ({ d with obj := some (u, some x) } : Spec.Bx α) = { kind := .poly, ty := d.ty, obj := some (u, some x) } := by rw [← hk]
    rw [hx]
    have hy : ({ b with data := (newObj h2 u x).1 } : Box) = { kind := .poly, ty := d.ty, data := (newObj h2 u x).1, del := b.del } := by rw [← hb, ← g.ty]
    show HInv e (newObj h2 u x).2 (upd w.vars i (some { b with data := (newObj h2 u x).1 })) _
    rw [hy]
    exact I3
  · show h2.leaked = _
    rw [l2, l1]

theorem boxAssign_ok {w : World α} {σ : Spec.St α} (I : WInv e w σ) {i : Nat} {d : Spec.Bx α} {x : α} {a : Arg α} (hi : σ i = some d)
    (ha : Spec.arg e σ d.ty a = some x) (hn : ∀ j, a = .move j → j ≠ i) (hk : d.kind = .box) :
    ∃ w', step e w (.assign i d.ty a) = .ok (w', .none) ∧ WInv e w' ((Spec.after e σ a).put i (some { d with obj := some (d.ty, some x) })) ∧
      w'.heap.leaked = w.heap.leaked := by
  obtain ⟨r, e1, hr⟩ := arg_ok I ha
  obtain ⟨b, e2, g⟩ := I.get hi
  obtain ⟨h1, e3, I1, l1⟩ := take_ok I hr ha
  have hb : b.kind = .box := g.kind.trans hk
  have ai : Spec.after e σ a i = σ i := by
    cases a with
    | val a => rfl
    | copy j => rfl
    | move j => exact after_ne (fun h => hn j rfl h)
  have st : ∀ h2 b2, boxAssign e w.heap b r = .ok (h2, b2) → step e w (.assign i d.ty a) = .ok (w.put h2 i (some b2), .none) := by
    intro h2 b2 hh
    simp only [step]
    rw [e1, R.ok_bind, get_ok e2, R.ok_bind, hb]
    simp only
    rw [hh, R.ok_bind]
  cases ed : b.data with
  | none =>
    have I2 := new_ok I1 (i := i) (by rw [e2]; exact ed) (k := .box) (t := d.ty) (u := d.ty) x (d := b.del) (Or.inl rfl) (by intro h; cases h)
    refine ⟨_, st (newObj h1 d.ty x).2 { b with data := (newObj h1 d.ty x).1 } ?_, ?_, l1⟩
    · unfold boxAssign
      rw [ed, g.ty, if_neg (by simp), e3, R.ok_bind]
    · have hx : ({ d with obj := some (d.ty, some x) } : Spec.Bx α) = { kind := .box, ty := d.ty, obj := some (d.ty, some x) } := by rw [← hk]
      rw [hx]
      have hy : ({ b with data := (newObj h1 d.ty x).1 } : Box) = { kind := .box, ty := d.ty, data := (newObj h1 d.ty x).1, del := b.del } := by rw [← hb, ← g.ty]
      show HInv e (newObj h1 d.ty x).2 (upd w.vars i (some { b with data := (newObj h1 d.ty x).1 })) _
      rw [hy]
      exact I2
  | some p =>
    obtain ⟨b', f1, g1⟩ := I1.get (i := i) (l := d) (by rw [ai]; exact hi)
    rw [e2] at f1
    obtain rfl := Option.some.inj f1
    obtain ⟨o, _, p1, p2, p3⟩ := g1.some p ed
    have I2 := set_ok I1 (o := (d.ty, some x)) e2 g1 ed p1 (Or.inl rfl)
    have as := assign_mid (i := 0) (pre := []) (post := []) ((d.ty, some x) : Obj α) p2 rfl rfl rfl
    refine ⟨_, st (h1.set p [.live (d.ty, some x)]) b ?_, I2, l1⟩
    unfold boxAssign
    rw [if_pos (by rw [ed]; rfl)]
    have fin : (do
        let (a, h) ← r.take e w.heap b.ty
        let h ← assign h b.data 0 (b.ty, some a)
        .ok (h, b) : R (Heap (Obj α) × Box)) = .ok (h1.set p [.live (d.ty, some x)], b) := by
      rw [g.ty, e3, R.ok_bind]
      dsimp only
      rw [ed, as, R.ok_bind]
      rfl
    cases r with
    | ext a' => exact fin
    | copy t q => exact fin
    | move t q =>
      have hq : q ≠ b.data := by
        cases a with
        | val a => exact hr.elim
        | copy j => exact hr.elim
        | move j =>
          obtain ⟨c, c1, _, rfl⟩ := hr
          intro hc
          rw [ed] at hc
          exact I.dist j i p (hn j rfl) (by rw [c1]; exact hc) (by rw [e2]; exact ed)
      simp only [if_neg hq]
      exact fin

theorem selfAssign_ok {w : World α} {σ : Spec.St α} (I : WInv e w σ) {i : Nat} {d : Spec.Bx α} {u : Cls} {x : α} (hi : σ i = some d)
    (ha : Spec.arg e σ u (.move i) = some x) (hk : d.kind = .box) :
    ∃ w', step e w (.assign i u (.move i)) = .ok (w', .none) ∧ WInv e w' (Spec.after e σ (.move i)) ∧ w'.heap.leaked = w.heap.leaked := by
  simp only [Spec.arg, hi] at ha
  obtain ⟨k, t, o⟩ := d
  rcases o with _ | ⟨c, _ | a⟩
  · cases ha
  · cases ha
  · obtain ⟨b, p, e1, e2, e3, e4, e5, e6, e7, g⟩ := obj_ok I hi
    have hb : b.kind = .box := g.kind.trans hk
    have st : ∀ h2, boxAssign e w.heap b (.move b.ty (some p)) = .ok (h2, b) → step e w (.assign i u (.move i)) = .ok (w.put h2 i (some b), .none) := by
      intro h2 hh
      simp only [step, World.arg]
      rw [get_ok e1, R.ok_bind, deref_ok e4, R.ok_bind, R.ok_bind, R.ok_bind, hb]
      simp only
      rw [hh, R.ok_bind]
    simp only [Spec.after, hi]
    have ba : boxAssign e w.heap b (.move b.ty (some p)) = (do
        let o ← Mem.read w.heap (some p) 0
        if e.triv b.ty then .ok (w.heap, b) else do
          let h ← put w.heap (some p) 0 (.live (o.1, none))
          .ok (h, b) : R (Heap (Obj α) × Box)) := by
      unfold boxAssign
      rw [if_pos (by rw [e4]; rfl)]
      simp only [e4, if_true]
    rw [read_mid (i := 0) (pre := []) (post := []) e6 rfl rfl, R.ok_bind, e3] at ba
    rw [e3] at st
    cases ht : e.triv t with
    | true =>
      rw [ht] at ba
      refine ⟨_, st w.heap (by rw [ba]; rfl), ?_, rfl⟩
      simp only [if_true]
      have h1 : upd σ i (some { kind := k, ty := t, obj := some (c, some a) }) = σ := upd_same σ hi
      have h2 : upd w.vars i (some b) = w.vars := upd_same w.vars e1
      show HInv e w.heap (upd w.vars i (some b)) (upd σ i _)
      rw [h1, h2]; exact I
    | false =>
      rw [ht, put_mid (i := 0) (pre := []) (post := []) _ e6 rfl rfl] at ba
      exact ⟨_, st (w.heap.set p [.live (c, none)]) ba, set_ok I (o := (c, none)) e1 g e4 e5 e7, rfl⟩

theorem step_ok {w : World α} {σ σ' : Spec.St α} (I : WInv e w σ) {op : Op α} {o : Obs α} (h : Spec.step e σ op = some (σ', o)) :
    ∃ w', step e w op = .ok (w', o) ∧ WInv e w' σ' ∧ w'.heap.leaked = w.heap.leaked := by
  cases op with
  | make i k t u a =>
    simp only [Spec.step] at h
    split at h
    · rename_i x hi ha
      split at h
      · rename_i hf
        obtain ⟨rfl, rfl⟩ := Prod.mk.inj (Option.some.inj h)
        obtain ⟨r, e1, hr⟩ := arg_ok I ha
        obtain ⟨h1, e2, I1, l1⟩ := take_ok I hr ha
        have I2 := new_ok I1 (i := i) (by rw [I.dead hi]; rfl) (k := k) (t := t) (u := u) x (d := decide (k = .fwd)) hf (by intro h; simp [h])
        refine ⟨w.put (newObj h1 u x).2 i (some { kind := k, ty := t, data := (newObj h1 u x).1, del := decide (k = .fwd) }), ?_, I2, l1⟩
        simp only [step, make]
        rw [e1, R.ok_bind, e2, R.ok_bind]
        rfl
      · cases h
    · cases h
  | moveNew i t j =>
    simp only [Spec.step] at h
    split at h
    · rename_i b hi hj
      split at h
      · rename_i hc
        obtain ⟨rfl, rfl⟩ := Prod.mk.inj (Option.some.inj h)
        obtain ⟨s, e1, g⟩ := I.get hj
        have I1 := I.change local_ (h' := w.heap) i (o := some { s with data := none, del := false }) (l := some { b with obj := none }) (good_empty _ g.kind g.ty)
          (by rw [I.dead hi]; exact ch_refl I.bound)
        obtain ⟨w', e2, hh, I2⟩ := moveFrom_ok I1 rfl e1 hj g.kind g.ty hc.1 (by intro h; rw [h, hj] at hi; cases hi)
        exact ⟨w', by simp only [step]; rw [e2, R.ok_bind], I2, by rw [hh]⟩
      · cases h
    · cases h
  | moveAssign i j =>
    simp only [Spec.step] at h
    split at h
    · rename_i d b hi hj
      split at h
      · rename_i hc
        obtain ⟨rfl, rfl⟩ := Prod.mk.inj (Option.some.inj h)
        obtain ⟨s, e1, g⟩ := I.get hi
        obtain ⟨r, e2, g2⟩ := I.get hj
        obtain ⟨h', e3, c, hl⟩ := release_ok I.bound g
        have I1 := I.change local_ (h' := h') i (o := some { s with data := none, del := false }) (l := some { d with obj := none }) (good_empty _ g.kind g.ty) (by rw [e1]; exact c)
        obtain ⟨w', e4, hh, I2⟩ := moveFrom_ok I1 rfl e2 hj g2.kind g2.ty hc.1 (by intro h; rw [h, hj] at hi; rw [Option.some.inj hi])
        rw [← g.ty] at e4
        exact ⟨w', by simp only [step]; rw [get_ok e1, R.ok_bind, e3, R.ok_bind, e4, R.ok_bind], I2, by rw [hh, hl]⟩
      · cases h
    · cases h
  | destroy i =>
    simp only [Spec.step] at h
    split at h
    · rename_i l hi
      obtain ⟨rfl, rfl⟩ := Prod.mk.inj (Option.some.inj h)
      obtain ⟨s, e1, g⟩ := I.get hi
      obtain ⟨h', e3, c, hl⟩ := release_ok I.bound g
      refine ⟨w.put h' i none, by simp only [step]; rw [get_ok e1, R.ok_bind, e3, R.ok_bind], I.change local_ i trivial ?_, hl⟩
      rw [e1]; exact c
    · cases h
  | assign i u a =>
    simp only [Spec.step] at h
    split at h
    · rename_i d x hi ha
      split at h
      · rename_i hk
        split at h
        · rename_i hc
          obtain ⟨rfl, rfl⟩ := Prod.mk.inj (Option.some.inj h)
          exact polyAssign_ok I hi ha hc.1 hc.2 hk
        · cases h
      · rename_i hk
        split at h
        · rename_i hu
          subst hu
          split at h
          · rename_i j
            split at h
            · rename_i hji
              subst hji
              obtain ⟨rfl, rfl⟩ := Prod.mk.inj (Option.some.inj h)
              exact selfAssign_ok I hi ha hk
            · rename_i hji
              obtain ⟨rfl, rfl⟩ := Prod.mk.inj (Option.some.inj h)
              exact boxAssign_ok I hi ha (by intro k hk; cases hk; exact hji) hk
          · rename_i hnm
            obtain ⟨rfl, rfl⟩ := Prod.mk.inj (Option.some.inj h)
            have : Spec.after e σ a = σ := by
              cases a with
              | val a => rfl
              | copy j => rfl
              | move j => exact (hnm j rfl).elim
            have := boxAssign_ok I hi ha (by intro k hk; exact (hnm k hk).elim) hk
            rename_i h3
            rw [h3] at this
            exact this
        · cases h
      · cases h
    · cases h
  | deref i =>
    simp only [Spec.step] at h
    split at h
    · rename_i k t c a hi
      obtain ⟨rfl, rfl⟩ := Prod.mk.inj (Option.some.inj h)
      obtain ⟨b, p, e1, _, _, e4, _, e6, _⟩ := obj_ok I hi
      exact ⟨w, by simp only [step]; rw [get_ok e1, R.ok_bind, deref_ok e4, R.ok_bind, value_ok e6, R.ok_bind], I, rfl⟩
    · cases h
  | conv i =>
    simp only [Spec.step] at h
    split at h
    · rename_i k t c a hi
      obtain ⟨rfl, rfl⟩ := Prod.mk.inj (Option.some.inj h)
      obtain ⟨b, p, e1, _, _, e4, _, e6, _⟩ := obj_ok I hi
      exact ⟨w, by simp only [step]; rw [get_ok e1, R.ok_bind, e4, value_ok e6, R.ok_bind], I, rfl⟩
    · cases h
  | store i a =>
    simp only [Spec.step] at h
    split at h
    · rename_i k t c a' hi
      obtain ⟨rfl, rfl⟩ := Prod.mk.inj (Option.some.inj h)
      obtain ⟨b, p, e1, _, _, e4, e5, e6, e7, g⟩ := obj_ok I hi
      refine ⟨w.put (w.heap.set p [.live (c, some a)]) i (some b), ?_, set_ok I (o := (c, some a)) e1 g e4 e5 e7, rfl⟩
      simp only [step]
      rw [get_ok e1, R.ok_bind, deref_ok e4, R.ok_bind, read_mid (i := 0) (pre := []) (post := []) e6 rfl rfl, R.ok_bind,
        assign_mid (i := 0) (pre := []) (post := []) _ e6 rfl rfl rfl, R.ok_bind]
      rfl
    · cases h
  | isNull i =>
    simp only [Spec.step] at h
    split at h
    · rename_i b hi
      obtain ⟨rfl, rfl⟩ := Prod.mk.inj (Option.some.inj h)
      obtain ⟨s, e1, g⟩ := I.get hi
      refine ⟨w, ?_, I, rfl⟩
      simp only [step]
      rw [get_ok e1, R.ok_bind]
      cases ed : s.data with
      | none => rw [g.none ed]; rfl
      | some p => obtain ⟨o, a0, _⟩ := g.some p ed; rw [a0]; rfl
    · cases h

theorem run_ok (ops : List (Op α)) : ∀ {w : World α} {σ σ' : Spec.St α} {os : List (Obs α)}, WInv e w σ →
    Spec.run e σ ops = some (σ', os) →
    ∃ w', run e w ops = .ok (w', os) ∧ WInv e w' σ' ∧ w'.heap.leaked = w.heap.leaked := by
  induction ops with
  | nil =>
    intro w σ σ' os I h
    obtain ⟨rfl, rfl⟩ := Prod.mk.inj (Option.some.inj h)
    exact ⟨w, rfl, I, rfl⟩
  | cons op ops ih =>
    intro w σ σ' os I h
    simp only [Spec.run, bind, Option.bind] at h
    split at h
    · cases h
    · rename_i x hx
      obtain ⟨σ1, o⟩ := x
      simp only at h
      split at h
      · cases h
      · rename_i y hy
        obtain ⟨σ2, os2⟩ := y
        obtain ⟨rfl, rfl⟩ := Prod.mk.inj (Option.some.inj h)
        obtain ⟨w1, e1, I1, l1⟩ := step_ok I hx
        obtain ⟨w2, e2, I2, l2⟩ := ih I1 hy
        exact ⟨w2, by unfold run; rw [e1, R.ok_bind]; dsimp only; rw [e2, R.ok_bind], I2, by rw [l2, l1]⟩

/-- C79 (all but the cases below): in every history that keeps to the rules, nothing is undefined and no assertion fails; a box holds the object it was given, with its class and value,
through all moves between boxes; a box that was moved from (also to itself) is empty. When all boxes are gone, all objects have been destroyed, and no object was
freed without its destructor. -/
theorem C79_boxes_partial (e : Env α) (ops : List (Op α)) (σ : Spec.St α) (os : List (Obs α)) (h : Spec.run e .init ops = some (σ, os)) :
    ∃ w, run e .init ops = .ok (w, os) ∧ w.heap.leaked = 0 ∧ ((∀ i, σ i = none) → ∀ b, w.heap.blocks b = none) := by
  obtain ⟨w, e1, I, hl⟩ := run_ok ops (w := .init) (σ := .init) (Own.Inv.init fun _ => rfl) h
  exact ⟨w, e1, hl, I.empty⟩

/-- C79: no two boxes ever share an object. -/
theorem C79_no_sharing (e : Env α) (ops : List (Op α)) (σ : Spec.St α) (os : List (Obs α)) (h : Spec.run e .init ops = some (σ, os)) :
    ∃ w, run e .init ops = .ok (w, os) ∧ ∀ i j a b p, i ≠ j → w.vars i = some a → w.vars j = some b → a.data = some p → b.data ≠ some p := by
  obtain ⟨w, e1, I, hl⟩ := run_ok ops (w := .init) (σ := .init) (Own.Inv.init fun _ => rfl) h
  exact ⟨w, e1, fun i j a b p hij ha hb hp hq => I.dist i j p hij (by rw [ha]; exact hp) (by rw [hb]; exact hq)⟩

/-- C79: access to a box that was moved from is caught by an assertion: by `operator*` and `operator->`, reading and writing. -/
theorem C79_moved_from_caught (e : Env α) (ops : List (Op α)) (σ : Spec.St α) (os : List (Obs α)) (h : Spec.run e .init ops = some (σ, os)) (i : Nat) (b : Spec.Bx α)
    (hi : σ i = some b) (hb : b.obj = none) (a : α) :
    ∃ w, run e .init ops = .ok (w, os) ∧ step e w (.deref i) = .error .assert ∧ step e w (.store i a) = .error .assert := by
  obtain ⟨w, e1, I, hl⟩ := run_ok ops (w := .init) (σ := .init) (Own.Inv.init fun _ => rfl) h
  obtain ⟨s, e2, g⟩ := I.get hi
  have : s.data = none := by
    cases ed : s.data with
    | none => rfl
    | some p => obtain ⟨o, a0, _⟩ := g.some p ed; rw [hb] at a0; cases a0
  have hd : s.deref = .error .assert := by unfold Box.deref; rw [this]; rfl
  refine ⟨w, e1, ?_, ?_⟩
  · simp only [step]; rw [get_ok e2, R.ok_bind, hd, R.error_bind]
  · simp only [step]; rw [get_ok e2, R.ok_bind, hd, R.error_bind]

/-- Disagreement: the implicit conversion to a reference is not checked; for a box that was moved from it refers to nothing. -/
theorem C79_conversion_unchecked (e : Env α) (ops : List (Op α)) (σ : Spec.St α) (os : List (Obs α)) (h : Spec.run e .init ops = some (σ, os)) (i : Nat) (b : Spec.Bx α)
    (hi : σ i = some b) (hb : b.obj = none) : ∃ w, run e .init ops = .ok (w, os) ∧ step e w (.conv i) = .error .ub := by
  obtain ⟨w, e1, I, hl⟩ := run_ok ops (w := .init) (σ := .init) (Own.Inv.init fun _ => rfl) h
  obtain ⟨s, e2, g⟩ := I.get hi
  have : s.data = none := by
    cases ed : s.data with
    | none => rfl
    | some p => obtain ⟨o, a0, _⟩ := g.some p ed; rw [hb] at a0; cases a0
  refine ⟨w, e1, ?_⟩
  simp only [step]
  rw [get_ok e2, R.ok_bind, this]
  rfl

/-- Disagreement: assigning to a `poly_box` its own object, or emplacing from it, copied or moved, reads the object after it was deleted. -/
theorem C79_own_object_is_dead (e : Env α) (t u : Cls) (a : α) :
    run e .init [.make 0 .poly t t (.val a), .assign 0 u (.move 0)] = .error .ub ∧ run e .init [.make 0 .poly t t (.val a), .assign 0 u (.copy 0)] = .error .ub := by
  constructor <;>
    simp [run, step, World.arg, make, Ref.take, newObj, World.put, World.get, Box.deref, polyAssign, deleteObj, Mem.read, Mem.get, slots, destroy, put, free, Heap.set,
      Heap.unset, value, Slot.alive, World.init, Heap.init, ccAssert, bind, Except.bind]

/-- Disagreement: a `poly_box` of a class without virtual destructor accepts an object of a derived class, and destroying it is undefined. -/
theorem C79_no_virtual_destructor (e : Env α) (t u : Cls) (a : α) (hu : u ≠ t) (hv : e.virt t = false) :
    run e .init [.make 0 .poly t u (.val a), .destroy 0] = .error .ub := by
  simp [run, step, World.arg, make, Ref.take, newObj, World.put, World.get, Box.release, deleteObj, Mem.read, Mem.get, slots, Heap.set, World.init, Heap.init, hu, hv, bind,
    Except.bind]

/-- Class 1 is derived from class 0, which has a virtual destructor; a conversion from the derived to the base class loses the tens. Moving class 2 is copying. -/
def env : Env Nat := { virt := fun c => decide (c = 0), triv := fun c => decide (c = 2), conv := fun u _ o => if u = 0 ∧ o.1 = 1 then o.2 % 10 else o.2 }

/-- All three kinds, derived objects, moves from a box of the derived class to one of the base class, moves of the object itself, and a move to itself. -/
def sample : List (Op Nat) :=
  [.make 0 .poly 0 1 (.val 37), .deref 0, .make 1 .poly 1 1 (.val 58), .moveAssign 0 1, .deref 0, .isNull 1, .moveNew 2 0 0, .isNull 0, .assign 0 0 (.move 2), .deref 0,
   .assign 2 1 (.val 4), .store 2 5, .conv 2, .make 3 .box 2 2 (.copy 2), .assign 3 2 (.move 3), .deref 3, .make 4 .box 5 5 (.move 3), .moveAssign 4 4, .isNull 4, .assign 4 5 (.val 8),
   .deref 4, .make 5 .fwd 6 6 (.val 9), .moveNew 6 6 5, .moveAssign 5 6, .deref 5, .destroy 0, .destroy 1, .destroy 2, .destroy 3, .destroy 4, .destroy 5, .destroy 6]

example : (Spec.run env .init sample).map (fun r => r.2.filter (· ≠ .none)) =
    some [.obj 1 37, .obj 1 58, .bool true, .bool true, .obj 0 8, .obj 1 5, .obj 2 5, .bool true, .obj 5 8, .obj 6 9] := by decide +kernel

example : ((run env .init sample).map fun r => (r.1.heap.leaked, r.2.filter (· ≠ .none))) =
    .ok (0, [.obj 1 37, .obj 1 58, .bool true, .bool true, .obj 0 8, .obj 1 5, .obj 2 5, .bool true, .obj 5 8, .obj 6 9]) := by decide +kernel

example : ∃ w, run env .init [.make 0 .fwd 6 6 (.val 3), .moveNew 1 6 0] = .ok (w, [.none, .none]) ∧ step env w (.deref 0) = .error .assert ∧ step env w (.store 0 7) = .error .assert :=
  C79_moved_from_caught env [.make 0 .fwd 6 6 (.val 3), .moveNew 1 6 0] _ _ rfl 0 _ rfl rfl 7

example : ∃ w, run env .init [.make 0 .box 6 6 (.val 3), .moveNew 1 6 0] = .ok (w, [.none, .none]) ∧ step env w (.conv 0) = .error .ub :=
  C79_conversion_unchecked env [.make 0 .box 6 6 (.val 3), .moveNew 1 6 0] _ _ rfl 0 _ rfl rfl

example : run env .init [.make 0 .poly 3 1 (.val 37), .destroy 0] = .error .ub := C79_no_virtual_destructor env 3 1 37 (by decide) (by decide)

end Verif.VBox
