import Verif.VBox.Spec
import Verif.Mem.Own

/-! Lemmas about the calls of the boxes. -/
namespace Verif.VBox
open Mem Mem.Own
variable {α : Type} {e : Env α}

/-- A box and its object. -/
structure Good (e : Env α) (h : Heap (Obj α)) (b : Box) (x : Spec.Bx α) : Prop where
  kind : b.kind = x.kind
  ty : b.ty = x.ty
  none : b.data = none → x.obj = none
  some : ∀ p, b.data = some p → ∃ o, x.obj = some o ∧ p < h.next ∧ h.blocks p = some [.live o] ∧ Spec.fits e x.kind x.ty o.1
  del : b.kind = .fwd → b.del = b.data.isSome

theorem local_ : Local Box.data (Good e) := by
  refine ⟨fun {h h' s l} g hk hn => ⟨g.kind, g.ty, g.none, fun b eb => ?_, g.del⟩, fun {h s l} g b eb => ?_⟩
  · obtain ⟨o, a0, a1, a2, a3⟩ := g.some b eb
    exact ⟨o, a0, Nat.lt_of_lt_of_le a1 hn, by rw [hk b eb]; exact a2, a3⟩
  · obtain ⟨o, a0, a1, a2, a3⟩ := g.some b eb
    exact ⟨a1, _, a2⟩

abbrev HInv (e : Env α) (h : Heap (Obj α)) (v : Nat → Option Box) (σ : Spec.St α) : Prop := Own.Inv Box.data (Good e) h v σ

/-- An empty box. -/
theorem good_empty (h : Heap (Obj α)) {b : Box} {x : Spec.Bx α} (hk : b.kind = x.kind) (ht : b.ty = x.ty) :
    Good e h { b with data := none, del := false } { x with obj := none } :=
  ⟨hk, ht, fun _ => rfl, (fun _ e => by cases e), fun _ => rfl⟩

theorem deleteObj_ok {h : Heap (Obj α)} (hb : Bound h) {t : Cls} {p : Nat} {o : Obj α} (hp : h.blocks p = some [.live o]) (hf : o.1 = t ∨ e.virt t = true) :
    ∃ h', deleteObj e h t (some p) = .ok h' ∧ Ch h h' (some p) none ∧ h'.leaked = h.leaked := by
  unfold deleteObj
  rw [read_mid (i := 0) (pre := []) (post := []) hp rfl rfl, R.ok_bind, if_pos hf, destroy_mid (i := 0) (pre := []) (post := []) hp rfl rfl rfl, R.ok_bind,
    free_ok (Heap.set_blocks_self _ _ _) (Or.inr (by intro x hx; simp at hx; rw [hx]; rfl))]
  refine ⟨_, rfl, ?_, rfl⟩
  rw [Heap.set_unset]
  exact ch_unset hb p

theorem fits_virt {k : Kind} {t u : Cls} (h : Spec.fits e k t u) : u = t ∨ e.virt t = true := h.imp id (·.2)

theorem release_ok {h : Heap (Obj α)} (hb : Bound h) {b : Box} {x : Spec.Bx α} (g : Good e h b x) :
    ∃ h', b.release e h = .ok h' ∧ Ch h h' b.data none ∧ h'.leaked = h.leaked := by
  cases ed : b.data with
  | none =>
    refine ⟨h, ?_, ch_refl hb, rfl⟩
    unfold Box.release
    cases hk : b.kind with
    | box => simp [ed]
    | poly => simp [ed]
    | fwd => rw [g.del hk, ed]; rfl
  | some p =>
    obtain ⟨o, _, a1, a2, a3⟩ := g.some p ed
    rw [← g.ty] at a3
    obtain ⟨h', e1, c, l⟩ := deleteObj_ok hb a2 (fits_virt a3)
    refine ⟨h', ?_, c, l⟩
    unfold Box.release
    rw [ed]
    cases hk : b.kind with
    | box => exact e1
    | poly => exact e1
    | fwd => rw [g.del hk, ed]; exact e1

/-- What an evaluated argument refers to. -/
def RefOK (v : Nat → Option Box) : Arg α → Ref α → Prop
  | .val a, .ext b => a = b
  | .copy i, .copy t p => ∃ b, v i = some b ∧ t = b.ty ∧ p = b.data
  | .move i, .move t p => ∃ b, v i = some b ∧ t = b.ty ∧ p = b.data
  | _, _ => False

theorem RefOK.upd {v : Nat → Option Box} {a : Arg α} {r : Ref α} (h : RefOK v a r) {i : Nat} (hi : ¬ Spec.isObj i a) (o : Option Box) : RefOK (upd v i o) a r := by
  cases a <;> cases r <;> simp only [RefOK, Spec.isObj] at h hi ⊢
  · exact h
  · rw [upd_ne _ _ hi]; exact h
  · rw [upd_ne _ _ hi]; exact h

theorem after_ne {σ : Spec.St α} {a : Arg α} {i : Nat} (h : ¬ Spec.isObj i a) : Spec.after e σ a i = σ i := by
  cases a with
  | val a => rfl
  | copy j => rfl
  | move j =>
    have hj : i ≠ j := fun e => h e.symm
    simp only [Spec.after]
    rcases hs : σ j with _ | ⟨k, t, _ | ⟨c, a⟩⟩
    · rfl
    · rfl
    · simp [Spec.St.put, hj]

theorem after_put {σ : Spec.St α} {a : Arg α} {i : Nat} (h : ¬ Spec.isObj i a) (o o' : Option (Spec.Bx α)) :
    upd (Spec.after e (upd σ i o) a) i o' = upd (Spec.after e σ a) i o' := by
  cases a with
  | val a => exact upd_upd _ _ _ _
  | copy j => exact upd_upd _ _ _ _
  | move j =>
    have hj : j ≠ i := h
    simp only [Spec.after]
    rw [upd_ne _ _ hj]
    split
    · funext k
      simp only [upd, Spec.St.put]
      by_cases hk : k = i
      · rw [if_pos hk, if_pos hk]
      · simp only [if_neg hk]
    · exact upd_upd _ _ _ _

theorem arg_put {σ : Spec.St α} {a : Arg α} {i : Nat} (h : ¬ Spec.isObj i a) (o : Option (Spec.Bx α)) (u : Cls) :
    Spec.arg e (upd σ i o) u a = Spec.arg e σ u a := by
  cases a with
  | val a => rfl
  | copy j => simp only [Spec.arg]; rw [upd_ne _ _ h]
  | move j => simp only [Spec.arg]; rw [upd_ne _ _ h]

theorem value_ok {h : Heap (Obj α)} {p : Nat} {c : Cls} {a : α} (hp : h.blocks p = some [.live (c, some a)]) : value h (some p) = .ok (c, a) := by
  unfold value
  rw [read_mid (i := 0) (pre := []) (post := []) hp rfl rfl, R.ok_bind]

/-- A box with an object. -/
theorem obj_ok {h : Heap (Obj α)} {v : Nat → Option Box} {σ : Spec.St α} (I : HInv e h v σ) {i : Nat} {k : Kind} {t : Cls} {o : Obj α}
    (hi : σ i = some { kind := k, ty := t, obj := some o }) :
    ∃ b p, v i = some b ∧ b.kind = k ∧ b.ty = t ∧ b.data = some p ∧ p < h.next ∧ h.blocks p = some [.live o] ∧ Spec.fits e k t o.1 ∧
      Good e h b { kind := k, ty := t, obj := some o } := by
  obtain ⟨b, e1, g⟩ := I.get hi
  cases ed : b.data with
  | none => have := g.none ed; cases this
  | some p =>
    obtain ⟨o', a0, a1, a2, a3⟩ := g.some p ed
    obtain rfl := Option.some.inj a0
    exact ⟨b, p, e1, g.kind, g.ty, ed ▸ rfl, a1, a2, a3, g⟩

/-- Changing the value of an object. -/
theorem set_ok {h : Heap (Obj α)} {v : Nat → Option Box} {σ : Spec.St α} (I : HInv e h v σ) {i p : Nat} {b : Box} {x : Spec.Bx α} {o : Obj α} (hv : v i = some b)
    (g : Good e h b x) (hd : b.data = some p) (hp : p < h.next) (hf : Spec.fits e x.kind x.ty o.1) :
    HInv e (h.set p [.live o]) (upd v i (some b)) (upd σ i (some { x with obj := some o })) := by
  refine I.change local_ i (show Both (Good e) _ (some b) (some _) from ⟨g.kind, g.ty, (fun e => by rw [hd] at e; cases e), fun q eq => ?_, g.del⟩) ?_
  · rw [hd] at eq
    obtain rfl := Option.some.inj eq
    exact ⟨o, rfl, hp, Heap.set_blocks_self _ _ _, hf⟩
  · rw [hv]; show Ch _ _ b.data b.data; rw [hd]; exact ch_set I.bound hp _

theorem take_ok {h : Heap (Obj α)} {v : Nat → Option Box} {σ : Spec.St α} (I : HInv e h v σ) {a : Arg α} {r : Ref α} (hr : RefOK v a r) {u : Cls} {x : α}
    (ha : Spec.arg e σ u a = some x) : ∃ h', r.take e h u = .ok (x, h') ∧ HInv e h' v (Spec.after e σ a) ∧ h'.leaked = h.leaked := by
  cases a with
  | val a =>
    cases r <;> simp only [RefOK] at hr
    subst hr
    simp only [Spec.arg, Option.some.injEq] at ha
    subst ha
    exact ⟨h, rfl, I, rfl⟩
  | copy i =>
    cases r <;> simp only [RefOK] at hr
    rename_i t p
    simp only [Spec.arg] at ha
    split at ha
    · rename_i k t' c a' hi
      obtain ⟨b, q, e1, _, e3, e4, e5, e6, e7, _⟩ := obj_ok I hi
      obtain ⟨b', f1, rfl, rfl⟩ := hr
      rw [e1] at f1
      obtain rfl := Option.some.inj f1
      refine ⟨h, ?_, I, rfl⟩
      simp only [Ref.take]
      rw [e4, value_ok e6, R.ok_bind, e3, Option.some.inj ha]
    · cases ha
  | move i =>
    cases r <;> simp only [RefOK] at hr
    rename_i t p
    simp only [Spec.arg] at ha
    split at ha
    · rename_i k t' c a' hi
      obtain ⟨b, q, e1, e2, e3, e4, e5, e6, e7, g⟩ := obj_ok I hi
      obtain ⟨b', f1, rfl, rfl⟩ := hr
      rw [e1] at f1
      obtain rfl := Option.some.inj f1
      simp only [Ref.take, Spec.after, hi]
      rw [e4, value_ok e6, R.ok_bind, e3]
      cases ht : e.triv t' with
      | true =>
        refine ⟨h, by simp only [if_true]; rw [Option.some.inj ha], ?_, rfl⟩
        simp only [if_true]
        rw [show Spec.St.put σ i _ = upd σ i _ from rfl, upd_same σ hi]
        exact I
      | false =>
        refine ⟨h.set q [.live (c, none)], ?_, ?_, rfl⟩
        · simp only [Bool.false_eq_true, if_false]
          rw [put_mid (i := 0) (pre := []) (post := []) _ e6 rfl rfl, R.ok_bind, Option.some.inj ha]
          rfl
        · simp only [Bool.false_eq_true, if_false]
          have := set_ok I (o := (c, none)) e1 g e4 e5 e7
          rw [upd_same v e1] at this
          exact this
    · cases ha

/-- A new object in variable `i`, which has none. -/
theorem new_ok {h : Heap (Obj α)} {v : Nat → Option Box} {σ : Spec.St α} (I : HInv e h v σ) {i : Nat} (hi : ptrOf Box.data (v i) = none) {k : Kind} {t u : Cls} (a : α) {d : Bool}
    (hf : Spec.fits e k t u) (hd : k = .fwd → d = true) :
    HInv e (newObj h u a).2 (upd v i (some { kind := k, ty := t, data := (newObj h u a).1, del := d })) (upd σ i (some { kind := k, ty := t, obj := some (u, some a) })) := by
  refine I.change local_ i (show Both (Good e) _ (some _) (some _) from ⟨rfl, rfl, (fun e => by cases e), fun q eq => ?_, fun hk => hd hk⟩) ?_
  · obtain rfl := Option.some.inj eq
    exact ⟨(u, some a), rfl, Nat.lt_succ_self _, by simp [newObj, Heap.set], hf⟩
  · rw [hi]; exact ch_fresh I.bound (has_none h) _

end Verif.VBox
