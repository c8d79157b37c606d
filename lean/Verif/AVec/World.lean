import Verif.AVec.Lemmas

/-! Helper lemmas for alloc_vector: moves, construction, comparison, histories. -/
namespace Verif.AVec
open Verif.Mem Verif.Vector

variable {α : Type}

theorem eqLoop_ok {T : Ty α} (l1 : List α) : ∀ {l2 : List α} {h h' : Heap α} {b c i : Nat} {pre1 post1 pre2 post2 : List (Slot α)}
    {s t}, h.blocks b = some s → s = pre1 ++ (l1.map .live ++ post1) → h'.blocks c = some t →
    t = pre2 ++ (l2.map .live ++ post2) → i = pre1.length → i = pre2.length → l1.length = l2.length →
    eqLoop T h h' (some b) (some c) i l1.length = .ok ((l1.zip l2).all (fun p => T.eqv p.1 p.2)) := by
  induction l1 with
  | nil => intros; simp [eqLoop]
  | cons x l1 ih =>
    intro l2 h h' b c i pre1 post1 pre2 post2 s t hb hs hc ht hi1 hi2 hl
    cases l2 with
    | nil => simp at hl
    | cons y l2 =>
      simp only [List.length_cons, eqLoop]
      rw [read_mid (pre := pre1) (a := x) (post := l1.map .live ++ post1) hb (by simp [hs]) hi1,
        read_mid (pre := pre2) (a := y) (post := l2.map .live ++ post2) hc (by simp [ht]) hi2]
      simp only [R.ok_bind, List.zip_cons_cons, List.all_cons]
      cases hp : T.eqv x y with
      | false => simp
      | true =>
        simp only [Bool.not_true, Bool.false_eq_true, if_false, Bool.true_and]
        exact ih (pre1 := pre1 ++ [.live x]) (post1 := post1) (pre2 := pre2 ++ [.live y]) (post2 := post2) hb (by simp [hs]) hc
          (by simp [ht]) (by simp; omega) (by simp; omega) (by simpa using hl)

theorem eq_ok {T : Ty α} {w : World α} {s : Spec.State α} (I : Inv T w s) (i j : Nat) :
    eq T w i j = .ok ((s i).l.length == (s j).l.length && ((s i).l.zip (s j).l).all (fun p => T.eqv p.1 p.2)) := by
  have o := I.owns i
  have o' := I.owns j
  unfold eq
  dsimp only
  generalize (s i).l = l at *
  generalize (s j).l = m at *
  rw [o.1, o'.1]
  split
  · rename_i hne
    have : (l.length == m.length) = false := by simpa using hne
    rw [this]; rfl
  · rename_i hne
    have hlen : l.length = m.length := by simpa using hne
    have : (l.length == m.length) = true := by simpa using hlen
    rw [this, Bool.true_and]
    obtain ⟨hsz, ⟨hd, hc, hl'⟩ | ⟨b, tail, hd, hb, hblk, hf, hc'⟩⟩ := o
    · subst hl'; rfl
    · obtain ⟨hsz2, ⟨hd2, hc2, hl2⟩ | ⟨b2, tail2, hd2, hb2, hblk2, hf2, hc2⟩⟩ := o'
      · subst hl2; rw [hlen]
        have : l = [] := by simpa using hlen
        subst this; rfl
      · rw [hd, hd2]
        exact eqLoop_ok l (pre1 := []) (pre2 := []) (post1 := tail) (post2 := tail2) hblk (by simp) hblk2 (by simp) rfl rfl hlen

theorem readAll_ok (l : List α) : ∀ {h : Heap α} {b i : Nat} {pre post : List (Slot α)} {s}, h.blocks b = some s →
    s = pre ++ (l.map .live ++ post) → i = pre.length → readAll h (some b) i l.length = .ok l := by
  induction l with
  | nil => intros; rfl
  | cons x l ih =>
    intro h b i pre post s hb hs hi
    simp only [List.length_cons, readAll]
    rw [read_mid (pre := pre) (a := x) (post := l.map .live ++ post) hb (by simp [hs]) hi]
    simp only [R.ok_bind]
    rw [ih (pre := pre ++ [.live x]) (post := post) hb (by simp [hs]) (by simp; omega)]
    rfl

theorem readAll_owns {T : Ty α} {h : Heap α} {v : Vec} {l : List α} (o : Owns T h v l) :
    readAll h v.data 0 v.size = .ok l := by
  obtain ⟨hsz, ⟨hd, hc, hl'⟩ | ⟨b, tail, hd, hb, hblk, hf, hc'⟩⟩ := o
  · subst hl'; rw [hsz]; rfl
  · rw [hsz, hd]
    exact readAll_ok l (pre := []) (post := tail) hblk (by simp) rfl

theorem construct_ok {T : Ty α} {w : World α} {s : Spec.State α} (I : Inv T w s) {a i : Nat} {c : Ctor α}
    (hn : Spec.demand s (.assignNew i (some a) c) ≤ 2 ^ 48) :
    Done T (w.heaps a) Vec.empty (Spec.ctorList T.dflt s c) (construct T w a c) := by
  have wf : WF (w.heaps a) := (I.sub a).wf
  cases c with
  | dflt => exact Done.refl wf (owns_empty T _)
  | sized n => exact mkSized_ok wf n
  | filled n x =>
    have := resize_ok (T := T) wf (owns_empty T (w.heaps a)) (n := n) (a := x) hn
    simpa [Vector.Spec.resized, Spec.ctorList, construct, mkFilled] using this
  | range l => exact mkRange_ok wf rfl hn
  | each l => exact pushEach_ok wf (owns_empty T _)
  | copyOf j =>
    have o := I.owns j
    simp only [construct, Spec.ctorList]
    by_cases ha : (w.vecs j).al = a
    · rw [if_pos ha]
      rw [ha] at o
      unfold mkCopy
      rw [o.1]
      exact mkRange_ok wf (o.srcAvail (by simp)) hn
    · rw [if_neg ha, readAll_owns o]
      simp only [R.ok_bind]
      rw [o.1]
      exact mkRange_ok wf rfl hn

theorem assignNew_ok {T : Ty α} {w : World α} {s : Spec.State α} (I : Inv T w s) {i : Nat} {a : Option Nat} {c : Ctor α}
    (hn : Spec.demand s (.assignNew i a c) ≤ 2 ^ 48) {clean : Prop} :
    StepOK T w clean (Spec.step T.dflt T.eqv s (.assignNew i a c)) (step T w (.assignNew i a c)) := by
  simp only [Spec.step, step, assignNew]
  cases a with
  | none => rfl
  | some a =>
    obtain ⟨h1, t, e, o, f, lk⟩ := construct_ok I (i := i) (c := c) hn
    simp only
    rw [e]
    simp only [R.ok_bind, setHeap_vecs]
    obtain ⟨w2, e2, I2, lk2⟩ := I.replace (i := i) f o lk
    rw [e2]
    simp only [R.ok_bind]
    rw [show AV.empty = ⟨system, Vec.empty⟩ from rfl, dtor_empty]
    exact ⟨_, rfl, I2, fun b => ⟨by rw [setVec_heaps, lk2]; exact Nat.le_refl _, fun _ => by rw [setVec_heaps, lk2]⟩⟩

/-- Destroy the vector in variable `i`; the variable becomes an empty vector with any allocator. -/
theorem Inv.drop {T : Ty α} {w : World α} {s : Spec.State α} (I : Inv T w s) (i a : Nat) :
    ∃ w2, dtor T w (w.vecs i) = .ok w2 ∧ w2.vecs = w.vecs ∧ Inv T (w2.setVec i ⟨a, Vec.empty⟩) (Spec.upd s i ⟨a, []⟩) ∧
      ∀ b, (w2.heaps b).leaked = (w.heaps b).leaked := by
  obtain ⟨w2, e, I2, lk⟩ := I.replace (i := i) (a := a) (h1 := w.heaps a) (t := Vec.empty) (l := []) (Frame.refl (I.sub a).wf none) (owns_empty T _) rfl
  rw [setHeap_self] at e
  refine ⟨w2, e, ?_, I2, lk⟩
  unfold dtor at e
  rw [R.bind_eq_ok] at e
  obtain ⟨h, -, e⟩ := e
  cases e
  rfl

/-- Exchange an empty variable `i` with variable `j`. -/
theorem Inv.take {T : Ty α} {w : World α} {s : Spec.State α} (I : Inv T w s) {i j : Nat} (hij : i ≠ j)
    (hv : (w.vecs i).v = Vec.empty) :
    Inv T ((w.setVec i (w.vecs j)).setVec j AV.empty) (Spec.upd (Spec.upd s i (s j)) j Spec.V.empty) := by
  constructor
  · intro k
    unfold World.setVec Spec.upd
    dsimp only
    by_cases hk : k = j
    · simp [hk, AV.empty, Spec.V.empty, system]
    · by_cases hk2 : k = i
      · simp only [hk2, if_true, if_false, hij]; exact I.al j
      · simp only [hk, hk2, if_false]; exact I.al k
  · intro a
    have hvi : (w.sub a).vecs i = Vec.empty := by
      by_cases ha : (w.vecs i).al = a
      · rw [sub_vecs_eq w ha, hv]
      · exact sub_vecs_ne w ha
    obtain ⟨w', e, I', -⟩ := Vector.moveAssign_ok (I.sub a) (i := i) (j := j) (clean := True)
    simp only [Vector.step, Vector.moveAssign] at e
    rw [dtor_ok (I.sub a).wf ((I.sub a).owns i), hvi] at e
    simp only [R.ok_bind, Vec.empty, dropBlock_none, Except.ok.injEq, Prod.mk.injEq, and_true] at e
    subst e
    have e1 : ((w.setVec i (w.vecs j)).setVec j AV.empty).sub a =
        ((w.sub a).put (w.sub a).heap i ((w.sub a).vecs j)).put (w.sub a).heap j { data := none, size := 0, cap := 0 } := by
      unfold World.sub World.setVec Vector.World.put AV.empty system Vec.empty
      dsimp only
      congr 1
      funext k
      by_cases hk : k = j
      · simp [hk]
      · by_cases hk2 : k = i
        · simp [hk2, hij]
        · simp [hk, hk2]
    have e2 : mask (Spec.upd (Spec.upd s i (s j)) j Spec.V.empty) a =
        Vector.Spec.upd (Vector.Spec.upd (mask s a) i (mask s a j)) j [] := by
      funext k
      unfold mask Spec.upd Vector.Spec.upd Spec.V.empty
      by_cases hk : k = j
      · simp [hk]
      · by_cases hk2 : k = i
        · simp [hk2, hij]
        · simp [hk, hk2]
    rw [e1, e2]
    exact I'

theorem spec_upd_upd (s : Spec.State α) (i : Nat) (x y : Spec.V α) : Spec.upd (Spec.upd s i x) i y = Spec.upd s i y := by
  funext j
  by_cases hj : j = i <;> simp [Spec.upd, hj]

theorem moveAssign_ok {T : Ty α} {w : World α} {s : Spec.State α} (I : Inv T w s) {i j : Nat} {clean : Prop} :
    StepOK T w clean (Spec.step T.dflt T.eqv s (.moveAssign i j)) (step T w (.moveAssign i j)) := by
  simp only [Spec.step, step, moveAssign]
  obtain ⟨w2, e, hvs, I2, lk⟩ := I.drop i system
  rw [e]
  simp only [R.ok_bind]
  refine ⟨_, rfl, ?_, fun b => ⟨by simp [lk], fun _ => by simp [lk]⟩⟩
  by_cases hij : i = j
  · subst hij
    rw [setVec_setVec, spec_upd_upd]
    exact I2
  · have h := I2.take hij (by simp)
    rw [setVec_ne _ _ (Ne.symm hij), setVec_setVec, spec_upd_upd] at h
    have : Spec.upd s i ⟨system, []⟩ j = s j := by simp [Spec.upd, Ne.symm hij]
    rw [this] at h
    exact h

theorem moveCtor_ok {T : Ty α} {w : World α} {s : Spec.State α} (I : Inv T w s) {i j : Nat} {clean : Prop} :
    StepOK T w clean (Spec.step T.dflt T.eqv s (.moveCtor i j)) (step T w (.moveCtor i j)) := by
  simp only [Spec.step, step, moveCtor]
  by_cases hij : i = j
  · subst hij
    rw [setVec_at, show AV.empty = ⟨system, Vec.empty⟩ from rfl, dtor_empty]
    simp only [R.ok_bind, setVec_setVec, spec_upd_upd]
    rw [dtor_empty, setVec_self, upd_self]
    exact ⟨_, rfl, I, fun b => ⟨Nat.le_refl _, fun _ => rfl⟩⟩
  · rw [setVec_ne _ _ hij]
    obtain ⟨w2, e, hvs, I2, lk⟩ := I.drop i system
    -- destroying `vecs[i]` does not look at `vecs[j]`
    have e' : dtor T (w.setVec j AV.empty) (w.vecs i) = .ok (w2.setVec j AV.empty) := by
      unfold dtor at e ⊢
      rw [R.bind_eq_ok] at e
      obtain ⟨h, eh, e⟩ := e
      rw [setVec_heaps, eh]
      cases e
      rfl
    rw [e']
    simp only [R.ok_bind]
    rw [show AV.empty = ⟨system, Vec.empty⟩ from rfl, dtor_empty]
    refine ⟨_, rfl, ?_, fun b => ⟨by simp [lk], fun _ => by simp [lk]⟩⟩
    have h := I2.take hij (by simp)
    rw [setVec_ne _ _ (Ne.symm hij), setVec_setVec, spec_upd_upd] at h
    have h1 : Spec.upd s i ⟨system, []⟩ j = s j := by simp [Spec.upd, Ne.symm hij]
    rw [h1] at h
    have h2 : Spec.upd (Spec.upd s j Spec.V.empty) i (s j) = Spec.upd (Spec.upd s i (s j)) j Spec.V.empty := by
      funext k
      unfold Spec.upd
      by_cases hk : k = j
      · simp [hk, Ne.symm hij]
      · simp [hk]
    have h3 : (w2.setVec j ⟨system, Vec.empty⟩).setVec i (w.vecs j) = (w2.setVec i (w2.vecs j)).setVec j AV.empty := by
      rw [hvs]
      unfold World.setVec
      dsimp only
      congr 1
      funext k
      by_cases hk : k = j
      · simp [hk, Ne.symm hij, AV.empty]
      · simp [hk]
    rw [h2, h3]
    exact h

theorem resetReserve_ok {T : Ty α} {w : World α} {s : Spec.State α} (I : Inv T w s) {i : Nat} {a : Option Nat} {n : Nat}
    (hn : n ≤ 2 ^ 48) {clean : Prop} :
    StepOK T w clean (Spec.step T.dflt T.eqv s (.resetReserve i a n)) (step T w (.resetReserve i a n)) := by
  have hd : ∃ w2, destroyContents T w i = .ok w2 ∧ (∃ b, w2.vecs i = ⟨b, Vec.empty⟩ ∧ Inv T w2 (Spec.upd s i ⟨b, []⟩)) ∧
      ∀ b, (w2.heaps b).leaked = (w.heaps b).leaked := by
    unfold destroyContents
    dsimp only
    by_cases h0 : (w.vecs i).v.data ≠ none
    · rw [if_pos h0]
      obtain ⟨w2, e, hvs, I2, lk⟩ := I.drop i (w.vecs i).al
      rw [e]
      exact ⟨_, rfl, ⟨(w.vecs i).al, by simp, I2⟩, by simpa using lk⟩
    · rw [if_neg h0]
      have o := I.owns i
      have hnone : (w.vecs i).v.data = none := by simpa using h0
      obtain ⟨hsz, ⟨hd, hc, hl'⟩ | ⟨b, tail, hd, hb, hblk, hf, hc'⟩⟩ := o
      · have hve : (w.vecs i).v = Vec.empty := by
          cases hv : (w.vecs i).v with
          | mk d sz c =>
            rw [hv] at hd hc hsz
            rw [hl'] at hsz
            simp only [List.length_nil] at hd hc hsz
            subst hd; subst hc; subst hsz
            rfl
        have hx : w.vecs i = ⟨(w.vecs i).al, Vec.empty⟩ := by rw [← hve]
        refine ⟨w, rfl, ⟨(w.vecs i).al, hx, ?_⟩, fun _ => rfl⟩
        have : (⟨(w.vecs i).al, []⟩ : Spec.V α) = s i := by rw [I.al i, ← hl']
        rw [this, upd_self]
        exact I
      · rw [hd] at hnone; cases hnone
  obtain ⟨w2, e, ⟨b, hx, I2⟩, lk⟩ := hd
  simp only [Spec.step, step, resetReserve]
  rw [e]
  simp only [R.ok_bind]
  cases a with
  | none => rfl
  | some a =>
    obtain ⟨h1, t, e1, o1, f1, lk1⟩ := (reserve_ok (I2.sub a).wf (owns_empty T (w2.heaps a)) hn).1
    rw [hx]
    simp only
    rw [sub_heap] at e1
    rw [e1]
    simp only [R.ok_bind, Option.map_some]
    obtain ⟨w3, e3, I3, lk3⟩ := I2.replace (i := i) (a := a) f1 o1 lk1
    rw [hx, dtor_empty] at e3
    cases e3
    rw [spec_upd_upd] at I3
    exact ⟨_, rfl, I3, fun b => ⟨by rw [setVec_heaps, lk3, lk]; exact Nat.le_refl _, fun _ => by rw [setVec_heaps, lk3, lk]⟩⟩

theorem step_ok {T : Ty α} {w : World α} {s : Spec.State α} (I : Inv T w s) {op : Op α} (hd : Spec.demand s op ≤ 2 ^ 48)
    (hr : ∀ i idx cnt, op = .call i (.removeRange idx cnt) → idx + cnt < 2 ^ 64 ∧ (s i).l.length < 2 ^ 64) :
    StepOK T w (Clean T op) (Spec.step T.dflt T.eqv s op) (step T w op) := by
  cases op with
  | call i c => exact call_ok I hd (fun idx cnt h => hr i idx cnt (by rw [h]))
  | pushElem i j k => exact pushElem_ok I
  | eq i j =>
    simp only [step, Spec.step]
    rw [eq_ok I]
    exact ⟨w, rfl, I, fun _ => ⟨Nat.le_refl _, fun _ => rfl⟩⟩
  | allocator i =>
    simp only [step, Spec.step]
    rw [I.al i]
    exact ⟨w, rfl, I, fun _ => ⟨Nat.le_refl _, fun _ => rfl⟩⟩
  | moveAssign i j => exact moveAssign_ok I
  | moveCtor i j => exact moveCtor_ok I
  | assignNew i a c => exact assignNew_ok I hd
  | resetReserve i a n => exact resetReserve_ok I hd

theorem run_ok {T : Ty α} (ops : List (Op α)) : ∀ {w : World α} {s : Spec.State α} (_ : Inv T w s)
    (_ : Spec.InRange T.dflt T.eqv s ops),
    match Spec.run T.dflt T.eqv s ops with
    | none => run T w ops = .error .assert
    | some (s', os) => ∃ w', run T w ops = .ok (w', os) ∧ Inv T w' s' ∧
        ∀ a, (w.heaps a).leaked ≤ (w'.heaps a).leaked ∧ ((∀ op ∈ ops, Clean T op) → (w'.heaps a).leaked = (w.heaps a).leaked) := by
  induction ops with
  | nil => intro w s I _; exact ⟨w, rfl, I, fun _ => ⟨Nat.le_refl _, fun _ => rfl⟩⟩
  | cons op ops ih =>
    intro w s I hr
    obtain ⟨h1, h2, h3⟩ := hr
    have hst := step_ok I h1 h2
    simp only [Spec.run, run]
    cases hs : Spec.step T.dflt T.eqv s op with
    | none =>
      rw [hs] at hst
      simp only [StepOK] at hst
      rw [hst]; rfl
    | some p =>
      obtain ⟨s1, o⟩ := p
      rw [hs] at hst
      obtain ⟨w1, e1, I1, lk1⟩ := hst
      rw [e1]
      have hrun := ih I1 (h3 s1 o hs)
      simp only [Option.bind_eq_bind, Option.bind_some, R.ok_bind]
      cases hs2 : Spec.run T.dflt T.eqv s1 ops with
      | none =>
        rw [hs2] at hrun
        simp only at hrun
        rw [hrun]; rfl
      | some q =>
        obtain ⟨s2, os⟩ := q
        rw [hs2] at hrun
        obtain ⟨w2, e2, I2, lk2⟩ := hrun
        rw [e2]
        refine ⟨w2, rfl, I2, fun a => ⟨Nat.le_trans (lk1 a).1 (lk2 a).1, ?_⟩⟩
        intro hc
        rw [(lk2 a).2 (fun op hop => hc op (by simp [hop])), (lk1 a).2 (hc op (by simp))]

theorem destroyUpto_ok {T : Ty α} (n : Nat) : ∀ {w : World α} {s : Spec.State α} (_ : Inv T w s),
    ∃ w' s', destroyUpto T w n = .ok w' ∧ Inv T w' s' ∧ (∀ a, (w'.heaps a).leaked = (w.heaps a).leaked) ∧
      (∀ i, i < n → w'.vecs i = AV.empty) ∧ (∀ i, n ≤ i → w'.vecs i = w.vecs i) := by
  induction n with
  | zero => intro w s I; exact ⟨w, s, rfl, I, fun _ => rfl, by simp, fun _ _ => rfl⟩
  | succ n ih =>
    intro w s I
    simp only [destroyUpto]
    obtain ⟨w2, e, hvs, I2, lk⟩ := I.drop n system
    rw [e]
    simp only [R.ok_bind]
    obtain ⟨w', s', e', I', lk', hv, hv'⟩ := ih I2
    refine ⟨w', s', e', I', fun a => by rw [lk', setVec_heaps, lk], ?_, ?_⟩
    · intro i hi
      by_cases h1 : i < n
      · exact hv i h1
      · have : i = n := by omega
        subst this
        rw [hv' i (Nat.le_refl _), setVec_at]; rfl
    · intro i hi
      rw [hv' i (by omega), setVec_ne _ _ (by omega), hvs]

end Verif.AVec
