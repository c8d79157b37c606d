import Verif.FList.Ref

/-! Property theorems for references into a `forward_list` (C137) and loops over one whose body changes lists (C138). -/
namespace Verif.FList

variable {α : Type}

/-- A tracked element is still there, with its value, and there are not more elements behind it than before. -/
theorem track_value {s s' : Spec.State α} {op : Op α} {o : Out α} (hop : NotSelf op) (hs : Spec.step s op = .ok (s', o)) {i k i' k' : Nat}
    {l : List α} (hl : s i = some l) (hk : k < l.length) (ht : Spec.track s op (some (i, k)) = some (i', k')) :
    ∃ l', s' i' = some l' ∧ l'[k']? = l[k]? ∧ l'.length - k' ≤ l.length - k ∧ k' < l'.length := by
  have same : ∀ {s'' : Spec.State α}, s'' i = some l → ∃ l', s'' i = some l' ∧ l'[k]? = l[k]? ∧ l'.length - k ≤ l.length - k ∧ k < l'.length :=
    fun h => ⟨l, h, rfl, Nat.le_refl _, hk⟩
  have other : ∀ {a : Nat} {x : Option (List α)}, a ≠ i → upd s a x i = some l := fun ha => by rw [upd_other _ _ (Ne.symm ha)]; exact hl
  cases op with
  | create a =>
    simp only [Spec.track, Option.some.injEq, Prod.mk.injEq] at ht
    obtain ⟨rfl, rfl⟩ := ht
    simp only [Spec.step] at hs
    split at hs <;> cases hs
    · next ha => exact same (other (fun e => by subst e; rw [hl] at ha; cases ha))
    · exact same hl
  | copyCtor a b =>
    simp only [Spec.track, Option.some.injEq, Prod.mk.injEq] at ht
    obtain ⟨rfl, rfl⟩ := ht
    simp only [Spec.step] at hs
    split at hs <;> cases hs
    · next ha _ => exact same (other (fun e => by subst e; rw [hl] at ha; cases ha))
    · exact same hl
  | moveCtor a b =>
    simp only [Spec.track] at ht
    simp only [Spec.step] at hs
    cases ha : s a with
    | some m =>
      simp only [ha, Option.isNone_some, Bool.false_eq_true, false_and, if_false, Option.some.injEq, Prod.mk.injEq] at ht hs
      obtain ⟨rfl, rfl⟩ := ht
      cases hs
      exact same hl
    | none =>
      have hia : i ≠ a := fun e => by subst e; rw [hl] at ha; cases ha
      by_cases hb : b = i
      · subst hb
        simp only [ha, hl, Option.isNone_none, and_self, if_true, Option.some.injEq, Prod.mk.injEq] at ht hs
        obtain ⟨rfl, rfl⟩ := ht
        cases hs
        exact ⟨l, by rw [upd_other _ _ (Ne.symm hia), upd_same], rfl, Nat.le_refl _, hk⟩
      · simp only [hb, and_false, if_false, Option.some.injEq, Prod.mk.injEq] at ht
        obtain ⟨rfl, rfl⟩ := ht
        rw [ha] at hs
        cases hsb : s b with
        | none => rw [hsb] at hs; cases hs; exact same hl
        | some lb =>
          rw [hsb] at hs
          cases hs
          exact same (by rw [upd_other _ _ (Ne.symm hb), upd_other _ _ hia]; exact hl)
  | copyAssign a b =>
    simp only [Spec.track] at ht
    simp only [Spec.step] at hs
    cases hb : s b with
    | none =>
      simp only [hb, Option.isSome_none, Bool.false_eq_true, false_and, if_false, Option.some.injEq, Prod.mk.injEq] at ht hs
      obtain ⟨rfl, rfl⟩ := ht
      split at hs
      · next e => cases e
      · cases hs; exact same hl
    | some lb =>
      by_cases ha : a = i
      · simp [hb, ha] at ht
      · simp only [ha, and_false, if_false, Option.some.injEq, Prod.mk.injEq] at ht
        obtain ⟨rfl, rfl⟩ := ht
        split at hs <;> cases hs
        · exact same (other ha)
        · exact same hl
  | moveAssign a b =>
    have hab : a ≠ b := hop
    simp only [Spec.track] at ht
    simp only [Spec.step] at hs
    cases ha : s a with
    | none =>
      simp only [ha, Option.isSome_none, Bool.false_eq_true, false_and, if_false, Option.some.injEq, Prod.mk.injEq] at ht hs
      obtain ⟨rfl, rfl⟩ := ht
      cases hs; exact same hl
    | some la =>
      cases hb : s b with
      | none =>
        simp only [ha, hb, Option.isSome_none, Bool.false_eq_true, and_false, if_false, Option.some.injEq, Prod.mk.injEq] at ht hs
        obtain ⟨rfl, rfl⟩ := ht
        cases hs; exact same hl
      | some lb =>
        simp only [ha, hb, Option.isSome_some, and_self, if_true, if_neg hab] at ht hs
        by_cases hai : a = i
        · simp [hai] at ht
        · simp only [hai, if_false] at ht
          cases hs
          by_cases hbi : b = i
          · subst hbi
            simp only [if_true, Option.some.injEq, Prod.mk.injEq] at ht
            obtain ⟨rfl, rfl⟩ := ht
            rw [hl] at hb
            cases hb
            exact ⟨l, by rw [upd_other _ _ hab, upd_same], rfl, Nat.le_refl _, hk⟩
          · simp only [hbi, if_false, Option.some.injEq, Prod.mk.injEq] at ht
            obtain ⟨rfl, rfl⟩ := ht
            exact same (by rw [upd_other _ _ (Ne.symm hbi), upd_other _ _ (Ne.symm hai)]; exact hl)
  | destroy a =>
    simp only [Spec.track] at ht
    by_cases ha : a = i
    · simp [ha] at ht
    · simp only [ha, if_false, Option.some.injEq, Prod.mk.injEq] at ht
      obtain ⟨rfl, rfl⟩ := ht
      simp only [Spec.step] at hs
      split at hs <;> cases hs
      · exact same (other ha)
      · exact same hl
  | clear a =>
    simp only [Spec.track] at ht
    by_cases ha : a = i
    · simp [ha] at ht
    · simp only [ha, if_false, Option.some.injEq, Prod.mk.injEq] at ht
      obtain ⟨rfl, rfl⟩ := ht
      simp only [Spec.step] at hs
      split at hs <;> cases hs
      · exact same (other ha)
      · exact same hl
  | pushFront a v =>
    simp only [Spec.track] at ht
    simp only [Spec.step] at hs
    by_cases ha : a = i
    · subst ha
      simp only [if_true, Option.some.injEq, Prod.mk.injEq] at ht
      obtain ⟨rfl, rfl⟩ := ht
      rw [hl] at hs
      cases hs
      exact ⟨v :: l, upd_same _ _ _, by simp, by simp, by simp [hk]⟩
    · simp only [ha, if_false, Option.some.injEq, Prod.mk.injEq] at ht
      obtain ⟨rfl, rfl⟩ := ht
      split at hs <;> cases hs
      · exact same (other ha)
      · exact same hl
  | popFront a =>
    simp only [Spec.track] at ht
    simp only [Spec.step] at hs
    by_cases ha : a = i
    · subst ha
      rw [hl] at hs
      cases l with
      | nil => simp at hk
      | cons v l =>
        cases k with
        | zero => simp at ht
        | succ k =>
          simp only [if_true, Nat.add_one_ne_zero, if_false, Option.some.injEq, Prod.mk.injEq, Nat.add_sub_cancel] at ht
          obtain ⟨rfl, rfl⟩ := ht
          cases hs
          simp only [List.length_cons] at hk
          exact ⟨l, upd_same _ _ _, by simp, by simp, by omega⟩
    · simp only [ha, if_false, Option.some.injEq, Prod.mk.injEq] at ht
      obtain ⟨rfl, rfl⟩ := ht
      split at hs <;> cases hs
      · exact same (other ha)
      · exact same hl
  | eraseAfter a m =>
    simp only [Spec.track] at ht
    simp only [Spec.step] at hs
    by_cases ha : a = i
    · subst ha
      rw [hl] at hs
      simp only [if_true] at ht hs
      have hm : m + 1 < l.length := by
        by_cases hm : m + 1 < l.length
        · exact hm
        · rw [if_neg hm] at hs
          split at hs <;> cases hs
      rw [if_pos hm] at hs
      cases hs
      by_cases hkm : k = m + 1
      · simp [hkm] at ht
      · simp only [hkm, if_false] at ht
        have hlen : (l.eraseIdx (m + 1)).length = l.length - 1 := by rw [List.length_eraseIdx, if_pos hm]
        by_cases hlt : m + 1 < k
        · simp only [hlt, if_true, Option.some.injEq, Prod.mk.injEq] at ht
          obtain ⟨rfl, rfl⟩ := ht
          refine ⟨_, upd_same _ _ _, ?_, by omega, by omega⟩
          rw [List.getElem?_eraseIdx, if_neg (by omega), show k - 1 + 1 = k by omega]
        · simp only [hlt, if_false, Option.some.injEq, Prod.mk.injEq] at ht
          obtain ⟨rfl, rfl⟩ := ht
          refine ⟨_, upd_same _ _ _, ?_, by omega, by omega⟩
          rw [List.getElem?_eraseIdx, if_pos (by omega)]
    · simp only [ha, if_false, Option.some.injEq, Prod.mk.injEq] at ht
      obtain ⟨rfl, rfl⟩ := ht
      split at hs
      · split at hs
        · cases hs; exact same (other ha)
        · split at hs <;> cases hs
      · cases hs; exact same hl
  | front a =>
    simp only [Spec.track, Option.some.injEq, Prod.mk.injEq] at ht
    obtain ⟨rfl, rfl⟩ := ht
    simp only [Spec.step] at hs
    split at hs <;> cases hs <;> exact same hl
  | size a =>
    simp only [Spec.track, Option.some.injEq, Prod.mk.injEq] at ht
    obtain ⟨rfl, rfl⟩ := ht
    simp only [Spec.step] at hs
    split at hs <;> cases hs <;> exact same hl
  | empty a =>
    simp only [Spec.track, Option.some.injEq, Prod.mk.injEq] at ht
    obtain ⟨rfl, rfl⟩ := ht
    simp only [Spec.step] at hs
    split at hs <;> cases hs <;> exact same hl
  | iterate a =>
    simp only [Spec.track, Option.some.injEq, Prod.mk.injEq] at ht
    obtain ⟨rfl, rfl⟩ := ht
    simp only [Spec.step] at hs
    split at hs <;> cases hs <;> exact same hl

theorem trackRun_none (ops : List (Op α)) : ∀ (s : Spec.State α), Spec.trackRun s none ops = none := by
  induction ops with
  | nil => intro s; rfl
  | cons op ops ih =>
    intro s
    simp only [Spec.trackRun]
    split
    · rfl
    · exact ih _

theorem trackRun_value (ops : List (Op α)) : ∀ {s s' : Spec.State α} {os : List (Out α)} {i k i' k' : Nat} {l : List α},
    (∀ op ∈ ops, NotSelf op) → Spec.run s ops = .ok (s', os) → s i = some l → k < l.length →
    Spec.trackRun s (some (i, k)) ops = some (i', k') →
    ∃ l', s' i' = some l' ∧ l'[k']? = l[k]? ∧ l'.length - k' ≤ l.length - k ∧ k' < l'.length := by
  induction ops with
  | nil =>
    intro s s' os i k i' k' l _ hr hl hk ht
    cases hr
    cases ht
    exact ⟨l, hl, rfl, Nat.le_refl _, hk⟩
  | cons op ops ih =>
    intro s s' os i k i' k' l hops hr hl hk ht
    rw [Spec.run] at hr
    obtain ⟨⟨s1, o⟩, e1, hr⟩ := (R.bind_eq_ok).1 hr
    obtain ⟨⟨s2, os2⟩, e2, hr⟩ := (R.bind_eq_ok).1 hr
    cases hr
    simp only [Spec.trackRun, e1] at ht
    cases h1 : Spec.track s op (some (i, k)) with
    | none => rw [h1, trackRun_none] at ht; cases ht
    | some t =>
      obtain ⟨i1, k1⟩ := t
      rw [h1] at ht
      obtain ⟨l1, a1, a2, a3, a4⟩ := track_value (hops op List.mem_cons_self) e1 hl hk h1
      obtain ⟨l2, b1, b2, b3, b4⟩ := ih (fun x hx => hops x (List.mem_cons_of_mem _ hx)) e2 a1 a4 ht
      exact ⟨l2, b1, b2.trans a2, by omega, b4⟩

theorem reach (ops : List (Op α)) (h : ∀ op ∈ ops, NotSelf op) {w : World α} {os : List (Out α)} (hw : run init ops = .ok (w, os)) :
    ∃ s N, Spec.run Spec.init ops = .ok (s, os) ∧ Inv w s N := by
  have := run_ok (inv_init (α := α)) h
  cases hs : Spec.run Spec.init ops with
  | error e => rw [hs] at this; simp only at this; rw [hw] at this; cases this
  | ok so =>
    obtain ⟨s, os'⟩ := so
    rw [hs] at this
    obtain ⟨w', N, e, I⟩ := this
    rw [hw] at e
    cases e
    exact ⟨s, N, rfl, I⟩

theorem iteratorAt_ok {w : World α} {s : Spec.State α} {N : Nat → List Nat} (I : Inv w s N) {i k p : Nat}
    (hp : iteratorAt w i k = .ok (some p)) : At w N p (some (i, k)) := by
  unfold iteratorAt at hp
  cases hs : s i with
  | none => rw [(I.none hs).1] at hp; cases hp
  | some l =>
    obtain ⟨q, e, c⟩ := I.some hs
    rw [e] at hp
    rcases Nat.lt_or_ge l.length k with h1 | h1
    · simp only at hp; rw [advance_far c h1] at hp; cases hp
    · obtain ⟨q', e', c'⟩ := advance_ok c h1
      simp only at hp
      rw [e'] at hp
      cases hp
      cases hd : l.drop k with
      | nil => rw [hd] at c'; obtain ⟨e, -⟩ := c'.nil_inv; cases e
      | cons v r =>
        rw [hd] at c'
        obtain ⟨a, ms, q, e1, e2, -, -⟩ := c'.cons_inv
        cases e1
        show (N i)[k]? = some p
        have : ((N i).drop k)[0]? = some p := by rw [e2]; rfl
        simpa using this

/-- C137: after any further calls, a reference or iterator to an element of a list leads to that element, with its value, as long as it
has not been removed; using it afterwards is an error. -/
theorem C137_references (ops0 ops : List (Op α)) (h0 : ∀ op ∈ ops0, NotSelf op) (h : ∀ op ∈ ops, NotSelf op) (w w' : World α)
    (os0 os : List (Out α)) (hw : run init ops0 = .ok (w, os0)) (hw' : run w ops = .ok (w', os)) (i k p : Nat)
    (hp : iteratorAt w i k = .ok (some p)) :
    ∃ s s' a, Spec.run Spec.init ops0 = .ok (s, os0) ∧ Spec.run s ops = .ok (s', os) ∧ Spec.elem s i k = some a ∧ load w.heap p = .ok a ∧
      match Spec.trackRun s (some (i, k)) ops with
      | none => load w'.heap p = .error .ub
      | some (i', k') => load w'.heap p = .ok a ∧ Spec.elem s' i' k' = some a ∧ iteratorAt w' i' k' = .ok (some p) := by
  obtain ⟨s, N, hs, I⟩ := reach ops0 h0 hw
  have hat := iteratorAt_ok I hp
  obtain ⟨a, l, q, hl, ha, hel, hh, -⟩ := At.elem I hat
  have hr := track_run I h hat
  cases hsr : Spec.run s ops with
  | error e => rw [hsr] at hr; simp only at hr; rw [hw'] at hr; cases hr
  | ok so =>
    obtain ⟨s', os'⟩ := so
    rw [hsr] at hr
    obtain ⟨w2, N', e2, I', hat'⟩ := hr
    rw [hw'] at e2
    cases e2
    refine ⟨s, s', a, hs, hsr, hel, load_ok hh, ?_⟩
    cases ht : Spec.trackRun s (some (i, k)) ops with
    | none =>
      rw [ht] at hat'
      simp only [load, deref_gone I' hat', R.error_bind]
    | some t =>
      obtain ⟨i', k'⟩ := t
      rw [ht] at hat'
      obtain ⟨a', l', q', hl', ha', hel', hh', -⟩ := At.elem I' hat'
      have hk : k < l.length := (List.getElem?_eq_some_iff.1 ha).1
      obtain ⟨l2, b1, b2, -, -⟩ := trackRun_value ops h hsr hl hk ht
      rw [hl'] at b1
      cases b1
      rw [ha, ha'] at b2
      cases b2
      refine ⟨load_ok hh', hel', ?_⟩
      obtain ⟨q0, e0, c0⟩ := I'.some hl'
      have hk' : k' < l'.length := (List.getElem?_eq_some_iff.1 ha').1
      obtain ⟨q1, e1, c1⟩ := advance_ok c0 (Nat.le_of_lt hk')
      simp only [iteratorAt, e0, e1]
      rw [List.drop_eq_getElem_cons hk'] at c1
      obtain ⟨b, ms, q2, rfl, e3, -, -⟩ := c1.cons_inv
      have : (N' i')[k']? = some b := by
        have := congrArg (fun x => x[0]?) e3
        simpa using this
      have hat2 : (N' i')[k']? = some p := hat'
      rw [this] at hat2
      cases hat2
      rfl

/-- Lists 0: 3 2 1, 1: empty. -/
def refSample : List (Op Nat) := [.create 0, .pushFront 0 1, .pushFront 0 2, .pushFront 0 3, .create 1]

/-- The reference to element `k` of list `i` after `refSample`, read after more calls. -/
def readLater (i k : Nat) (ops : List (Op Nat)) : R Nat := do
  let (w, _) ← run init refSample
  let p ← iteratorAt w i k
  let (w, _) ← run w ops
  match p with
  | some p => load w.heap p
  | none => .error .assert

example : readLater 0 2 [.popFront 0, .pushFront 0 7, .moveAssign 1 0, .eraseAfter 1 0, .pushFront 0 8] = .ok 1 ∧
    readLater 0 1 [.popFront 0, .pushFront 0 7, .moveAssign 1 0, .eraseAfter 1 0, .pushFront 0 8] = .error .ub ∧
    readLater 0 0 [.clear 1, .copyAssign 1 0, .clear 0, .pushFront 0 3] = .error .ub := by decide +kernel

/-- The lists of `w` have the elements of `s`. -/
def Holds (w : World α) (s : Spec.State α) : Prop :=
  ∀ i, match s i with
    | none => w.objs i = none
    | some l => ∃ p, w.objs i = some p ∧ iter w.heap p = .ok l

theorem Inv.holds {w : World α} {s : Spec.State α} {N : Nat → List Nat} (I : Inv w s N) : Holds w s := by
  intro i
  cases hs : s i with
  | none => exact (I.none hs).1
  | some l =>
    obtain ⟨p, e, c⟩ := I.some hs
    exact ⟨p, e, iterLoop_ok _ c (c.fuel (I.nodup i))⟩

/-- What a loop does, compared to what it has to do. -/
def Match (r : R (Option (World α × List α))) : R (Option (Spec.State α × List α)) → Prop
  | .error f => r = .error f
  | .ok none => r = .ok none
  | .ok (some (s, shown)) => ∃ w, r = .ok (some (w, shown)) ∧ Holds w s

theorem loopFrom_ok {body : Body α} (hb : ∀ shown, ∀ op ∈ body shown, NotSelf op) (n : Nat) : ∀ {w : World α} {s : Spec.State α}
    {N : Nat → List Nat} {p : Option Nat} {t : Option (Nat × Nat)} {shown : List α}, Inv w s N →
    (match p, t with | none, none => True | some a, some t => At w N a (some t) | _, _ => False) →
    Match (loopFrom body w p shown n) (Spec.loopFrom body s t shown n) := by
  induction n with
  | zero =>
    intro w s N p t shown I h
    cases p <;> cases t
    · exact ⟨w, rfl, I.holds⟩
    · exact h.elim
    · exact h.elim
    · rfl
  | succ n ih =>
    intro w s N p t shown I h
    cases p with
    | none =>
      cases t with
      | none => exact ⟨w, rfl, I.holds⟩
      | some t => exact h.elim
    | some a =>
      cases t with
      | none => exact h.elim
      | some t =>
        obtain ⟨i, k⟩ := t
        have h : At w N a (some (i, k)) := h
        obtain ⟨v, l, q, hl, hv, hel, hh, -⟩ := At.elem I h
        simp only [loopFrom, Spec.loopFrom, hel]
        rw [load_ok hh]
        simp only [R.ok_bind]
        have hr := track_run I (hb (shown ++ [v])) h
        cases hs : Spec.run s (body (shown ++ [v])) with
        | error e => rw [hs] at hr; simp only at hr; rw [hr]; rfl
        | ok so =>
          obtain ⟨s', os⟩ := so
          rw [hs] at hr
          obtain ⟨w', N', e', I', h'⟩ := hr
          rw [e']
          simp only [R.ok_bind]
          cases ht : Spec.trackRun s (some (i, k)) (body (shown ++ [v])) with
          | none =>
            rw [ht] at h'
            rw [deref_gone I' h']
            rfl
          | some t' =>
            obtain ⟨i', k'⟩ := t'
            rw [ht] at h'
            obtain ⟨v', l', q', hl', hv', -, hh', c'⟩ := At.elem I' h'
            rw [deref_ok hh']
            simp only [R.ok_bind]
            refine ih I' ?_
            cases hd : l'.drop (k' + 1) with
            | nil =>
              rw [hd] at c'
              obtain ⟨rfl, -⟩ := c'.nil_inv
              have : Spec.elem s' i' (k' + 1) = none := by
                simp only [Spec.elem, hl', Option.bind_some]
                rw [List.getElem?_eq_none_iff]
                exact List.drop_eq_nil_iff.1 hd
              simp only [this, Option.isSome_none, Bool.false_eq_true, if_false]
            | cons y r =>
              rw [hd] at c'
              obtain ⟨b, ms, q2, rfl, e3, -, -⟩ := c'.cons_inv
              have hy : l'[k' + 1]? = some y := by
                have := congrArg (fun x => x[0]?) hd
                simpa using this
              have : Spec.elem s' i' (k' + 1) = some y := by
                simp only [Spec.elem, hl', Option.bind_some]
                exact hy
              simp only [this, Option.isSome_some, if_true]
              show (N' i')[k' + 1]? = some b
              have := congrArg (fun x => x[0]?) e3
              simpa using this

/-- C138: a loop over a list does what the specification says, whatever lists its body changes. -/
theorem C138_loop (ops0 : List (Op α)) (h0 : ∀ op ∈ ops0, NotSelf op) (w : World α) (s : Spec.State α) (os0 : List (Out α))
    (hw : run init ops0 = .ok (w, os0)) (hs : Spec.run Spec.init ops0 = .ok (s, os0)) (body : Body α)
    (hb : ∀ shown, ∀ op ∈ body shown, NotSelf op) (i n : Nat) : Match (loop body w i n) (Spec.loop body s i n) := by
  obtain ⟨s', N, hs', I⟩ := reach ops0 h0 hw
  rw [hs] at hs'
  cases hs'
  unfold loop Spec.loop
  cases hi : s i with
  | none => rw [(I.none hi).1]; rfl
  | some l =>
    obtain ⟨p, e, c⟩ := I.some hi
    rw [e]
    refine loopFrom_ok hb n I ?_
    cases l with
    | nil => obtain ⟨rfl, -⟩ := c.nil_inv; trivial
    | cons v l =>
      obtain ⟨a, ms, q, rfl, e2, -, -⟩ := c.cons_inv
      show (N i)[0]? = some a
      rw [e2]; rfl

theorem loopFrom_ends {body : Body α} (hb : ∀ shown, ∀ op ∈ body shown, NotSelf op) (n : Nat) : ∀ {s : Spec.State α}
    {t : Option (Nat × Nat)} {shown : List α},
    (∀ i k, t = some (i, k) → ∃ l, s i = some l ∧ k < l.length ∧ l.length - k ≤ n) → Spec.loopFrom body s t shown n ≠ .ok none := by
  induction n with
  | zero =>
    intro s t shown h
    cases t with
    | none => simp [Spec.loopFrom]
    | some t => obtain ⟨l, -, h1, h2⟩ := h t.1 t.2 rfl; omega
  | succ n ih =>
    intro s t shown h
    cases t with
    | none => simp [Spec.loopFrom]
    | some t =>
      obtain ⟨i, k⟩ := t
      obtain ⟨l, hl, h1, h2⟩ := h i k rfl
      have hel : Spec.elem s i k = some l[k] := by simp [Spec.elem, hl, h1]
      simp only [Spec.loopFrom, hel]
      intro hbad
      obtain ⟨⟨s', os⟩, e1, hbad⟩ := (R.bind_eq_ok).1 hbad
      cases ht : Spec.trackRun s (some (i, k)) (body (shown ++ [l[k]])) with
      | none => simp only [ht] at hbad; cases hbad
      | some t' =>
        obtain ⟨i', k'⟩ := t'
        simp only [ht] at hbad
        refine ih ?_ hbad
        intro i2 k2 e2
        obtain ⟨l', b1, -, b3, b4⟩ := trackRun_value _ (hb _) e1 hl h1 ht
        by_cases hx : (Spec.elem s' i' (k' + 1)).isSome = true
        · simp only [hx, if_true, Option.some.injEq, Prod.mk.injEq] at e2
          obtain ⟨rfl, rfl⟩ := e2
          refine ⟨l', b1, ?_, by omega⟩
          simp only [Spec.elem, b1, Option.bind_some] at hx
          obtain ⟨y, hy⟩ := Option.isSome_iff_exists.1 hx
          exact (List.getElem?_eq_some_iff.1 hy).1
        · simp only [hx] at e2; cases e2

/-- C138: the loop has no more rounds than there were elements when it began. -/
theorem C138_ends (ops0 : List (Op α)) (h0 : ∀ op ∈ ops0, NotSelf op) (w : World α) (s : Spec.State α) (os0 : List (Out α))
    (hw : run init ops0 = .ok (w, os0)) (hs : Spec.run Spec.init ops0 = .ok (s, os0)) (body : Body α)
    (hb : ∀ shown, ∀ op ∈ body shown, NotSelf op) (i n : Nat) (l : List α) (hl : s i = some l) (hn : l.length ≤ n) :
    loop body w i n ≠ .ok none := by
  have hm := C138_loop ops0 h0 w s os0 hw hs body hb i n
  have he : Spec.loop body s i n ≠ .ok none := by
    unfold Spec.loop
    rw [hl]
    refine loopFrom_ends hb n ?_
    intro i' k e
    cases l with
    | nil => cases e
    | cons v l => cases e; exact ⟨_, hl, by simp, hn⟩
  intro hbad
  cases hr : Spec.loop body s i n with
  | error f => rw [hr] at hm; simp only [Match] at hm; rw [hbad] at hm; cases hm
  | ok o =>
    cases o with
    | none => exact he hr
    | some q =>
      obtain ⟨s2, shown⟩ := q
      rw [hr] at hm
      obtain ⟨w2, e, -⟩ := hm
      rw [hbad] at e
      cases e

/-- What a loop over list 0 shows after `refSample`. -/
def shows (body : Body Nat) (n : Nat) : R (Option (List Nat)) := do
  let (w, _) ← run init refSample
  let r ← loop body w 0 n
  .ok (r.map (·.2))

/-- C138, examples: pushing to the front in the loop does not go on for ever and shows nothing new; the element behind the current one
may be removed and is not shown; the current one may not be removed; after a move the loop goes on in the other list. -/
theorem C138_examples :
    shows (fun x => [.pushFront 0 (x.length + 10)]) 3 = .ok (some [3, 2, 1]) ∧
    shows (fun x => if x.length = 1 then [.eraseAfter 0 0] else []) 3 = .ok (some [3, 1]) ∧
    shows (fun _ => [.popFront 0]) 3 = .error .ub ∧
    shows (fun x => if x.length = 2 then [.popFront 0] else []) 3 = .ok (some [3, 2, 1]) ∧
    shows (fun x => if x.length = 1 then [.moveAssign 1 0, .pushFront 0 9, .eraseAfter 1 0] else []) 3 = .ok (some [3, 1]) := by
  decide +kernel

/-- A body that never touches list `i`. -/
def Leaves (i : Nat) : Op α → Prop
  | .create a => a ≠ i
  | .copyCtor a _ => a ≠ i
  | .moveCtor a b => a ≠ i ∧ b ≠ i
  | .copyAssign a _ => a ≠ i
  | .moveAssign a b => a ≠ i ∧ b ≠ i
  | .destroy a => a ≠ i
  | .pushFront a _ => a ≠ i
  | .popFront a => a ≠ i
  | .eraseAfter a _ => a ≠ i
  | .clear a => a ≠ i
  | _ => True

theorem leaves_step {s s' : Spec.State α} {op : Op α} {o : Out α} {i : Nat} (hop : Leaves i op) (hs : Spec.step s op = .ok (s', o)) :
    s' i = s i ∧ ∀ k, Spec.track s op (some (i, k)) = some (i, k) := by
  have other : ∀ {a : Nat} {x : Option (List α)}, a ≠ i → upd s a x i = s i := fun ha => upd_other _ _ (Ne.symm ha)
  cases op with
  | create a => simp only [Spec.step] at hs; split at hs <;> cases hs <;> simp [Spec.track, other hop]
  | copyCtor a b => simp only [Spec.step] at hs; split at hs <;> cases hs <;> simp [Spec.track, other hop]
  | moveCtor a b =>
    simp only [Spec.step] at hs
    split at hs <;> cases hs <;> simp [Spec.track, hop.2]
    rw [upd_other _ _ (Ne.symm hop.2), upd_other _ _ (Ne.symm hop.1)]
  | copyAssign a b =>
    have h : a ≠ i := hop
    simp only [Spec.step] at hs; split at hs <;> cases hs <;> simp [Spec.track, other h, h]
  | moveAssign a b =>
    simp only [Spec.step] at hs
    split at hs <;> cases hs <;> simp [Spec.track, hop.1, hop.2]
    split
    · rfl
    · rw [upd_other _ _ (Ne.symm hop.2), upd_other _ _ (Ne.symm hop.1)]
  | destroy a =>
    have h : a ≠ i := hop
    simp only [Spec.step] at hs; split at hs <;> cases hs <;> simp [Spec.track, other h, h]
  | clear a =>
    have h : a ≠ i := hop
    simp only [Spec.step] at hs; split at hs <;> cases hs <;> simp [Spec.track, other h, h]
  | pushFront a v =>
    have h : a ≠ i := hop
    simp only [Spec.step] at hs; split at hs <;> cases hs <;> simp [Spec.track, other h, h]
  | popFront a =>
    have h : a ≠ i := hop
    simp only [Spec.step] at hs; split at hs <;> cases hs <;> simp [Spec.track, other h, h]
  | eraseAfter a m =>
    have h : a ≠ i := hop
    simp only [Spec.step] at hs
    split at hs
    · split at hs
      · cases hs; simp [Spec.track, other h, h]
      · split at hs <;> cases hs
    · cases hs; simp [Spec.track, h]
  | front a => simp only [Spec.step] at hs; split at hs <;> cases hs <;> simp [Spec.track]
  | size a => simp only [Spec.step] at hs; split at hs <;> cases hs <;> simp [Spec.track]
  | empty a => simp only [Spec.step] at hs; split at hs <;> cases hs <;> simp [Spec.track]
  | iterate a => simp only [Spec.step] at hs; split at hs <;> cases hs <;> simp [Spec.track]

theorem leaves_run {i : Nat} (ops : List (Op α)) : ∀ {s s' : Spec.State α} {os : List (Out α)}, (∀ op ∈ ops, Leaves i op) →
    Spec.run s ops = .ok (s', os) → s' i = s i ∧ ∀ k, Spec.trackRun s (some (i, k)) ops = some (i, k) := by
  induction ops with
  | nil => intro s s' os _ h; cases h; exact ⟨rfl, fun _ => rfl⟩
  | cons op ops ih =>
    intro s s' os hops hr
    rw [Spec.run] at hr
    obtain ⟨⟨s1, o⟩, e1, hr⟩ := (R.bind_eq_ok).1 hr
    obtain ⟨⟨s2, os2⟩, e2, hr⟩ := (R.bind_eq_ok).1 hr
    cases hr
    obtain ⟨a1, a2⟩ := leaves_step (hops op List.mem_cons_self) e1
    obtain ⟨b1, b2⟩ := ih (fun x hx => hops x (List.mem_cons_of_mem _ hx)) e2
    refine ⟨b1.trans a1, fun k => ?_⟩
    simp only [Spec.trackRun, e1, a2, b2]

/-- C138: if the body leaves the list alone the loop shows exactly its elements. -/
theorem C138_elsewhere (ops0 : List (Op α)) (h0 : ∀ op ∈ ops0, NotSelf op) (w : World α) (s : Spec.State α) (os0 : List (Out α))
    (hw : run init ops0 = .ok (w, os0)) (hs : Spec.run Spec.init ops0 = .ok (s, os0)) (body : Body α)
    (hb : ∀ shown, ∀ op ∈ body shown, NotSelf op) (i : Nat) (hleave : ∀ shown, ∀ op ∈ body shown, Leaves i op)
    (hok : ∀ s' shown, ∃ r, Spec.run s' (body shown) = .ok r) (l : List α) (hl : s i = some l) :
    ∃ w', loop body w i l.length = .ok (some (w', l)) := by
  have hm := C138_loop ops0 h0 w s os0 hw hs body hb i l.length
  have key : ∀ (n : Nat) (s : Spec.State α) (k : Nat), s i = some l → k + n = l.length →
      ∃ s', Spec.loopFrom body s (if (Spec.elem s i k).isSome then some (i, k) else none) (l.take k) n = .ok (some (s', l)) := by
    intro n
    induction n with
    | zero =>
      intro s k hl hk
      have : Spec.elem s i k = none := by simp [Spec.elem, hl]; omega
      simp only [this, Option.isSome_none, Bool.false_eq_true, if_false, Spec.loopFrom, Option.isNone_none, if_true]
      exact ⟨s, by rw [List.take_of_length_le (by omega)]⟩
    | succ n ih =>
      intro s k hl hk
      have hlt : k < l.length := by omega
      have hel : Spec.elem s i k = some l[k] := by simp [Spec.elem, hl, hlt]
      simp only [hel, Option.isSome_some, if_true, Spec.loopFrom]
      obtain ⟨⟨s1, os1⟩, e1⟩ := hok s (l.take k ++ [l[k]])
      obtain ⟨a1, a2⟩ := leaves_run _ (hleave _) e1
      rw [e1]
      simp only [R.ok_bind, a2]
      obtain ⟨s', e'⟩ := ih s1 (k + 1) (a1.trans hl) (by omega)
      rw [List.take_add_one, List.getElem?_eq_getElem hlt] at e'
      exact ⟨s', e'⟩
  obtain ⟨s', e⟩ := key l.length s 0 hl (by omega)
  have hsp : Spec.loop body s i l.length = .ok (some (s', l)) := by
    unfold Spec.loop
    rw [hl]
    simp only
    rw [← e]
    cases l with
    | nil => simp [Spec.elem, hl]
    | cons v l => simp [Spec.elem, hl]
  rw [hsp] at hm
  obtain ⟨w', e', -⟩ := hm
  exact ⟨w', e'⟩

example : shows (fun x => [.pushFront 1 (x.length + 10), .size 0]) 3 = .ok (some [3, 2, 1]) ∧
    (∀ op ∈ ([.pushFront 1 10, .size 0] : List (Op Nat)), Leaves 0 op) := by
  refine ⟨by decide +kernel, ?_⟩
  intro op ho
  simp only [List.mem_cons, List.not_mem_nil, or_false] at ho
  rcases ho with rfl | rfl
  · exact Nat.one_ne_zero
  · trivial

end Verif.FList
