import Verif.Ring.RefLemmas

/-!
C139: references to elements of a `cc::ringbuffer`.
-/
namespace Verif.Ring.Ref
open Verif.Mem Verif.Ring

variable {α : Type}

theorem push_inv {m m' : World α} {w : Ring.World α} (S : Sim m w) {i : Nat} {a : PushArg α}
    {f : Ring α → Arg α → R (Ring α × Nat)} {grows : Ring α → Bool} {slot : Ring α → Nat} {o : Obs α} {pl : Option Place}
    (h : push m i a f grows slot = .ok (m', o, pl)) :
    ∃ r' arg l b, f (w.rings i) arg = .ok (r', l) ∧ m'.rings = upd m.rings i ⟨r'.begin_, r'.end_, r'.mask, b⟩ ∧
      (grows (w.rings i) = false → b = (m.rings i).data) ∧ (grows (w.rings i) = true → b = some m.mem.length) ∧
      pl = b.map fun b => (b, slot (w.rings i)) := by
  unfold push at h
  rw [S.ring i] at h
  simp only [R.ok_bind] at h
  simp only [R.bind_eq_ok] at h
  obtain ⟨arg, -, ⟨r', l⟩, hf, m1, hm, h⟩ := h
  have hp := Except.ok.inj h
  have h1 : m1 = m' := congrArg Prod.fst hp
  have h2 : ((m1.rings i).data.map fun b => (b, slot (w.rings i))) = pl := congrArg (fun x => x.2.2) hp
  subst h1
  by_cases hg : grows (w.rings i) = true
  · rw [if_pos hg] at hm
    unfold Ref.replaced at hm
    obtain ⟨mem, e, hlen, -⟩ := S.free i
    rw [e] at hm
    simp only [R.ok_bind] at hm
    have hm' := Except.ok.inj hm
    refine ⟨r', arg, l, some m.mem.length, hf, ?_, fun h => ?_, fun _ => rfl, ?_⟩
    · rw [← hm']; simp only [hlen]
    · rw [hg] at h; cases h
    · rw [← h2, ← hm']; simp only [upd, if_true, hlen]
  · rw [if_neg hg] at hm
    have hm' := Except.ok.inj hm
    refine ⟨r', arg, l, (m.rings i).data, hf, ?_, fun _ => rfl, fun h => absurd h hg, ?_⟩
    · rw [← hm']; rfl
    · rw [← h2, ← hm']; simp only [inPlace, upd, if_true]

theorem pop_inv {m m' : World α} {w : Ring.World α} (S : Sim m w) {i : Nat} {f : Ring α → R (α × Ring α)} {o : Obs α}
    {pl : Option Place} (h : pop m i f = .ok (m', o, pl)) :
    ∃ r' a, f (w.rings i) = .ok (a, r') ∧ m'.rings = upd m.rings i ⟨r'.begin_, r'.end_, r'.mask, (m.rings i).data⟩ := by
  unfold pop at h
  rw [S.ring i] at h
  simp only [R.ok_bind] at h
  simp only [R.bind_eq_ok] at h
  obtain ⟨⟨a, r'⟩, hf, h⟩ := h
  have h1 : inPlace m i r' = m' := congrArg Prod.fst (Except.ok.inj h)
  exact ⟨r', a, hf, by rw [← h1]; rfl⟩

theorem look_inv {m m' : World α} {i : Nat} {f : Ring α → R (Obs α)} {o : Obs α} {pl : Option Place}
    (h : look m i f = .ok (m', o, pl)) : m' = m := by
  unfold look at h
  simp only [R.bind_eq_ok] at h
  obtain ⟨r, -, o', -, h⟩ := h
  exact (congrArg Prod.fst (Except.ok.inj h)).symm

theorem copy_shape {m m' : World α} {i j : Nat} {cp : Ring α → R (Ring α)} {dt : Ring α → R Nat} {o : Obs α} {pl : Option Place}
    (h : (do
      let src ← ringOf m.mem (m.rings j)
      let t ← cp src
      let r ← ringOf m.mem (m.rings i)
      let _ ← dt r
      let m' ← replaced m i t
      .ok (m', .none, none) : R (World α × Obs α × Option Place)) = .ok (m', o, pl)) : ∃ t, replaced m i t = .ok m' := by
  simp only [R.bind_eq_ok] at h
  obtain ⟨src, -, t, -, r, -, l, -, m1, he, h⟩ := h
  exact ⟨t, by rw [he, show m1 = m' from congrArg Prod.fst (Except.ok.inj h)]⟩

theorem move_shape {m m' : World α} {i j : Nat} {dt : Ring α → R Nat} {o : Obs α} {pl : Option Place}
    (h : (do
      let r ← ringOf m.mem (m.rings i)
      let _ ← dt r
      let mem ← free m.mem (m.rings i).data
      .ok (⟨mem, upd (upd m.rings i (m.rings j)) j Hdr.empty⟩, .none, none) : R (World α × Obs α × Option Place)) = .ok (m', o, pl)) :
    ∃ mem, free m.mem (m.rings i).data = .ok mem ∧ (⟨mem, upd (upd m.rings i (m.rings j)) j Hdr.empty⟩ : World α) = m' := by
  simp only [R.bind_eq_ok] at h
  obtain ⟨r, -, l, -, mem, he, h⟩ := h
  exact ⟨mem, he, congrArg Prod.fst (Except.ok.inj h)⟩

theorem At.other {m m' : World α} {s s' : Spec.Lists α} {p : Place} {i k : Nat} (h : At m s p i k) (hm : m'.rings i = m.rings i)
    (hs : s' i = s i) : At m' s' p i k where
  lt := by rw [hs]; exact h.lt
  blk := by rw [hm]; exact h.blk
  slot := by rw [hm]; exact h.slot

theorem At.change {m m' : World α} {w : Ring.World α} {s s' : Spec.Lists α} (S : Sim m w) {p : Place} {i k k' : Nat}
    (h : At m s p i k) {r' : Ring α}
    (hm : m'.rings = upd m.rings i ⟨r'.begin_, r'.end_, r'.mask, (m.rings i).data⟩) (hl : k' < (s' i).elems.length)
    (hmask : r'.mask = (w.rings i).mask)
    (hb : addMask r'.begin_ k' (w.rings i).mask = addMask (w.rings i).begin_ k (w.rings i).mask) : At m' s' p i k' where
  lt := hl
  blk := by rw [hm]; simp only [upd, if_true]; exact h.blk
  slot := by
    rw [hm]
    simp only [upd, if_true]
    rw [hmask, hb, (S.hdr i).1, (S.hdr i).2.2.1]
    exact h.slot

theorem upd_ne {f : Nat → Hdr} {i j : Nat} {h : Hdr} (e : j ≠ i) : upd f i h j = f j := if_neg e

theorem specUpd_ne {s : Spec.Lists α} {i j : Nat} {q : Spec.Q α} (e : j ≠ i) : Spec.upd s i q j = s j := if_neg e

theorem specUpd_self {s : Spec.Lists α} {i : Nat} {q : Spec.Q α} : Spec.upd s i q i = q := if_pos rfl

/-- One call keeps the place of the elements that are tracked. -/
theorem step_track {triv : Bool} {n : Nat} {m m' : World α} {w : Ring.World α} {s s' : Spec.Lists α} (S : Sim m w)
    (I : Inv triv n w s) {op : Op α} {o o' : Obs α} {pl : Option Place} (hs : Spec.step s op = some (s', o))
    (hm : step triv m op = .ok (m', o', pl)) {p : Place} {i k i' k' : Nat} (h : At m s p i k)
    (ht : Spec.track s op (some (i, k)) = some (i', k')) : At m' s' p i' k' := by
  cases op with
  | pushBack a v =>
    obtain ⟨r', arg, l, b, hf, hr, hb, -⟩ := push_inv S hm
    simp only [Spec.step, Option.map_eq_some_iff, Prod.mk.injEq] at hs
    obtain ⟨x, -, rfl, -⟩ := hs
    simp only [Spec.track] at ht
    split at ht
    · cases ht
    · rename_i hc
      cases ht
      by_cases ha : a = i
      · subst ha
        have hg : growsBack (w.rings a) = false := by
          rw [growsBack_ok (I.rel a)]; simpa using fun h => hc ⟨rfl, h⟩
        have hi := emplaceBack_inv hf
        rw [if_neg (by rw [hg]; decide)] at hi
        rw [hb hg] at hr
        exact h.change S hr (by rw [specUpd_self]; simp; have := h.lt; omega) hi.2.2 (by rw [hi.2.1])
      · exact h.other (by rw [hr, upd_ne (Ne.symm ha)]) (specUpd_ne (Ne.symm ha))
  | pushBackStable a v =>
    obtain ⟨r', arg, l, b, hf, hr, hb, -⟩ := push_inv S hm
    simp only [Spec.step] at hs
    split at hs
    · simp only [Option.map_eq_some_iff, Prod.mk.injEq] at hs
      obtain ⟨x, -, rfl, -⟩ := hs
      cases ht
      by_cases ha : a = i
      · subst ha
        have hi := emplaceBackStable_inv hf
        rw [hb rfl] at hr
        exact h.change S hr (by rw [specUpd_self]; simp; have := h.lt; omega) hi.2.2 (by rw [hi.2.1])
      · exact h.other (by rw [hr, upd_ne (Ne.symm ha)]) (specUpd_ne (Ne.symm ha))
    · cases hs
  | pushFront a v =>
    obtain ⟨r', arg, l, b, hf, hr, hb, -⟩ := push_inv S hm
    simp only [Spec.step, Option.map_eq_some_iff, Prod.mk.injEq] at hs
    obtain ⟨x, -, rfl, -⟩ := hs
    simp only [Spec.track] at ht
    by_cases ha : a = i
    · subst ha
      rw [if_pos rfl] at ht
      split at ht
      · cases ht
      · rename_i hc
        cases ht
        have hg : growsFront (w.rings i') = false := by
          rw [growsFront_ok (I.rel i')]; simpa using hc
        have hi := emplaceFront_inv hf
        rw [if_neg (by rw [hg]; decide)] at hi
        rw [hb hg] at hr
        exact h.change S hr (by rw [specUpd_self]; simp; exact h.lt) hi.2.2 (by
          rw [hi.2.1]; exact slot_pushFront (I.rel i') h.lt)
    · rw [if_neg ha] at ht
      cases ht
      exact h.other (by rw [hr, upd_ne (Ne.symm ha)]) (specUpd_ne (Ne.symm ha))
  | pushFrontStable a v =>
    obtain ⟨r', arg, l, b, hf, hr, hb, -⟩ := push_inv S hm
    simp only [Spec.step] at hs
    split at hs
    · simp only [Option.map_eq_some_iff, Prod.mk.injEq] at hs
      obtain ⟨x, -, rfl, -⟩ := hs
      simp only [Spec.track] at ht
      by_cases ha : a = i
      · subst ha
        rw [if_pos rfl] at ht
        cases ht
        have hi := emplaceFrontStable_inv hf
        rw [hb rfl] at hr
        exact h.change S hr (by rw [specUpd_self]; simp; exact h.lt) hi.2.2 (by
          rw [hi.2.1]; exact slot_pushFront (I.rel i') h.lt)
      · rw [if_neg ha] at ht
        cases ht
        exact h.other (by rw [hr, upd_ne (Ne.symm ha)]) (specUpd_ne (Ne.symm ha))
    · cases hs
  | popBack a =>
    obtain ⟨r', x, hf, hr⟩ := pop_inv S hm
    simp only [Spec.step, Option.map_eq_some_iff, Prod.mk.injEq] at hs
    obtain ⟨x, -, rfl, -⟩ := hs
    simp only [Spec.track] at ht
    split at ht
    · cases ht
    · rename_i hc
      cases ht
      by_cases ha : a = i
      · subst ha
        have hi := popBack_inv hf
        exact h.change S hr (by
          rw [specUpd_self]
          simp only [List.length_dropLast]
          have := h.lt
          have : k + 1 ≠ (s a).elems.length := fun e => hc ⟨rfl, e⟩
          omega) hi.2.2 (by rw [hi.2.1])
      · exact h.other (by rw [hr, upd_ne (Ne.symm ha)]) (specUpd_ne (Ne.symm ha))
  | popFront a =>
    obtain ⟨r', x, hf, hr⟩ := pop_inv S hm
    simp only [Spec.step, Option.map_eq_some_iff, Prod.mk.injEq] at hs
    obtain ⟨x, -, rfl, -⟩ := hs
    simp only [Spec.track] at ht
    by_cases ha : a = i
    · subst ha
      rw [if_pos rfl] at ht
      split at ht
      · cases ht
      · rename_i hc
        cases ht
        have hi := popFront_inv hf
        exact h.change S hr (by
          rw [specUpd_self]
          simp only [List.length_tail]
          have := h.lt
          omega) hi.2.2 (by rw [hi.2.1]; exact slot_popFront (I.rel i') (by omega))
    · rw [if_neg ha] at ht
      cases ht
      exact h.other (by rw [hr, upd_ne (Ne.symm ha)]) (specUpd_ne (Ne.symm ha))
  | clear a =>
    simp only [Spec.step, Option.some.injEq, Prod.mk.injEq] at hs
    obtain ⟨rfl, -⟩ := hs
    simp only [Spec.track] at ht
    split at ht
    · cases ht
    · rename_i ha
      cases ht
      simp only [step, S.ring a, R.ok_bind, R.bind_eq_ok] at hm
      obtain ⟨r, -, hm⟩ := hm
      have h1 : inPlace m a r = m' := congrArg Prod.fst (Except.ok.inj hm)
      exact h.other (by rw [← h1]; exact upd_ne (Ne.symm ha)) (specUpd_ne (Ne.symm ha))
  | set a j v =>
    simp only [Spec.step] at hs
    split at hs
    · simp only [Option.some.injEq, Prod.mk.injEq] at hs
      obtain ⟨rfl, -⟩ := hs
      cases ht
      simp only [step, S.ring a, R.ok_bind, R.bind_eq_ok] at hm
      obtain ⟨r, hf, hm⟩ := hm
      have h1 : inPlace m a r = m' := congrArg Prod.fst (Except.ok.inj hm)
      by_cases ha : a = i
      · subst ha
        have hi := set_inv hf
        exact h.change S (r' := r) (by rw [← h1]; rfl) (by rw [specUpd_self]; simp; exact h.lt) hi.2.2 (by rw [hi.2.1])
      · exact h.other (by rw [← h1]; exact upd_ne (Ne.symm ha)) (specUpd_ne (Ne.symm ha))
    · cases hs
  | front a =>
    simp only [Spec.step, Option.map_eq_some_iff, Prod.mk.injEq] at hs
    obtain ⟨x, -, rfl, -⟩ := hs
    cases ht
    rw [look_inv hm]; exact h
  | back a =>
    simp only [Spec.step, Option.map_eq_some_iff, Prod.mk.injEq] at hs
    obtain ⟨x, -, rfl, -⟩ := hs
    cases ht
    rw [look_inv hm]; exact h
  | get a j =>
    simp only [Spec.step, Option.map_eq_some_iff, Prod.mk.injEq] at hs
    obtain ⟨x, -, rfl, -⟩ := hs
    cases ht
    rw [look_inv hm]; exact h
  | size a =>
    simp only [Spec.step, Option.some.injEq, Prod.mk.injEq] at hs
    obtain ⟨rfl, -⟩ := hs
    cases ht
    rw [look_inv hm]; exact h
  | empty a =>
    simp only [Spec.step, Option.some.injEq, Prod.mk.injEq] at hs
    obtain ⟨rfl, -⟩ := hs
    cases ht
    rw [look_inv hm]; exact h
  | assignCopy a b =>
    simp only [Spec.step, Option.some.injEq, Prod.mk.injEq] at hs
    obtain ⟨rfl, -⟩ := hs
    simp only [Spec.track] at ht
    split at ht
    · cases ht
    · rename_i ha
      cases ht
      simp only [step] at hm
      obtain ⟨t, he⟩ := copy_shape (cp := copy triv) (dt := dtor triv) hm
      unfold Ref.replaced at he
      simp only [R.bind_eq_ok] at he
      obtain ⟨mem, -, he⟩ := he
      refine h.other ?_ (specUpd_ne (Ne.symm ha))
      rw [← Except.ok.inj he]
      exact upd_ne (Ne.symm ha)
  | assignMove a b =>
    simp only [Spec.step, Option.some.injEq, Prod.mk.injEq] at hs
    obtain ⟨rfl, -⟩ := hs
    simp only [step] at hm
    obtain ⟨mem, -, h1⟩ := move_shape (dt := dtor triv) hm
    simp only [Spec.track] at ht
    split at ht
    · cases ht
    · rename_i ha
      split at ht
      · rename_i hb
        subst hb
        have e1 : m'.rings a = m.rings b := by rw [← h1]; simp only [upd, if_neg ha, if_true]
        have e2 : Spec.upd (Spec.upd s a (s b)) b ⟨[], 0⟩ a = s b := by rw [specUpd_ne ha, specUpd_self]
        have hA : At m' (Spec.upd (Spec.upd s a (s b)) b ⟨[], 0⟩) p a k :=
          ⟨by rw [e2]; exact h.lt, by rw [e1]; exact h.blk, by rw [e1]; exact h.slot⟩
        cases ht
        exact hA
      · rename_i hb
        cases ht
        refine h.other ?_ (by rw [specUpd_ne (Ne.symm hb), specUpd_ne (Ne.symm ha)])
        rw [← h1]
        simp only [upd, if_neg (Ne.symm hb), if_neg (Ne.symm ha)]

theorem Sim.data {triv : Bool} {n : Nat} {m : World α} {w : Ring.World α} {s : Spec.Lists α} (S : Sim m w) (I : Inv triv n w s)
    {i : Nat} (hk : (s i).elems ≠ []) : ∃ b, (m.rings i).data = some b := by
  cases hd : (m.rings i).data with
  | some b => exact ⟨b, rfl⟩
  | none =>
    have h3 := (S.hdr i).2.2.2
    rw [hd] at h3
    obtain ⟨_, buf, _, _, _, _, _, _, _, hbuf, _⟩ := (I.rel i).buf ((I.rel i).cap_pos hk)
    rw [hbuf] at h3; cases h3

/-- A history does what it does without memory, and keeps the places. -/
theorem run_ok {triv : Bool} (ops : List (Op α)) : ∀ {n : Nat} {m : World α} {w : Ring.World α} {s : Spec.Lists α}, Sim m w →
    Inv triv n w s → n + ops.length ≤ 2 ^ 60 →
    match Spec.run s ops with
    | none => run triv m ops = .error .assert
    | some (s', os) => ∃ m' w', run triv m ops = .ok (m', os) ∧ Sim m' w' ∧ Inv triv (n + ops.length) w' s' ∧
        ∀ p i k i' k', At m s p i k → Spec.trackRun s (some (i, k)) ops = some (i', k') → At m' s' p i' k' := by
  induction ops with
  | nil =>
    intro n m w s S I _
    exact ⟨m, w, rfl, S, I, fun p i k i' k' h ht => by cases ht; exact h⟩
  | cons op ops ih =>
    intro n m w s S I hn
    simp only [List.length_cons] at hn ⊢
    have h := step_ok I (by omega) op
    have hsim := step_sim (triv := triv) S op
    simp only [Spec.run, run]
    cases hs : Spec.step s op with
    | none =>
      rw [hs] at h
      simp only [StepOK] at h
      rw [h] at hsim
      simp only [Agree] at hsim
      simp only [Option.bind_eq_bind, Option.bind_none]
      rw [hsim]; rfl
    | some q =>
      obtain ⟨s1, o⟩ := q
      rw [hs] at h
      obtain ⟨w1, e, I1⟩ := h
      rw [e] at hsim
      obtain ⟨m1, pl, e1, S1⟩ := hsim
      have h2 := ih S1 I1 (by omega)
      simp only [Option.bind_eq_bind, Option.bind_some]
      rw [e1]
      simp only [R.ok_bind]
      cases hs2 : Spec.run s1 ops with
      | none => rw [hs2] at h2; simp only [Option.bind_none] at h2 ⊢; rw [h2]; rfl
      | some q2 =>
        obtain ⟨s2, os⟩ := q2
        rw [hs2] at h2
        obtain ⟨m2, w2, e2, S2, I2, T2⟩ := h2
        simp only [Option.bind_some]
        rw [e2]
        refine ⟨m2, w2, rfl, S2, ?_, ?_⟩
        · rw [show n + (ops.length + 1) = n + 1 + ops.length by omega]
          exact I2
        · intro p i k i' k' hA ht
          simp only [Spec.trackRun, hs] at ht
          cases htr : Spec.track s op (some (i, k)) with
          | none =>
            rw [htr] at ht
            have : ∀ (l : List (Op α)) (s : Spec.Lists α), Spec.trackRun s none l = none := by
              intro l
              induction l with
              | nil => intro s; rfl
              | cons x l ihl =>
                intro s
                simp only [Spec.trackRun]
                split
                · rfl
                · exact ihl _
            rw [this] at ht; cases ht
          | some t =>
            obtain ⟨i1, k1⟩ := t
            rw [htr] at ht
            exact T2 p i1 k1 i' k' (step_track S I hs e1 hA htr) ht

/-- **C139.** For every history of calls on any number of ringbuffers (at most 2^60 calls): take a reference to element `k` of
ringbuffer `i` in the middle of it. As long as the element is not removed and its ringbuffer is neither assigned to nor given more
elements than its capacity, the reference stays valid, whatever is pushed and popped at both ends: it is the address of the same
element, wherever that now is in the sequence, also when the ringbuffer has been moved to another one; and reading through it gives the
value of that element. -/
theorem C139_references (triv : Bool) (ops1 ops2 : List (Op α)) (hn : ops1.length + ops2.length ≤ 2 ^ 60)
    {s1 s2 : Spec.Lists α} {os1 os2 : List (Obs α)} (h1 : Spec.run Spec.init ops1 = some (s1, os1))
    (h2 : Spec.run s1 ops2 = some (s2, os2)) {i k i' k' : Nat} (hk : k < (s1 i).elems.length)
    (ht : Spec.trackRun s1 (some (i, k)) ops2 = some (i', k')) :
    ∃ m1 m2 p, run triv World.init ops1 = .ok (m1, os1) ∧ address m1 i k = .ok p ∧ run triv m1 ops2 = .ok (m2, os2) ∧
      address m2 i' k' = .ok p ∧ ∃ a, (s2 i').elems[k']? = some a ∧ load m2 p = .ok a := by
  have r1 := run_ok (triv := triv) ops1 Sim.init (Inv.init triv) (by omega)
  rw [h1] at r1
  obtain ⟨m1, w1, e1, S1, I1, -⟩ := r1
  have r2 := run_ok (triv := triv) ops2 S1 I1 (by omega)
  rw [h2] at r2
  obtain ⟨m2, w2, e2, S2, I2, T⟩ := r2
  obtain ⟨b, hb⟩ := S1.data I1 (i := i) (fun e => by rw [e] at hk; cases hk)
  have hA : At m1 s1 (b, addMask (m1.rings i).begin_ k (m1.rings i).mask) i k := ⟨hk, hb, rfl⟩
  have hA2 := T _ _ _ _ _ hA ht
  exact ⟨m1, m2, _, e1, (address_ok S1 I1).2 hA, e2, (address_ok S2 I2).2 hA2, _, List.getElem?_eq_getElem hA2.lt, hA2.load S2 I2⟩

/-- The number read through a reference to element `k` of ringbuffer 0 after `ops1`, when then `ops2` has run. -/
def demo (ops1 ops2 : List (Op Nat)) (k : Nat) : R Nat := do
  let (m1, _) ← run false World.init ops1
  let p ← address m1 0 k
  let (m2, _) ← run false m1 ops2
  load m2 p

/-- Three elements in a ringbuffer of capacity 3, then two. -/
def full : List (Op Nat) := [.pushBack 0 (.val 1), .pushBack 0 (.val 2), .pushFront 0 (.val 3), .popBack 0]

/-- The front goes, two elements come on the other end (the second one wraps around), the ringbuffer is moved. -/
def later : List (Op Nat) := [.popFront 0, .pushFront 0 (.val 8), .pushBack 0 (.val 9), .set 0 1 5, .assignMove 1 0]

example : (Spec.run Spec.init full).map (fun q => ((q.1 0).elems, (q.1 0).cap)) = some ([3, 1], 3) ∧
    ((Spec.run Spec.init full).bind fun q => Spec.trackRun q.1 (some (0, 1)) later) = some (1, 1) ∧
    ((Spec.run Spec.init full).bind fun q => Spec.run q.1 later).map (fun q => (q.1 1).elems) = some [8, 5, 9] ∧
    demo full later 1 = .ok 5 := by decide +kernel

theorem slot_first {triv : Bool} {r : Ring α} {q : Spec.Q α} (h : Rel triv r q) : addMask r.begin_ 0 r.mask = r.begin_ := by
  obtain ⟨K, hK, hc, hm, hb, he, hl, -⟩ := h.ex
  rw [hm, addMask_eq (by omega), Nat.add_zero, Nat.mod_eq_of_lt hb]

theorem slot_end {triv : Bool} {r : Ring α} {q : Spec.Q α} (h : Rel triv r q) :
    addMask r.begin_ q.elems.length r.mask = r.end_ := by
  obtain ⟨K, hK, hc, hm, hb, he, hl, -⟩ := h.ex
  rw [hm, addMask_eq (by omega), he]

theorem slot_zero {triv : Bool} {r : Ring α} {q : Spec.Q α} (h : Rel triv r q) {k : Nat} (hk : k < q.elems.length)
    (h0 : r.begin_ = 0) : addMask r.begin_ k r.mask = k := by
  obtain ⟨K, hK, hc, hm, hb, he, hl, -⟩ := h.ex
  rw [hm, addMask_eq (by omega), h0, Nat.zero_add, Nat.mod_eq_of_lt (by omega)]

/-- A pushing call: where the new element is. -/
theorem push_at {triv : Bool} {n n' : Nat} {m m' : World α} {w w' : Ring.World α} {s s' : Spec.Lists α} (S : Sim m w)
    (S' : Sim m' w') (I' : Inv triv n' w' s') {i : Nat} {a : PushArg α} {f : Ring α → Arg α → R (Ring α × Nat)}
    {grows : Ring α → Bool} {slot : Ring α → Nat} {o : Obs α} {pl : Option Place} {k : Nat} (_I : Inv triv n w s)
    (h : push m i a f grows slot = .ok (m', o, pl)) (hk : k < (s' i).elems.length)
    (hs : ∀ arg r' l, f (w.rings i) arg = .ok (r', l) → r'.begin_ = (w'.rings i).begin_ → r'.mask = (w'.rings i).mask →
      addMask (w'.rings i).begin_ k (w'.rings i).mask = slot (w.rings i)) : ∃ p, pl = some p ∧ address m' i k = .ok p := by
  obtain ⟨r', arg, l, b, hf, hr, -, -, hpl⟩ := push_inv S h
  obtain ⟨b', hb'⟩ := S'.data I' (i := i) (fun e => by rw [e] at hk; cases hk)
  have hd : (m'.rings i).data = b := by rw [hr]; simp only [upd, if_true]
  have hb : b = some b' := by rw [← hd, hb']
  obtain ⟨h1, -, h3, -⟩ := S'.hdr i
  have e1 : r'.begin_ = (w'.rings i).begin_ := by rw [h1, hr]; simp only [upd, if_true]
  have e3 : r'.mask = (w'.rings i).mask := by rw [h3, hr]; simp only [upd, if_true]
  refine ⟨(b', slot (w.rings i)), by rw [hpl, hb]; rfl, (address_ok S' I').2 ⟨hk, hb', ?_⟩⟩
  rw [← h1, ← h3]
  exact hs arg r' l hf e1 e3

/-- **C139**, the reference that a pushing call returns: it is the address of the new element, the last one after `push_back`,
`emplace_back` and `emplace_back_stable`, the first one after `push_front`, `emplace_front` and `emplace_front_stable`, whether or not
the call had to grow. -/
theorem C139_push_returns (triv : Bool) (ops : List (Op α)) (op : Op α) (hn : ops.length + 1 ≤ 2 ^ 60) {s1 s2 : Spec.Lists α}
    {os : List (Obs α)} {o : Obs α} (h1 : Spec.run Spec.init ops = some (s1, os)) (h2 : Spec.step s1 op = some (s2, o)) :
    ∃ m1 m2 pl, run triv World.init ops = .ok (m1, os) ∧ step triv m1 op = .ok (m2, o, pl) ∧
      match op with
      | .pushBack i _ | .pushBackStable i _ => ∃ p, pl = some p ∧ address m2 i (s1 i).elems.length = .ok p
      | .pushFront i _ | .pushFrontStable i _ => ∃ p, pl = some p ∧ address m2 i 0 = .ok p
      | _ => True := by
  have r1 := run_ok (triv := triv) ops Sim.init (Inv.init triv) (by omega)
  rw [h1] at r1
  obtain ⟨m1, w1, e1, S1, I1, -⟩ := r1
  have hst := step_ok I1 (by omega) op
  rw [h2] at hst
  obtain ⟨w2, e2, I2⟩ := hst
  have hsim := step_sim (triv := triv) S1 op
  rw [e2] at hsim
  obtain ⟨m2, pl, em, S2⟩ := hsim
  refine ⟨m1, m2, pl, e1, em, ?_⟩
  cases op with
  | pushBack i a =>
    simp only [Spec.step, Option.map_eq_some_iff, Prod.mk.injEq] at h2
    obtain ⟨x, -, rfl, -⟩ := h2
    have hlt : (s1 i).elems.length < (Spec.upd s1 i ⟨(s1 i).elems ++ [x], Spec.capAfterPush (s1 i)⟩ i).elems.length := by
      rw [specUpd_self]; simp
    refine push_at S1 S2 I2 I1 em hlt fun arg r' l hf hb hmk => ?_
    have hi := emplaceBack_inv hf
    unfold slotBack
    by_cases hg : growsBack (w1.rings i) = true
    · rw [if_pos hg] at hi
      rw [if_pos hg, size_ok (I1.rel i)]
      exact slot_zero (I2.rel i) hlt (by rw [← hb]; exact hi.2.1)
    · rw [if_neg hg] at hi
      rw [if_neg hg, ← hb, ← hmk, hi.2.1, hi.2.2]
      exact slot_end (I1.rel i)
  | pushBackStable i a =>
    simp only [Spec.step] at h2
    split at h2
    · simp only [Option.map_eq_some_iff, Prod.mk.injEq] at h2
      obtain ⟨x, -, rfl, -⟩ := h2
      have hlt : (s1 i).elems.length < (Spec.upd s1 i ⟨(s1 i).elems ++ [x], (s1 i).cap⟩ i).elems.length := by
        rw [specUpd_self]; simp
      refine push_at S1 S2 I2 I1 em hlt fun arg r' l hf hb hmk => ?_
      have hi := emplaceBackStable_inv hf
      rw [← hb, ← hmk, hi.2.1, hi.2.2]
      exact slot_end (I1.rel i)
    · cases h2
  | pushFront i a =>
    simp only [Spec.step, Option.map_eq_some_iff, Prod.mk.injEq] at h2
    obtain ⟨x, -, rfl, -⟩ := h2
    have hlt : 0 < (Spec.upd s1 i ⟨x :: (s1 i).elems, Spec.capAfterPush (s1 i)⟩ i).elems.length := by
      rw [specUpd_self]; simp
    refine push_at S1 S2 I2 I1 em hlt fun arg r' l hf hb hmk => ?_
    have hi := emplaceFront_inv hf
    rw [slot_first (I2.rel i)]
    unfold slotFront
    by_cases hg : growsFront (w1.rings i) = true
    · rw [if_pos hg] at hi
      rw [if_pos hg, ← hb]
      exact hi.2.1
    · rw [if_neg hg] at hi
      rw [if_neg hg, ← hb]
      exact hi.2.1
  | pushFrontStable i a =>
    simp only [Spec.step] at h2
    split at h2
    · simp only [Option.map_eq_some_iff, Prod.mk.injEq] at h2
      obtain ⟨x, -, rfl, -⟩ := h2
      have hlt : 0 < (Spec.upd s1 i ⟨x :: (s1 i).elems, (s1 i).cap⟩ i).elems.length := by
        rw [specUpd_self]; simp
      refine push_at S1 S2 I2 I1 em hlt fun arg r' l hf hb hmk => ?_
      have hi := emplaceFrontStable_inv hf
      rw [slot_first (I2.rel i), ← hb]
      exact hi.2.1
    · cases h2
  | _ => trivial

/-- The value read through the reference that the call returns. -/
def demoPush (ops : List (Op Nat)) (op : Op Nat) : R (Option Place × List (R Nat)) := do
  let (m1, _) ← run false World.init ops
  let (m2, _, pl) ← step false m1 op
  .ok (pl, (pl.map (load m2)).toList)

example : demoPush full (.pushFront 0 (.val 7)) = .ok (some (0, 2), [.ok 7]) ∧
    demoPush (full ++ [.pushFront 0 (.val 7)]) (.pushBack 0 (.elem 1)) = .ok (some (1, 3), [.ok 3]) ∧
    demoPush (full ++ [.pushFront 0 (.val 7)]) (.pushFront 0 (.val 6)) = .ok (some (1, 0), [.ok 6]) := by decide +kernel

/-- **C139**, writing: assigning through a reference to element `k` of ringbuffer `i` is `ring_i[k] = a`. -/
theorem C139_write (triv : Bool) (m : World α) (i k : Nat) (a : α) (p : Place) (h : address m i k = .ok p) :
    store m p a = (step triv m (.set i k a)).map Prod.fst := by
  unfold address at h
  simp only [R.bind_eq_ok] at h
  obtain ⟨r, hr, u, hu, h⟩ := h
  rcases ringOf_inv hr with ⟨hd, -⟩ | ⟨b, buf, hd, hb, e⟩
  · rw [hd] at h; cases h
  · rw [hd] at h
    have hp := (Except.ok.inj h).symm
    simp only [step, hr, R.ok_bind]
    unfold store set
    rw [hu, hp]
    simp only [R.ok_bind, hb]
    unfold Ring.buf
    rw [e]
    simp only [R.ok_bind]
    cases ha : buf.assign (addMask (m.rings i).begin_ k (m.rings i).mask) a with
    | error x => rfl
    | ok buf' =>
      simp only [R.ok_bind, Except.map, inPlace, hd]
      congr 2
      funext j
      unfold upd
      split
      · rename_i hj; subst hj
        cases hh : m.rings j
        rw [hh] at hd
        simp_all
      · rfl

example : (match run false World.init full with
    | .ok (m, _) => (match address m 0 1 with
      | .ok p => (match store m p 9 with
        | .ok m => (ringOf m.mem (m.rings 0)).bind fun r => get r 1
        | _ => .error .ub)
      | _ => .error .ub)
    | _ => .error .ub) = .ok 9 := by decide +kernel

/-! ### After growth -/

/-- What a call does to the memory. -/
theorem step_shape {triv : Bool} {m m' : World α} {op : Op α} {o : Obs α} {pl : Option Place} (h : step triv m op = .ok (m', o, pl)) :
    ∃ i r mem, m' = m ∨ m' = inPlace m i r ∨ replaced m i r = .ok m' ∨ (free m.mem (m.rings i).data = .ok mem ∧ m'.mem = mem) := by
  have hpush : ∀ {i : Nat} {a : PushArg α} {f : Ring α → Arg α → R (Ring α × Nat)} {grows : Ring α → Bool} {slot : Ring α → Nat},
      push m i a f grows slot = .ok (m', o, pl) → ∃ r, m' = inPlace m i r ∨ replaced m i r = .ok m' := by
    intro i a f grows slot h
    unfold push at h
    simp only [R.bind_eq_ok] at h
    obtain ⟨r, -, arg, -, ⟨r', l⟩, -, m1, hm, h⟩ := h
    have h1 : m1 = m' := congrArg Prod.fst (Except.ok.inj h)
    subst h1
    split at hm
    · exact ⟨r', Or.inr hm⟩
    · exact ⟨r', Or.inl (Except.ok.inj hm).symm⟩
  have hpop : ∀ {i : Nat} {f : Ring α → R (α × Ring α)}, pop m i f = .ok (m', o, pl) → ∃ r, m' = inPlace m i r := by
    intro i f h
    unfold pop at h
    simp only [R.bind_eq_ok] at h
    obtain ⟨r, -, ⟨a, r'⟩, -, h⟩ := h
    exact ⟨r', (show inPlace m i r' = m' from congrArg Prod.fst (Except.ok.inj h)).symm⟩
  have e0 : Ring α := Ring.empty
  cases op with
  | pushBack i a => obtain ⟨r, h⟩ := hpush h; exact ⟨i, r, [], .inr (h.elim .inl fun h => .inr (.inl h))⟩
  | pushBackStable i a => obtain ⟨r, h⟩ := hpush h; exact ⟨i, r, [], .inr (h.elim .inl fun h => .inr (.inl h))⟩
  | pushFront i a => obtain ⟨r, h⟩ := hpush h; exact ⟨i, r, [], .inr (h.elim .inl fun h => .inr (.inl h))⟩
  | pushFrontStable i a => obtain ⟨r, h⟩ := hpush h; exact ⟨i, r, [], .inr (h.elim .inl fun h => .inr (.inl h))⟩
  | popBack i => obtain ⟨r, h⟩ := hpop h; exact ⟨i, r, [], .inr (.inl h)⟩
  | popFront i => obtain ⟨r, h⟩ := hpop h; exact ⟨i, r, [], .inr (.inl h)⟩
  | clear i =>
    simp only [step, R.bind_eq_ok] at h
    obtain ⟨r, -, r', -, h⟩ := h
    exact ⟨i, r', [], .inr (.inl (show inPlace m i r' = m' from congrArg Prod.fst (Except.ok.inj h)).symm)⟩
  | set i k a =>
    simp only [step, R.bind_eq_ok] at h
    obtain ⟨r, -, r', -, h⟩ := h
    exact ⟨i, r', [], .inr (.inl (show inPlace m i r' = m' from congrArg Prod.fst (Except.ok.inj h)).symm)⟩
  | front i => exact ⟨0, e0, [], .inl (look_inv h)⟩
  | back i => exact ⟨0, e0, [], .inl (look_inv h)⟩
  | get i k => exact ⟨0, e0, [], .inl (look_inv h)⟩
  | size i => exact ⟨0, e0, [], .inl (look_inv h)⟩
  | empty i => exact ⟨0, e0, [], .inl (look_inv h)⟩
  | assignCopy i j =>
    simp only [step] at h
    obtain ⟨t, he⟩ := copy_shape (cp := copy triv) (dt := dtor triv) h
    exact ⟨i, t, [], .inr (.inr (.inl he))⟩
  | assignMove i j =>
    simp only [step] at h
    obtain ⟨mem, he, h1⟩ := move_shape (dt := dtor triv) h
    exact ⟨i, e0, mem, .inr (.inr (.inr ⟨he, by rw [← h1]⟩))⟩

/-- A block that has been given back is not used again. -/
theorem step_dead {triv : Bool} {m m' : World α} {w : Ring.World α} (S : Sim m w) {op : Op α} {o : Obs α} {pl : Option Place}
    (h : step triv m op = .ok (m', o, pl)) {b : Nat} (hb : m.mem[b]? = some none) : m'.mem[b]? = some none := by
  have hne : ∀ i, (m.rings i).data ≠ some b := by
    intro i hd
    obtain ⟨-, buf, e, -⟩ := S.lt hd
    rw [hb] at e; cases e
  have hlt : b < m.mem.length := (List.getElem?_eq_some_iff.1 hb).1
  obtain ⟨i, r, mem, h | h | h | ⟨h, e⟩⟩ := step_shape h
  · rw [h]; exact hb
  · rw [h]
    unfold inPlace
    simp only
    cases hd : (m.rings i).data with
    | none => exact hb
    | some b' =>
      simp only
      rw [List.getElem?_set_ne fun e => hne i (by rw [hd, e])]
      exact hb
  · obtain ⟨mem', e, hlen, -, -, hs⟩ := S.free i
    unfold replaced at h
    rw [e] at h
    simp only [R.ok_bind] at h
    rw [← Except.ok.inj h]
    simp only
    rw [List.getElem?_append_left (by omega), hs b (hne i)]
    exact hb
  · obtain ⟨mem', e', -, -, -, hs⟩ := S.free i
    rw [e'] at h
    rw [e, ← Except.ok.inj h, hs b (hne i)]
    exact hb

theorem run_dead {triv : Bool} (ops : List (Op α)) : ∀ {m m' : World α} {w : Ring.World α} {os : List (Obs α)}, Sim m w →
    run triv m ops = .ok (m', os) → ∀ {b : Nat}, m.mem[b]? = some none → m'.mem[b]? = some none := by
  induction ops with
  | nil => intro m m' w os S h b hb; rw [← show m = m' from congrArg Prod.fst (Except.ok.inj h)]; exact hb
  | cons op ops ih =>
    intro m m' w os S h b hb
    simp only [run, R.bind_eq_ok] at h
    obtain ⟨⟨m1, o, pl⟩, e1, ⟨m2, os2⟩, e2, h⟩ := h
    have hm : m2 = m' := congrArg Prod.fst (Except.ok.inj h)
    subst hm
    have hsim := step_sim (triv := triv) S op
    cases hw : Ring.step triv w op with
    | error e => rw [hw] at hsim; simp only [Agree] at hsim; rw [hsim] at e1; cases e1
    | ok q =>
      obtain ⟨w1, o1⟩ := q
      rw [hw] at hsim
      obtain ⟨m1', pl', e1', S1⟩ := hsim
      rw [e1'] at e1
      have : m1' = m1 := congrArg Prod.fst (Except.ok.inj e1)
      subst this
      exact ih S1 e2 (step_dead S e1' hb)

/-- **C139**, the limit: when an element is pushed to a ringbuffer that holds as many elements as its capacity, at either end, all
references to its elements are dangling from then on, whatever the program does later: reading through them is undefined. -/
theorem C139_growth (triv : Bool) (ops1 ops2 : List (Op α)) (i : Nat) (a : PushArg α) (front : Bool) {s1 : Spec.Lists α}
    {os1 os2 : List (Obs α)} (hn : ops1.length < 2 ^ 60) (h1 : Spec.run Spec.init ops1 = some (s1, os1))
    (hfull : (s1 i).elems.length = (s1 i).cap) {m1 m2 : World α} (e1 : run triv World.init ops1 = .ok (m1, os1))
    (e2 : run triv m1 ((if front then .pushFront i a else .pushBack i a) :: ops2) = .ok (m2, os2)) {k : Nat} {p : Place}
    (hp : address m1 i k = .ok p) : load m2 p = .error .ub := by
  have r1 := run_ok (triv := triv) ops1 Sim.init (Inv.init triv) (by omega)
  rw [h1] at r1
  obtain ⟨m1', w1, e1', S1, I1, -⟩ := r1
  rw [e1'] at e1
  have : m1' = m1 := congrArg Prod.fst (Except.ok.inj e1)
  subst this
  have hA := (address_ok S1 I1).1 hp
  simp only [run, R.bind_eq_ok] at e2
  obtain ⟨⟨mm, o, pl⟩, es, ⟨m2', os2'⟩, er, h⟩ := e2
  have hm : m2' = m2 := congrArg Prod.fst (Except.ok.inj h)
  subst hm
  have key : ∀ {f : Ring α → Arg α → R (Ring α × Nat)} {grows : Ring α → Bool} {slot : Ring α → Nat},
      grows (w1.rings i) = true → (∀ r arg r' l, f r arg = .ok (r', l) → grows r = true → r'.data.isSome = true) →
      push m1' i a f grows slot = .ok (mm, o, pl) → mm.mem[p.1]? = some none := by
    intro f grows slot hg hf h
    unfold push at h
    rw [S1.ring i] at h
    simp only [R.ok_bind] at h
    simp only [R.bind_eq_ok] at h
    obtain ⟨arg, -, ⟨r', l⟩, hq, m3, hm3, h⟩ := h
    have h3 : m3 = mm := congrArg Prod.fst (Except.ok.inj h)
    subst h3
    rw [if_pos hg] at hm3
    obtain ⟨m4, e4, -, -, hd⟩ := S1.replaced i 0 (hf _ _ _ _ hq hg)
    rw [e4] at hm3
    rw [← Except.ok.inj hm3]
    exact hd p.1 hA.blk
  have hdead : mm.mem[p.1]? = some none := by
    cases front with
    | true =>
      simp only [if_true, step] at es
      exact key (by rw [growsFront_ok (I1.rel i)]; simpa using hfull) (fun r arg r' l h hg => by
        have := emplaceFront_inv h; rw [if_pos hg] at this; exact this.1) es
    | false =>
      rw [if_neg (by decide)] at es
      simp only [step] at es
      exact key (by rw [growsBack_ok (I1.rel i)]; simpa using hfull) (fun r arg r' l h hg => by
        have := emplaceBack_inv h; rw [if_pos hg] at this; exact this.1) es
  have hsim := step_sim (triv := triv) S1 (if front then .pushFront i a else .pushBack i a)
  cases hw : Ring.step triv w1 (if front then .pushFront i a else .pushBack i a) with
  | error e => rw [hw] at hsim; simp only [Agree] at hsim; rw [hsim] at es; cases es
  | ok q =>
    obtain ⟨w2, o2⟩ := q
    rw [hw] at hsim
    obtain ⟨m5, pl5, e5, S5⟩ := hsim
    rw [e5] at es
    have : m5 = mm := congrArg Prod.fst (Except.ok.inj es)
    subst this
    unfold load
    rw [run_dead ops2 S5 er hdead]

example : demo (full ++ [.pushFront 0 (.val 7)]) [.pushBack 0 (.val 1), .pushBack 1 (.val 2)] 1 = .error .ub ∧
    demo (full ++ [.pushFront 0 (.val 7)]) [.pushBack 1 (.val 1), .pushBack 1 (.val 2)] 1 = .ok 3 := by decide +kernel

end Verif.Ring.Ref
