import Verif.Vector.Lemmas2

/-! Helper lemmas for vector: a program with several vectors. -/
namespace Verif.Vector
open Verif.Mem

variable {α : Type}

theorem Owns.frame {T : Ty α} {h h' : Heap α} {p p' : Ptr} {v : Vec} {l : List α} (o : Owns T h v l)
    (f : Frame h p h' p') (hne : ∀ b, v.data = some b → p ≠ some b) : Owns T h' v l := by
  obtain ⟨hsz, ⟨hd, hc, hl⟩ | ⟨b, tail, hd, hb, hblk, hf, hc⟩⟩ := o
  · exact ⟨hsz, Or.inl ⟨hd, hc, hl⟩⟩
  · refine ⟨hsz, Or.inr ⟨b, tail, hd, Nat.lt_of_lt_of_le hb f.next, ?_, hf, hc⟩⟩
    rw [f.keep b hb (hne b hd)]; exact hblk

/-- The vectors of the program hold the lists `s`, do not share blocks, and own every block. -/
structure Inv (T : Ty α) (w : World α) (s : Spec.Lists α) : Prop where
  wf : WF w.heap
  owns : ∀ i, Owns T w.heap (w.vecs i) (s i)
  dist : ∀ i j b, i ≠ j → (w.vecs i).data = some b → (w.vecs j).data ≠ some b
  all : ∀ b, w.heap.blocks b ≠ none → ∃ i, (w.vecs i).data = some b

theorem Inv.init (T : Ty α) : Inv T (World.init : World α) (fun _ => []) where
  wf := fun _ _ => rfl
  owns := fun _ => owns_empty T _
  dist := by intro i j b _ h; simp [World.init, Vec.empty] at h
  all := by intro b h; simp [World.init, Heap.init] at h

@[simp] theorem put_heap (w : World α) (h i v) : (w.put h i v).heap = h := rfl
@[simp] theorem put_vecs_self (w : World α) (h i v) : (w.put h i v).vecs i = v := by simp [World.put]
theorem put_vecs_ne (w : World α) (h v) {i j : Nat} (hj : j ≠ i) : (w.put h i v).vecs j = w.vecs j := by
  simp [World.put, hj]
@[simp] theorem put_put (w : World α) (h h' i v v') : (w.put h i v).put h' i v' = w.put h' i v' := by
  unfold World.put
  congr 1
  funext j
  by_cases hj : j = i <;> simp [hj]

@[simp] theorem upd_self (s : Spec.Lists α) (i : Nat) : Spec.upd s i (s i) = s := by
  funext j
  by_cases hj : j = i <;> simp [Spec.upd, hj]

theorem Inv.put {T : Ty α} {w : World α} {s : Spec.Lists α} (I : Inv T w s) {i : Nat} {h' : Heap α} {v' : Vec} {l : List α}
    (f : Frame w.heap (w.vecs i).data h' v'.data) (o : Owns T h' v' l) : Inv T (w.put h' i v') (Spec.upd s i l) where
  wf := f.wf
  owns := by
    intro j
    by_cases hj : j = i
    · subst hj; simpa [Spec.upd] using o
    · rw [put_vecs_ne _ _ _ hj, put_heap]
      simp only [Spec.upd, hj, if_false]
      exact (I.owns j).frame f (fun b hb => I.dist j i b hj hb)
  dist := by
    have key : ∀ j b, j ≠ i → v'.data = some b → (w.vecs j).data ≠ some b := by
      intro j b hj hv hb
      rcases f.ptr with h1 | h1 | ⟨x, hx, h1⟩
      · exact I.dist j i b hj hb (h1 ▸ hv)
      · rw [h1] at hv; simp at hv
      · rw [h1] at hv
        have := (I.owns j).lt b hb
        simp at hv; omega
    intro a c b hac ha
    by_cases h1 : a = i
    · subst h1
      rw [put_vecs_ne _ _ _ (Ne.symm hac)]
      rw [put_vecs_self] at ha
      exact key c b (Ne.symm hac) ha
    · rw [put_vecs_ne _ _ _ h1] at ha
      by_cases h2 : c = i
      · subst h2
        rw [put_vecs_self]
        intro h3
        exact key a b h1 h3 ha
      · rw [put_vecs_ne _ _ _ h2]
        exact I.dist a c b hac ha
  all := by
    intro b hb
    rcases f.gone b hb with h1 | ⟨h1, h2⟩
    · exact ⟨i, by rw [put_vecs_self]; exact h1⟩
    · rw [put_heap, f.keep b h2 h1] at hb
      obtain ⟨j, hj⟩ := I.all b hb
      have : j ≠ i := by intro e; subst e; exact h1 hj
      exact ⟨j, by rw [put_vecs_ne _ _ _ this]; exact hj⟩

/-- What a step must do: the given result, or a contract failure. `clean` says when nothing may leak. -/
def StepOK (T : Ty α) (w : World α) (clean : Prop) (exp : Option (Spec.Lists α × Obs α)) (r : R (World α × Obs α)) : Prop :=
  match exp with
  | none => r = .error .assert
  | some (s', o) => ∃ w', r = .ok (w', o) ∧ Inv T w' s' ∧ w.heap.leaked ≤ w'.heap.leaked ∧
      (clean → w'.heap.leaked = w.heap.leaked)

theorem call_ok {T : Ty α} {w : World α} {s : Spec.Lists α} (I : Inv T w s) {i : Nat} {l : List α} {clean : Prop}
    {f : Heap α → Vec → R (Heap α × Vec)} (hd : Done T w.heap (w.vecs i) l (f w.heap (w.vecs i))) :
    StepOK T w clean (some (Spec.upd s i l, .none)) (w.call i f) := by
  obtain ⟨h', v', e, o, fr, lk⟩ := hd
  unfold World.call
  rw [e]
  exact ⟨_, rfl, I.put fr o, by simp [lk], fun _ => by simp [lk]⟩

theorem callObs_ok {T : Ty α} {w : World α} {s : Spec.Lists α} (I : Inv T w s) {i : Nat} {l : List α} {clean : Prop}
    {β : Type} {g : β → Obs α} {x : β} {f : Heap α → Vec → R (β × Heap α × Vec)}
    (hd : ∃ h' v', f w.heap (w.vecs i) = .ok (x, h', v') ∧ Owns T h' v' l ∧ Frame w.heap (w.vecs i).data h' v'.data ∧
      h'.leaked = w.heap.leaked) :
    StepOK T w clean (some (Spec.upd s i l, g x)) (w.callObs i f g) := by
  obtain ⟨h', v', e, o, fr, lk⟩ := hd
  unfold World.callObs
  rw [e]
  exact ⟨_, rfl, I.put fr o, by simp [lk], fun _ => by simp [lk]⟩

theorem call_bad {T : Ty α} {w : World α} {i : Nat} {clean : Prop} {f : Heap α → Vec → R (Heap α × Vec)}
    (hd : f w.heap (w.vecs i) = .error .assert) : StepOK T w clean none (w.call i f) := by
  unfold World.call; rw [hd]; rfl

theorem keep_ok {T : Ty α} {w : World α} {s : Spec.Lists α} (I : Inv T w s) {clean : Prop} (o : Obs α) :
    StepOK T w clean (some (s, o)) (.ok (w, o)) := ⟨w, rfl, I, Nat.le_refl _, fun _ => rfl⟩

theorem argOK_elem {T : Ty α} {h : Heap α} {v : Vec} {l : List α} (o : Owns T h v l) {k : Nat} (hk : k < l.length) :
    ArgOK h (.ref v.data k) l[k] := by
  obtain ⟨b, tail, hd, hb, hsplit, hblk, hf, hc⟩ := o.at hk
  exact ⟨b, _, _, hd, hb, hblk, by simp; omega⟩

/-- The value the specification gives to a constructor expression. -/
def ctorList (dflt : α) (s : Spec.Lists α) : Ctor α → List α
  | .sized n => List.replicate n dflt
  | .filled n a => List.replicate n a
  | .reserved _ => []
  | .range l => l
  | .copyOf j => s j

theorem construct_ok {T : Ty α} {w : World α} {s : Spec.Lists α} (I : Inv T w s) {c : Ctor α} {i : Nat}
    (hn : Spec.demand s (.assignNew i c) ≤ 2 ^ 48) :
    Done T w.heap Vec.empty (ctorList T.dflt s c) (construct T w c) := by
  cases c with
  | sized n => exact mkSized_ok I.wf n
  | filled n a =>
    have := resize_ok (T := T) I.wf (owns_empty T w.heap) (n := n) (a := a) hn
    simpa [Spec.resized, ctorList, construct, mkFilled] using this
  | reserved n => exact (reserve_ok I.wf (owns_empty T w.heap) hn).1
  | range l => exact mkRange_ok I.wf rfl hn
  | copyOf j =>
    have hs := (I.owns j).1
    simp only [construct, mkCopy, ctorList]
    rw [hs]
    exact mkRange_ok I.wf ((I.owns j).srcAvail (by simp)) hn

/-- Construct somewhere else, then drop block `p`. -/
theorem Frame.replace {h h1 : Heap α} {p q : Ptr} (f : Frame h none h1 q) (hp : ∀ b, p = some b → b < h.next) :
    Frame h p (dropBlock h1 p) q := by
  have hqne : ∀ b, p = some b → q ≠ some b := by
    intro b hb hq
    have := hp b hb
    rcases f.ptr with h3 | h3 | ⟨x, hx, h3⟩
    · rw [h3] at hq; simp at hq
    · rw [h3] at hq; simp at hq
    · rw [h3] at hq; simp at hq; omega
  have g := Frame.drop f.wf p
  refine ⟨by simpa using f.next, ?_, ?_, ?_, g.wf⟩
  · intro x hx hpx
    rw [g.keep x (Nat.lt_of_lt_of_le hx f.next) hpx, f.keep x hx (by simp)]
  · intro x hx
    rcases g.gone x hx with h1 | ⟨h1, h2⟩
    · simp at h1
    · rw [g.keep x h2 h1] at hx
      rcases f.gone x hx with h3 | ⟨-, h3⟩
      · exact Or.inl h3
      · exact Or.inr ⟨h1, h3⟩
  · rcases f.ptr with h3 | h3 | h3
    · exact Or.inr (Or.inl h3)
    · exact Or.inr (Or.inl h3)
    · exact Or.inr (Or.inr h3)

theorem assignNew_ok {T : Ty α} {w : World α} {s : Spec.Lists α} (I : Inv T w s) {c : Ctor α} {i : Nat}
    (hn : Spec.demand s (.assignNew i c) ≤ 2 ^ 48) {clean : Prop} :
    StepOK T w clean (some (Spec.upd s i (ctorList T.dflt s c), .none)) (step T w (.assignNew i c)) := by
  obtain ⟨h1, t, e, o, f, lk⟩ := construct_ok I hn
  simp only [step, assignNew]
  rw [e]
  simp only [R.ok_bind]
  have oi : Owns T h1 (w.vecs i) (s i) := (I.owns i).frame f (by simp [Vec.empty])
  rw [dtor_ok f.wf oi]
  simp only [R.ok_bind]
  have fr := Frame.replace f (I.owns i).lt
  rw [dtor_ok fr.wf (owns_empty T _)]
  simp only [R.ok_bind, Vec.empty]
  refine ⟨_, rfl, I.put (h' := dropBlock h1 (w.vecs i).data) fr ?_, by simp [lk], fun _ => by simp [lk]⟩
  refine o.frame (Frame.drop f.wf _) ?_
  intro b hb hp
  have hlt := (I.owns i).lt b hp
  rcases f.ptr with h3 | h3 | ⟨x, hx, h3⟩
  · rw [h3] at hb; simp [Vec.empty] at hb
  · rw [h3] at hb; simp at hb
  · rw [h3] at hb; simp at hb; omega

theorem moveAssign_ok {T : Ty α} {w : World α} {s : Spec.Lists α} (I : Inv T w s) {i j : Nat} {clean : Prop} :
    StepOK T w clean (some (Spec.upd (Spec.upd s i (s j)) j [], .none)) (step T w (.moveAssign i j)) := by
  simp only [step, Vector.moveAssign]
  rw [dtor_ok I.wf (I.owns i)]
  simp only [R.ok_bind]
  have f := Frame.drop I.wf (w.vecs i).data
  refine ⟨_, rfl, ?_, by simp, fun _ => by simp⟩
  by_cases hij : i = j
  · subst hij
    rw [put_put]
    have : Spec.upd (Spec.upd s i (s i)) i [] = Spec.upd s i [] := by rw [upd_self]
    rw [this]
    exact I.put f (owns_empty T _)
  · have hji : j ≠ i := Ne.symm hij
    -- vector variables after the assignment
    have hv : ∀ k, (((w.put (dropBlock w.heap (w.vecs i).data) i (w.vecs j)).put
        (dropBlock w.heap (w.vecs i).data) j Vec.empty).vecs k) =
        if k = j then Vec.empty else if k = i then w.vecs j else w.vecs k := by
      intro k; rfl
    have hsp : ∀ k, Spec.upd (Spec.upd s i (s j)) j [] k = if k = j then [] else if k = i then s j else s k := by
      intro k; rfl
    refine ⟨f.wf, ?_, ?_, ?_⟩
    · intro k
      rw [hv, hsp, put_heap]
      by_cases h1 : k = j
      · simp only [h1, if_true]; exact owns_empty T _
      · simp only [h1, if_false]
        by_cases h2 : k = i
        · simp only [h2, if_true]
          exact (I.owns j).frame f (fun b hb => I.dist j i b hji hb)
        · simp only [h2, if_false]
          exact (I.owns k).frame f (fun b hb => I.dist k i b h2 hb)
    · intro a c b hac
      rw [hv, hv]
      by_cases a1 : a = j
      · simp [a1, Vec.empty]
      · by_cases c1 : c = j
        · simp [c1, Vec.empty]
        · simp only [a1, c1, if_false]
          by_cases a2 : a = i
          · by_cases c2 : c = i
            · omega
            · simp only [a2, c2, if_true, if_false]
              exact I.dist j c b (Ne.symm c1)
          · by_cases c2 : c = i
            · simp only [a2, c2, if_true, if_false]
              exact I.dist a j b a1
            · simp only [a2, c2, if_false]
              exact I.dist a c b hac
    · intro b hb
      rw [put_heap] at hb
      rcases f.gone b hb with h1 | ⟨h1, h2⟩
      · simp at h1
      · rw [f.keep b h2 h1] at hb
        obtain ⟨k, hk⟩ := I.all b hb
        have hki : k ≠ i := by intro e; subst e; exact h1 hk
        by_cases hkj : k = j
        · refine ⟨i, ?_⟩
          rw [hv]
          subst hkj
          simp only [hij, if_true, if_false]
          exact hk
        · refine ⟨k, ?_⟩
          rw [hv]
          simp only [hki, hkj, if_false]
          exact hk

/-- The calls that can leak: `shrink_to_fit` on a vector of a type with a destructor. -/
def Clean (T : Ty α) (op : Op α) : Prop := T.triv = true ∨ ∀ i, op ≠ .shrinkToFit i

theorem step_ok {T : Ty α} {w : World α} {s : Spec.Lists α} (I : Inv T w s) {op : Op α}
    (hd : Spec.demand s op ≤ 2 ^ 48)
    (hr : ∀ i idx cnt, op = .removeRange i idx cnt → idx + cnt < 2 ^ 64 ∧ (s i).length < 2 ^ 64) :
    StepOK T w (Clean T op) (Spec.step T.dflt T.eqv s op) (step T w op) := by
  cases op with
  | pushBack i a =>
    cases a with
    | val a => exact call_ok I (f := fun h v => emplaceBack T h v (.val a)) (emplaceBack_ok I.wf (I.owns i) (a := a) (arg := .val a) rfl)
    | elem j k =>
      simp only [Spec.step, step, pushArg]
      by_cases hk : k < (s j).length
      · rw [List.getElem?_eq_getElem hk, ccAssert_true (by simpa [(I.owns j).1] using hk)]
        exact call_ok I (f := fun h v => emplaceBack T h v (.ref (w.vecs j).data k)) (emplaceBack_ok I.wf (I.owns i) (argOK_elem (I.owns j) hk))
      · rw [List.getElem?_eq_none (by omega), ccAssert_false (by simpa [(I.owns j).1] using hk)]
        rfl
  | pushRange i c sz l => exact call_ok I (f := fun h v => pushBackRange T c sz h v l) (pushBackRange_ok I.wf (I.owns i) hd)
  | insertRange i idx l =>
    simp only [Spec.step, step]
    split
    · rename_i hi
      exact call_ok I (insertRangeAt_ok I.wf (I.owns i) hd hi)
    · rename_i hi
      exact call_bad (insertRangeAt_bad (I.owns i) hi)
  | popBack i =>
    simp only [Spec.step, step]
    split
    · rename_i hi
      exact call_ok I (popBack_ok I.wf (I.owns i) (by intro h0; rw [h0] at hi; simp at hi))
    · rename_i hi
      exact call_bad (popBack_bad (by rw [(I.owns i).1]; omega))
  | getAndPopBack i =>
    simp only [Spec.step, step]
    by_cases h0 : s i = []
    · rw [h0]
      unfold World.callObs
      rw [getAndPopBack_bad (by rw [(I.owns i).1, h0]; rfl)]
      rfl
    · rw [List.getLast?_eq_some_getLast h0]
      exact callObs_ok I (g := .elem) (getAndPopBack_ok I.wf (I.owns i) h0)
  | reserve i n =>
    have := call_ok I (f := fun h v => reserve T h v n) (clean := Clean T (.reserve i n)) (reserve_ok I.wf (I.owns i) hd).1
    rw [upd_self] at this
    exact this
  | resize i n => exact call_ok I (f := fun h v => resize T h v n T.dflt) (resize_ok I.wf (I.owns i) hd)
  | resizeWith i n a => exact call_ok I (f := fun h v => resize T h v n a) (resize_ok I.wf (I.owns i) hd)
  | clear i => exact call_ok I (clear_ok I.wf (I.owns i))
  | shrinkToFit i =>
    obtain ⟨h', v', e, o, f, hc, lk⟩ := shrinkToFit_ok I.wf (I.owns i)
    simp only [Spec.step, step, World.call]
    rw [e]
    refine ⟨_, rfl, ?_, by simp [lk], ?_⟩
    · have := I.put f o
      rw [upd_self] at this
      exact this
    · intro hcl
      rcases hcl with ht | hn
      · simp [lk, ht]
      · exact absurd rfl (hn i)
  | removeAll i p => exact callObs_ok I (g := .nat) (removeAll_ok I.wf (I.owns i))
  | removeFirst i p => exact callObs_ok I (g := .bool) (removeFirst_ok I.wf (I.owns i))
  | removeFirstUnordered i p =>
    have := callObs_ok I (g := .bool) (clean := Clean T (.removeFirstUnordered i p))
      (removeFirstUnordered_ok (pred := p) I.wf (I.owns i))
    simp only [Spec.step, step]
    cases hf : (s i).findIdx? p with
    | none =>
      rw [hf] at this
      simp only [upd_self] at this
      exact this
    | some k =>
      rw [hf] at this
      exact this
  | removeValue i a => exact callObs_ok I (g := .nat) (removeAll_ok (pred := fun x => T.eqv x a) I.wf (I.owns i))
  | removeRange i idx cnt =>
    obtain ⟨h1, h2⟩ := hr i idx cnt rfl
    simp only [Spec.step, step]
    by_cases h0 : cnt = 0
    · rw [if_pos h0]
      subst h0
      have hd : Done T w.heap (w.vecs i) (s i) (removeRange T w.heap (w.vecs i) idx 0) := by
        unfold removeRange
        rw [if_pos rfl]
        exact Done.refl I.wf (I.owns i)
      have := call_ok I (f := fun h v => removeRange T h v idx 0) (clean := Clean T (.removeRange i idx 0)) hd
      rw [upd_self] at this
      exact this
    · rw [if_neg h0]
      split
      · rename_i hi
        exact call_ok I (removeRange_ok I.wf (I.owns i) hi (by omega) h2)
      · rename_i hi
        exact call_bad (removeRange_bad (I.owns i) hi h0 h1)
  | removeAt i idx =>
    simp only [Spec.step, step]
    split
    · rename_i hi
      exact call_ok I (removeAt_ok I.wf (I.owns i) hi)
    · rename_i hi
      exact call_bad (removeAt_bad (I.owns i) hi)
  | removeAtUnordered i idx =>
    simp only [Spec.step, step]
    split
    · rename_i hi
      exact call_ok I (removeAtUnordered_ok I.wf (I.owns i) hi)
    · rename_i hi
      exact call_bad (removeAtUnordered_bad (I.owns i) hi)
  | get i k =>
    simp only [Spec.step, step]
    by_cases hk : k < (s i).length
    · rw [List.getElem?_eq_getElem hk, at_ok (I.owns i) hk]
      exact keep_ok I _
    · rw [List.getElem?_eq_none (by omega), at_bad (I.owns i) hk]
      rfl
  | set i k a =>
    simp only [Spec.step, step]
    split
    · rename_i hi
      exact call_ok I (f := fun h v => do
        let h ← setAt h v k a
        .ok (h, v)) (setAt_ok I.wf (I.owns i) hi)
    · rename_i hi
      refine call_bad ?_
      rw [setAt_bad (I.owns i) hi]
      rfl
  | front i =>
    simp only [Spec.step, step, front_eq]
    rw [List.head?_eq_getElem?]
    by_cases hk : 0 < (s i).length
    · rw [List.getElem?_eq_getElem hk, at_ok (I.owns i) hk]
      exact keep_ok I _
    · rw [List.getElem?_eq_none (by omega), at_bad (I.owns i) hk]
      rfl
  | back i =>
    simp only [Spec.step, step]
    rw [List.getLast?_eq_getElem?]
    have hsz := (I.owns i).1
    by_cases hk : 0 < (s i).length
    · rw [List.getElem?_eq_getElem (by omega), back_eq (by omega), hsz, at_ok (I.owns i) (by omega)]
      exact keep_ok I _
    · rw [List.getElem?_eq_none (by omega)]
      unfold back
      rw [ccAssert_false (by simp; omega)]
      rfl
  | size i =>
    simp only [Spec.step, step, (I.owns i).1]
    exact keep_ok I _
  | contains i a =>
    simp only [Spec.step, step]
    rw [contains_owns (I.owns i)]
    exact keep_ok I _
  | eq i j =>
    simp only [Spec.step, step]
    rw [eq_owns (I.owns i) (I.owns j)]
    exact keep_ok I _
  | copyAssign i j =>
    simp only [Spec.step, step]
    split
    · rename_i hij
      subst hij
      rw [upd_self]
      exact keep_ok I _
    · rename_i hij
      exact call_ok I (f := fun h v => copyAssignOther T h v (w.vecs j))
        (copyAssignOther_ok I.wf (I.owns i) (I.owns j) (fun b hb => I.dist j i b (Ne.symm hij) hb))
  | moveAssign i j => exact moveAssign_ok I
  | assignNew i c =>
    have := assignNew_ok I (c := c) (i := i) hd (clean := Clean T (.assignNew i c))
    cases c <;> exact this

theorem run_ok {T : Ty α} (ops : List (Op α)) : ∀ {w : World α} {s : Spec.Lists α} (_ : Inv T w s)
    (_ : Spec.InRange T.dflt T.eqv s ops),
    match Spec.run T.dflt T.eqv s ops with
    | none => run T w ops = .error .assert
    | some (s', os) => ∃ w', run T w ops = .ok (w', os) ∧ Inv T w' s' ∧ w.heap.leaked ≤ w'.heap.leaked ∧
        ((∀ op ∈ ops, Clean T op) → w'.heap.leaked = w.heap.leaked) := by
  induction ops with
  | nil => intro w s I _; exact ⟨w, rfl, I, Nat.le_refl _, fun _ => rfl⟩
  | cons op ops ih =>
    intro w s I hr
    obtain ⟨h1, h2, h3⟩ := hr
    have hst := step_ok I h1 h2
    simp only [Spec.run, run]
    cases hs : Spec.step T.dflt T.eqv s op with
    | none =>
      rw [hs] at hst
      simp only [StepOK] at hst
      rw [hst]; rfl
    | some p =>
      obtain ⟨s1, o⟩ := p
      rw [hs] at hst
      obtain ⟨w1, e1, I1, le1, c1⟩ := hst
      rw [e1]
      have hrun := ih I1 (h3 s1 o hs)
      simp only [Option.bind_eq_bind, Option.bind_some, R.ok_bind]
      cases hs2 : Spec.run T.dflt T.eqv s1 ops with
      | none =>
        rw [hs2] at hrun
        simp only at hrun
        rw [hrun]; rfl
      | some q =>
        obtain ⟨s2, os⟩ := q
        rw [hs2] at hrun
        obtain ⟨w2, e2, I2, le2, c2⟩ := hrun
        rw [e2]
        refine ⟨w2, rfl, I2, Nat.le_trans le1 le2, ?_⟩
        intro hc
        rw [c2 (fun op hop => hc op (by simp [hop])), c1 (hc op (by simp))]

theorem destroyUpto_ok {T : Ty α} (n : Nat) : ∀ {w : World α} {s : Spec.Lists α} (_ : Inv T w s),
    ∃ w', destroyUpto T w n = .ok w' ∧ Inv T w' (fun i => if i < n then [] else s i) ∧
      w'.heap.leaked = w.heap.leaked ∧ (∀ i, i < n → w'.vecs i = Vec.empty) ∧ (∀ i, n ≤ i → w'.vecs i = w.vecs i) := by
  induction n with
  | zero => intro w s I; exact ⟨w, rfl, by simpa using I, rfl, by simp, fun _ _ => rfl⟩
  | succ n ih =>
    intro w s I
    simp only [destroyUpto]
    rw [dtor_ok I.wf (I.owns n)]
    simp only [R.ok_bind]
    have I1 := I.put (i := n) (v' := Vec.empty) (Frame.drop I.wf _) (owns_empty T _)
    obtain ⟨w', e, I2, lk, hv, hv'⟩ := ih I1
    refine ⟨w', e, ?_, by rw [lk]; simp, ?_, ?_⟩
    · have : (fun i => if i < n + 1 then [] else s i) = (fun i => if i < n then [] else Spec.upd s n [] i) := by
        funext i
        unfold Spec.upd
        by_cases h1 : i < n
        · simp [h1, show i < n + 1 by omega]
        · by_cases h2 : i = n
          · simp [h2]
          · simp [h1, h2, show ¬ i < n + 1 by omega]
      rw [this]; exact I2
    · intro i hi
      by_cases h1 : i < n
      · exact hv i h1
      · have : i = n := by omega
        subst this
        rw [hv' i (Nat.le_refl _), put_vecs_self]
    · intro i hi
      rw [hv' i (by omega), put_vecs_ne _ _ _ (by omega)]

end Verif.Vector
