import Verif.AArr.Spec
import Verif.AVec.Props

/-!
Property theorems for `cc::alloc_array`: C72.

`run E World.init ops` is a program that makes the calls `ops` on array variables with any allocators (Model.lean);
`Spec.run E.dflt E.eqv (fun _ => V.empty) ops` is the same program on lists that remember their allocator (Spec.lean).
-/
namespace Verif.AArr
open Verif.Mem
open Verif.Vector hiding World run step dtor moveAssign Op
open Verif.AVec (AV World dtor moveAssign moveCtor readAll Inv StepOK system)
open Verif.AVec.Spec (V State upd)

variable {α : Type}

theorem fillNew_ok {T : Ty α} {h : Heap α} (hw : WF h) (n : Nat) (x : α) :
    Done T h Vec.empty (List.replicate n x) (fillNew T h n x) := by
  unfold fillNew
  rw [alloc_withNew]
  simp only
  rw [fillLoop_ok (i := 0) (pre := []) (mid := List.replicate n .raw) (post := []) x n (withNew_new _ _) (by simp) (by simp)
    (Free.replicate _ _) rfl]
  simp only [R.ok_bind, withNew_set]
  have := Done.fresh (T := T) hw (v := Vec.empty) (by intro b hb; simp [Vec.empty] at hb)
    (l := List.replicate n x) (tail := []) (Free.nil _) (n := n) (c := n) (by simp) (by simp)
  simpa [Vec.empty, fresh, withNew] using this

theorem allocZero_ok {T : Ty α} {h : Heap α} (hw : WF h) :
    Done T h Vec.empty [] (.ok ((alloc h 0).2, { data := (alloc h 0).1, size := 0, cap := 0 })) := fillNew_ok (T := T) hw 0 T.dflt

theorem defaultNew_ok {E : Elem α} {h : Heap α} (hw : WF h) {n : Nat} (hn : E.tc = true → n = 0) :
    Done E.toTy h Vec.empty (List.replicate n E.dflt) (defaultNew E h n) := by
  unfold defaultNew
  cases ht : E.tc with
  | false => exact fillNew_ok hw n E.dflt
  | true =>
    rw [hn ht]
    exact allocZero_ok hw

theorem copyNew_ok {T : Ty α} {h : Heap α} (hw : WF h) {src : Src α} {xs : List α} (hsrc : SrcAvail h none src xs) :
    Done T h Vec.empty xs (copyNew T h src xs.length) := by
  unfold copyNew
  rw [alloc_withNew]
  simp only
  have hfr := Frame.fresh hw (p := none) (by simp) (List.replicate xs.length (.raw : Slot α))
  have hs := hsrc.srcOK (h' := withNew h (List.replicate xs.length .raw)) (p' := some h.next) hfr rfl
  rw [copyConstructRange_ok (d0 := 0) (pre := []) (mid := List.replicate xs.length .raw) (post := []) hs (withNew_new _ _) (by simp)
    (by simp) (Free.replicate _ _) rfl]
  simp only [R.ok_bind, withNew_set]
  have := Done.fresh (T := T) hw (v := Vec.empty) (by intro b hb; simp [Vec.empty] at hb)
    (l := xs) (tail := []) (Free.nil _) (n := xs.length) (c := xs.length) (by simp) (by simp)
  simpa [Vec.empty, fresh, withNew] using this

theorem construct_ok {E : Elem α} {w : World α} {s : State α} (I : Inv E.toTy w s) {a i : Nat} {c : Ctor α}
    (hc : Spec.Covered E.tc (.assignNew i (some a) c)) :
    Done E.toTy (w.heaps a) Vec.empty (Spec.ctorList E.dflt s c) (construct E w a c) := by
  have wf : WF (w.heaps a) := (I.sub a).wf
  cases c with
  | dflt => exact Done.refl wf (owns_empty _ _)
  | sized n => exact defaultNew_ok wf hc
  | filled n x => exact fillNew_ok wf n x
  | range l => exact copyNew_ok wf rfl
  | copyOf j =>
    have o := I.owns j
    simp only [construct, Spec.ctorList]
    by_cases ha : (w.vecs j).al = a
    · rw [if_pos ha]
      rw [ha] at o
      rw [o.1]
      exact copyNew_ok wf (o.srcAvail (by simp))
    · rw [if_neg ha, AVec.readAll_owns o]
      simp only [R.ok_bind]
      rw [o.1]
      exact copyNew_ok wf rfl

theorem assignNew_ok {E : Elem α} {w : World α} {s : State α} (I : Inv E.toTy w s) {i : Nat} {a : Option Nat} {c : Ctor α}
    (hc : Spec.Covered E.tc (.assignNew i a c)) :
    StepOK E.toTy w True (Spec.step E.dflt E.eqv s (.assignNew i a c)) (step E w (.assignNew i a c)) := by
  simp only [Spec.step, step, assignNew]
  cases a with
  | none => rfl
  | some a =>
    obtain ⟨h1, t, e, o, f, lk⟩ := construct_ok I (i := i) (c := c) hc
    simp only
    rw [e]
    simp only [R.ok_bind, AVec.setHeap_vecs]
    obtain ⟨w2, e2, I2, lk2⟩ := I.replace (i := i) f o lk
    rw [e2]
    simp only [R.ok_bind]
    rw [show AV.empty = ⟨system, Vec.empty⟩ from rfl, AVec.dtor_empty]
    exact ⟨_, rfl, I2, fun b => ⟨by rw [AVec.setVec_heaps, lk2]; exact Nat.le_refl _, fun _ => by rw [AVec.setVec_heaps, lk2]⟩⟩

/-- After the destruction of variable `i`, store something new in it. -/
theorem store_ok {T : Ty α} {w w2 : World α} {s : State α} {i a : Nat} (I2 : Inv T (w2.setVec i ⟨a, Vec.empty⟩) (upd s i ⟨a, []⟩))
    (lk : ∀ b, (w2.heaps b).leaked = (w.heaps b).leaked) {l : List α} {r : R (Heap α × Vec)}
    (hd : Done T (w2.heaps a) Vec.empty l r) :
    ∃ w', (do
      let (h, v) ← r
      .ok ((w2.setHeap a h).setVec i ⟨a, v⟩) : R (World α)) = .ok w' ∧ Inv T w' (upd s i ⟨a, l⟩) ∧
      ∀ b, (w'.heaps b).leaked = (w.heaps b).leaked := by
  obtain ⟨h1, t, e, o, f, lk1⟩ := hd
  rw [e]
  simp only [R.ok_bind]
  obtain ⟨w3, e3, I3, lk3⟩ := I2.replace (i := i) (a := a) (h1 := h1) f o lk1
  rw [AVec.setVec_at, AVec.dtor_empty] at e3
  cases e3
  rw [AVec.spec_upd_upd] at I3
  refine ⟨_, rfl, ?_, ?_⟩
  · have : (((w2.setVec i ⟨a, Vec.empty⟩).setHeap a h1).setVec i ⟨a, t⟩) = (w2.setHeap a h1).setVec i ⟨a, t⟩ := by
      unfold World.setHeap World.setVec
      dsimp only
      congr 1
      funext k
      by_cases hk : k = i <;> simp [hk]
    rw [← this]
    exact I3
  · intro b
    have := lk3 b
    rw [AVec.setVec_heaps] at this ⊢
    have h2 : ((w2.setHeap a h1).heaps b).leaked = (w2.heaps b).leaked := this
    rw [h2, lk]

theorem reset_ok {E : Elem α} {w : World α} {s : State α} (I : Inv E.toTy w s) {i : Nat} {a : Option Nat} {n : Nat}
    (hc : E.tc = true → n = 0) :
    StepOK E.toTy w True (Spec.step E.dflt E.eqv s (.reset i a n)) (step E w (.reset i a n)) := by
  simp only [Spec.step, step, reset]
  cases a with
  | none =>
    obtain ⟨w2, e, -⟩ := I.drop i system
    rw [e]; rfl
  | some a =>
    obtain ⟨w2, e, hvs, I2, lk⟩ := I.drop i a
    rw [e]
    simp only [R.ok_bind, Option.map_some]
    by_cases hn : n > 0
    · rw [if_pos hn]
      obtain ⟨w', e', I', lk'⟩ := store_ok I2 lk (defaultNew_ok (E := E) (I2.sub a).wf hc)
      rw [show (w2.heaps a) = ((w2.setVec i ⟨a, Vec.empty⟩).sub a).heap from rfl]
      rw [e']
      exact ⟨_, rfl, I', fun b => ⟨by rw [lk']; exact Nat.le_refl _, fun _ => by rw [lk']⟩⟩
    · rw [if_neg hn]
      have : n = 0 := by omega
      subst this
      exact ⟨_, rfl, I2, fun b => ⟨by rw [AVec.setVec_heaps, lk]; exact Nat.le_refl _, fun _ => by rw [AVec.setVec_heaps, lk]⟩⟩

/-- Evaluating an argument. -/
theorem evalArg_ok {T : Ty α} {w : World α} {s : State α} (I : Inv T w s) (x : Arg α) :
    match Spec.argVal s x with
    | none => evalArg w x = .error .assert
    | some v => ∃ y, evalArg w x = .ok y ∧
        ∀ i a, (∀ j k, x = .elem j k → i ≠ j) → ∀ w2, dtor T w (w.vecs i) = .ok w2 → Inv T (w2.setVec i ⟨a, Vec.empty⟩) (upd s i ⟨a, []⟩) →
          readLoc w2 y = .ok v := by
  cases x with
  | val x => exact ⟨_, rfl, fun _ _ _ _ _ _ => rfl⟩
  | elem j k =>
    simp only [Spec.argVal, evalArg]
    by_cases hk : k < (s j).l.length
    · rw [List.getElem?_eq_getElem hk, ccAssert_true (by simpa [(I.owns j).1] using hk)]
      refine ⟨_, rfl, ?_⟩
      intro i a hij w2 e I2
      have hne := hij j k rfl
      have hji : j ≠ i := Ne.symm hne
      have o := I2.owns j
      rw [AVec.setVec_ne _ _ hji] at o
      simp only [upd, hji, if_false, AVec.setVec_heaps] at o
      rw [AVec.dtor_vecs e] at o
      have := Vector.at_ok o hk
      unfold Vector.at_ at this
      rw [ccAssert_true (by simpa [(I.owns j).1] using hk)] at this
      exact this
    · rw [List.getElem?_eq_none (by omega), ccAssert_false (by simpa [(I.owns j).1] using hk)]
      rfl

theorem fillFrom_ok {T : Ty α} {w : World α} {a n : Nat} {x : Loc α} {v : α} (hw : WF (w.heaps a)) (hx : n ≠ 0 → readLoc w x = .ok v) :
    Done T (w.heaps a) Vec.empty (List.replicate n v) (fillFrom T w a n x) := by
  unfold fillFrom
  by_cases hn : n = 0
  · rw [if_pos hn, hn]
    exact allocZero_ok hw
  · rw [if_neg hn, hx hn]
    exact fillNew_ok hw n v

theorem resetWith_ok {E : Elem α} {w : World α} {s : State α} (I : Inv E.toTy w s) {i : Nat} {a : Option Nat} {n : Nat} {x : Arg α}
    (hc : Spec.Covered E.tc (.resetWith i a n x)) :
    StepOK E.toTy w True (Spec.step E.dflt E.eqv s (.resetWith i a n x)) (step E w (.resetWith i a n x)) := by
  have hx := evalArg_ok I x
  simp only [Spec.step, step, resetWith]
  cases hv : Spec.argVal s x with
  | none =>
    rw [hv] at hx
    simp only at hx
    rw [hx]; rfl
  | some v =>
    rw [hv] at hx
    obtain ⟨y, ey, hread⟩ := hx
    rw [ey]
    simp only [R.ok_bind, Option.bind_some]
    cases a with
    | none =>
      obtain ⟨w2, e, -⟩ := I.drop i system
      rw [e]; rfl
    | some a =>
      obtain ⟨w2, e, hvs, I2, lk⟩ := I.drop i a
      rw [e]
      simp only [R.ok_bind, Option.map_some]
      by_cases hn : n > 0
      · rw [if_pos hn]
        have hr : readLoc w2 y = .ok v := by
          refine hread i a ?_ w2 e I2
          intro j k hjk hij
          subst hjk
          have := hc hij
          omega
        obtain ⟨w', e', I', lk'⟩ := store_ok I2 lk (fillFrom_ok (T := E.toTy) (w := w2) (n := n) (x := y) (I2.sub a).wf (fun _ => hr))
        rw [e']
        exact ⟨_, rfl, I', fun b => ⟨by rw [lk']; exact Nat.le_refl _, fun _ => by rw [lk']⟩⟩
      · rw [if_neg hn]
        have : n = 0 := by omega
        subst this
        exact ⟨_, rfl, I2, fun b => ⟨by rw [AVec.setVec_heaps, lk]; exact Nat.le_refl _, fun _ => by rw [AVec.setVec_heaps, lk]⟩⟩

theorem resize_ok {E : Elem α} {w : World α} {s : State α} (I : Inv E.toTy w s) {i n : Nat} {x : Arg α}
    (hc : Spec.Covered E.tc (.resize i n x)) :
    StepOK E.toTy w True (Spec.step E.dflt E.eqv s (.resize i n x)) (step E w (.resize i n x)) := by
  have hx := evalArg_ok I x
  simp only [Spec.step, step, resize]
  cases hv : Spec.argVal s x with
  | none =>
    rw [hv] at hx
    simp only at hx
    rw [hx]; rfl
  | some v =>
    rw [hv] at hx
    obtain ⟨y, ey, hread⟩ := hx
    rw [ey]
    simp only [R.ok_bind, Option.map_some]
    rw [I.al i]
    obtain ⟨w2, e, hvs, I2, lk⟩ := I.drop i (s i).al
    rw [e]
    simp only [R.ok_bind]
    have hr : n ≠ 0 → readLoc w2 y = .ok v := by
      intro hn
      refine hread i _ ?_ w2 e I2
      intro j k hjk hij
      subst hjk
      exact hn (hc hij)
    obtain ⟨w', e', I', lk'⟩ := store_ok I2 lk (fillFrom_ok (T := E.toTy) (w := w2) (n := n) (x := y) (I2.sub _).wf hr)
    rw [e']
    exact ⟨_, rfl, I', fun b => ⟨by rw [lk']; exact Nat.le_refl _, fun _ => by rw [lk']⟩⟩

theorem get_ok {T : Ty α} {w : World α} {s : State α} (I : Inv T w s) (i k : Nat) :
    get w i k = match (s i).l[k]? with | some a => .ok a | none => .error .assert := by
  rw [show get w i k = at_ (w.heaps (w.vecs i).al) (w.vecs i).v k from rfl]
  by_cases hk : k < (s i).l.length
  · rw [List.getElem?_eq_getElem hk, Vector.at_ok (I.owns i) hk]
  · rw [List.getElem?_eq_none (by omega), Vector.at_bad (I.owns i) hk]

theorem put_eq_assign {T : Ty α} {h : Heap α} {v : Vec} {l : List α} (o : Owns T h v l) {k : Nat} (hk : k < l.length) (x : α) :
    put h v.data k (.live x) = assign h v.data k x := by
  obtain ⟨b, tail, hd, hb, hsplit, hblk, hf, hc⟩ := o.at hk
  unfold assign
  rw [hd]
  have hg : Mem.get h (some b) k = .ok (.live l[k]) := get_mid hblk rfl (by simp; omega)
  rw [hg]
  rfl

theorem set_ok {E : Elem α} {w : World α} {s : State α} (I : Inv E.toTy w s) {i k : Nat} {a : α} :
    StepOK E.toTy w True (Spec.step E.dflt E.eqv s (.set i k a)) (step E w (.set i k a)) := by
  have h := AVec.call_ok I (i := i) (c := .set k a) (by simp [AVec.Spec.demand]) (by intro _ _ he; cases he)
  have h' := h.mono (q := True) (fun _ => Or.inr (by simp))
  have hs : AVec.Spec.step E.dflt E.eqv s (.call i (.set k a)) = Spec.step E.dflt E.eqv s (.set i k a) := by
    simp only [AVec.Spec.step, AVec.Spec.call, Spec.step]
    split <;> rfl
  rw [hs] at h'
  have hm : AVec.step E.toTy w (.call i (.set k a)) = step E w (.set i k a) := by
    have o := I.owns i
    simp only [AVec.step, AVec.Call.on, AVec.onHeap, step, set, Vector.step, Vector.World.call, Vector.setAt,
      AVec.sub_vecs_eq w rfl, AVec.sub_heap]
    by_cases hk : k < (w.vecs i).v.size
    · have hk' : k < (s i).l.length := by rw [← o.1]; exact hk
      rw [ccAssert_true (by simpa using hk)]
      simp only [R.ok_bind]
      have he : (if E.tc then put (w.heaps (w.vecs i).al) (w.vecs i).v.data k (.live a)
          else assign (w.heaps (w.vecs i).al) (w.vecs i).v.data k a : R (Heap α)) =
          assign (w.heaps (w.vecs i).al) (w.vecs i).v.data k a := by
        cases E.tc with
        | false => rfl
        | true => exact put_eq_assign o hk' a
      rw [he]
      cases assign (w.heaps (w.vecs i).al) (w.vecs i).v.data k a with
      | error e => rfl
      | ok h1 =>
        simp only [R.ok_bind, put_vecs_self]
        congr 2
        show (w.setHeap _ _).setVec i (w.vecs i) = w.setHeap _ h1
        exact AVec.setVec_self (w.setHeap _ h1) i
    · rw [ccAssert_false (by simpa using hk)]
      rfl
  rw [← hm]
  exact h'

theorem step_ok {E : Elem α} {w : World α} {s : State α} (I : Inv E.toTy w s) {op : Op α} (hc : Spec.Covered E.tc op) :
    StepOK E.toTy w True (Spec.step E.dflt E.eqv s op) (step E w op) := by
  cases op with
  | assignNew i a c => exact assignNew_ok I hc
  | moveAssign i j => exact AVec.moveAssign_ok I
  | moveCtor i j => exact AVec.moveCtor_ok I
  | reset i a n => exact reset_ok I hc
  | resetWith i a n x => exact resetWith_ok I hc
  | resize i n x => exact resize_ok I hc
  | get i k =>
    simp only [step, Spec.step]
    rw [get_ok I]
    cases (s i).l[k]? with
    | none => rfl
    | some a => exact ⟨w, rfl, I, fun _ => ⟨Nat.le_refl _, fun _ => rfl⟩⟩
  | set i k a => exact set_ok I
  | eq i j =>
    simp only [step, Spec.step]
    rw [AVec.eq_ok I]
    exact ⟨w, rfl, I, fun _ => ⟨Nat.le_refl _, fun _ => rfl⟩⟩
  | size i =>
    simp only [step, Spec.step]
    rw [(I.owns i).1]
    exact ⟨w, rfl, I, fun _ => ⟨Nat.le_refl _, fun _ => rfl⟩⟩
  | empty i =>
    simp only [step, Spec.step]
    rw [(I.owns i).1]
    have : ((s i).l.length == 0) = (s i).l.isEmpty := by cases (s i).l <;> rfl
    rw [this]
    exact ⟨w, rfl, I, fun _ => ⟨Nat.le_refl _, fun _ => rfl⟩⟩
  | allocator i =>
    simp only [step, Spec.step]
    rw [I.al i]
    exact ⟨w, rfl, I, fun _ => ⟨Nat.le_refl _, fun _ => rfl⟩⟩

theorem run_ok {E : Elem α} (ops : List (Op α)) : ∀ {w : World α} {s : State α} (_ : Inv E.toTy w s)
    (_ : ∀ op ∈ ops, Spec.Covered E.tc op),
    match Spec.run E.dflt E.eqv s ops with
    | none => run E w ops = .error .assert
    | some (s', os) => ∃ w', run E w ops = .ok (w', os) ∧ Inv E.toTy w' s' ∧ ∀ a, (w'.heaps a).leaked = (w.heaps a).leaked := by
  induction ops with
  | nil => intro w s I _; exact ⟨w, rfl, I, fun _ => rfl⟩
  | cons op ops ih =>
    intro w s I hr
    have hst := step_ok I (hr op (by simp))
    simp only [Spec.run, run]
    cases hs : Spec.step E.dflt E.eqv s op with
    | none =>
      rw [hs] at hst
      simp only [AVec.StepOK] at hst
      rw [hst]; rfl
    | some p =>
      obtain ⟨s1, o⟩ := p
      rw [hs] at hst
      obtain ⟨w1, e1, I1, lk1⟩ := hst
      rw [e1]
      have hrun := ih I1 (fun op hop => hr op (by simp [hop]))
      simp only [Option.bind_eq_bind, Option.bind_some, R.ok_bind]
      cases hs2 : Spec.run E.dflt E.eqv s1 ops with
      | none =>
        rw [hs2] at hrun
        simp only at hrun
        rw [hrun]; rfl
      | some q =>
        obtain ⟨s2, os⟩ := q
        rw [hs2] at hrun
        obtain ⟨w2, e2, I2, lk2⟩ := hrun
        rw [e2]
        exact ⟨w2, rfl, I2, fun a => by rw [lk2, (lk1 a).2 trivial]⟩

/-- An element type with a destructor, used in the examples. -/
def strElem : Elem Nat := { strTy with tc := false }

/-- A plain number type: trivially copyable and trivially constructible, used in the examples. -/
def intElem : Elem Nat := { intTy with tc := true }

/-- Several allocators, moves, refills from other arrays; used in the examples. -/
def demoOps : List (Op Nat) :=
  [.assignNew 0 (some 1) (.range [1, 2, 3]), .assignNew 1 (some 2) (.filled 2 7), .resize 1 3 (.elem 0 1), .set 1 0 9,
   .assignNew 2 (some 2) (.copyOf 0), .eq 0 2, .resetWith 0 (some 3) 2 (.elem 1 0), .moveAssign 1 0, .allocator 1, .allocator 0,
   .empty 0, .reset 2 (some 1) 0, .moveCtor 0 1, .get 0 1, .size 2]

/-- **C72**, partial. For every history of covered calls, on any number of arrays with any allocators: a call out of contract ends in a contract
failure; otherwise all results are those of the lists, and at the end every array has its allocator, and has the length and the elements of its
list in memory of that allocator. Missing: creation of arrays of a trivially constructible type by size only
(`C72_sized_is_uninitialised`) and refilling an array with one of its own elements (`C72_own_element_is_dead`). -/
theorem C72_contents_partial (E : Elem α) (ops : List (Op α)) (hr : ∀ op ∈ ops, Spec.Covered E.tc op) :
    match Spec.run E.dflt E.eqv (fun _ => V.empty) ops with
    | none => run E World.init ops = .error .assert
    | some (s, os) => ∃ w, run E World.init ops = .ok (w, os) ∧
        ∀ i, (w.vecs i).al = (s i).al ∧ (w.vecs i).v.size = (s i).l.length ∧
          ∀ k (hk : k < (s i).l.length), at_ (w.heaps (s i).al) (w.vecs i).v k = .ok (s i).l[k] := by
  have h := run_ok ops (Inv.init E.toTy) hr
  cases hs : Spec.run E.dflt E.eqv (fun _ => V.empty) ops with
  | none => rw [hs] at h; exact h
  | some p =>
    rw [hs] at h
    obtain ⟨w, e, I, -⟩ := h
    refine ⟨w, e, fun i => ⟨I.al i, (I.owns i).1, fun k hk => ?_⟩⟩
    rw [← I.al i]
    exact at_ok (I.owns i) hk

theorem demo_covered : ∀ op ∈ demoOps, Spec.Covered strElem.tc op := by
  intro op hop
  simp only [demoOps, List.mem_cons, List.not_mem_nil, or_false] at hop
  rcases hop with rfl | rfl | rfl | rfl | rfl | rfl | rfl | rfl | rfl | rfl | rfl | rfl | rfl | rfl | rfl <;> simp [Spec.Covered, strElem]

example : ((Spec.run strElem.dflt strElem.eqv (fun _ => V.empty) demoOps).map fun p => ((p.1 0).al, (p.1 0).l, (p.1 1).al, (p.1 2).al)) =
      some (3, [9, 9], 0, 1) ∧
    ((Spec.run strElem.dflt strElem.eqv (fun _ => V.empty) demoOps).map fun p => p.2.drop 5) =
      some [.bool true, .none, .none, .nat 3, .nat 0, .bool true, .none, .none, .elem 9, .nat 0] := by
  constructor <;> decide +kernel

/-- **C72**, partial: ownership and lifetimes. After every history of covered calls each block that an allocator has handed out and not got
back is the memory of exactly one array, which reports this allocator; after the destruction of all arrays below `n`, if the arrays from `n`
on are empty, every allocator has got back every block and every element has been destroyed. -/
theorem C72_memory_partial (E : Elem α) (ops : List (Op α)) (hr : ∀ op ∈ ops, Spec.Covered E.tc op)
    {w : World α} {os : List (Obs α)} (h : run E World.init ops = .ok (w, os)) :
    (∀ a b, (w.heaps a).blocks b ≠ none → ∃ i, ((w.vecs i).al = a ∧ (w.vecs i).v.data = some b) ∧
      ∀ j, (w.vecs j).al = a → (w.vecs j).v.data = some b → j = i) ∧
    ∀ n, (∀ i, n ≤ i → (w.vecs i).v.data = none) → ∃ w', AVec.destroyUpto E.toTy w n = .ok w' ∧
      ∀ a, (w'.heaps a).leaked = 0 ∧ ∀ b, (w'.heaps a).blocks b = none := by
  have hrun := run_ok ops (Inv.init E.toTy) hr
  cases hsp : Spec.run E.dflt E.eqv (fun _ => V.empty) ops with
  | none => rw [hsp] at hrun; simp only at hrun; rw [hrun] at h; simp at h
  | some p =>
    obtain ⟨s, os'⟩ := p
    rw [hsp] at hrun
    obtain ⟨w1, e1, I, lk⟩ := hrun
    rw [e1] at h
    simp only [Except.ok.injEq, Prod.mk.injEq] at h
    obtain ⟨rfl, rfl⟩ := h
    constructor
    · intro a b hb
      obtain ⟨i, hi⟩ := (I.sub a).all b hb
      have hal : (w1.vecs i).al = a := by
        by_cases ha : (w1.vecs i).al = a
        · exact ha
        · rw [AVec.sub_vecs_ne w1 ha] at hi; simp [Vec.empty] at hi
      refine ⟨i, ⟨hal, by rw [AVec.sub_vecs_eq w1 hal] at hi; exact hi⟩, ?_⟩
      intro j hj hd
      by_cases hij : j = i
      · exact hij
      · exact absurd hi ((I.sub a).dist j i b hij (by rw [AVec.sub_vecs_eq w1 hj]; exact hd))
    · intro n hn
      obtain ⟨w', s', e', I', lk', hv, hv'⟩ := AVec.destroyUpto_ok n I
      refine ⟨w', e', fun a => ⟨by rw [lk', lk]; rfl, ?_⟩⟩
      intro b
      by_cases hb : (w'.heaps a).blocks b = none
      · exact hb
      · obtain ⟨i, hi⟩ := (I'.sub a).all b hb
        have hx : (w'.vecs i).v.data = none := by
          rcases Nat.lt_or_ge i n with h1 | h1
          · rw [hv i h1]; rfl
          · rw [hv' i h1]; exact hn i h1
        by_cases h0 : (w'.vecs i).al = a
        · rw [AVec.sub_vecs_eq w' h0, hx] at hi; cases hi
        · rw [AVec.sub_vecs_ne w' h0] at hi; simp [Vec.empty] at hi

example : ∃ w os, run strElem World.init demoOps = .ok (w, os) ∧ (w.heaps 3).blocks 0 ≠ none := by
  have h := run_ok demoOps (Inv.init strElem.toTy) demo_covered
  obtain ⟨w, e, -⟩ := h
  have : (match run strElem World.init demoOps with | .ok (w, _) => (w.heaps 3).blocks 0 != none | _ => false) = true := by decide +kernel
  rw [e] at this
  exact ⟨w, _, e, by simpa using this⟩

/-- **C72**, negation of the full property: `alloc_array<int>(n)` and `alloc_array<int>::defaulted(n)`, unlike `array<int>(n)` and
`alloc_vector<int>(n)`, leave the elements uninitialised, for every `n`: reading any of them is undefined. -/
theorem C72_sized_is_uninitialised (n k : Nat) (hk : k < n) :
    Spec.run intElem.dflt intElem.eqv (fun _ => V.empty) [.assignNew 0 (some 0) (.sized n), .get 0 k] ≠ none ∧
    run intElem World.init [.assignNew 0 (some 0) (.sized n), .get 0 k] = .error .ub := by
  constructor
  · simp [Spec.run, Spec.step, upd, Spec.ctorList, hk]
  · have hd : assignNew intElem World.init 0 (some 0) (.sized n) = .ok
        ((World.init.setHeap 0 (alloc Heap.init n).2).setVec 0 ⟨0, ⟨some 0, n, n⟩⟩) := by
      have hc : construct intElem World.init 0 (.sized n) = .ok ((alloc (Heap.init : Heap Nat) n).2, ⟨some 0, n, n⟩) := rfl
      simp only [assignNew, hc, R.ok_bind, AVec.setHeap_vecs]
      rw [show ((World.init : World Nat).vecs 0) = ⟨system, Vec.empty⟩ from rfl, AVec.dtor_empty]
      simp only [R.ok_bind]
      rw [show AV.empty = ⟨system, Vec.empty⟩ from rfl, AVec.dtor_empty]
    simp only [run, step]
    rw [hd]
    simp only [R.ok_bind, get, AVec.setVec_at]
    rw [ccAssert_true (by simpa using hk)]
    have hb : ((World.init.setHeap 0 (alloc (Heap.init : Heap Nat) n).2).setVec 0 ⟨0, ⟨some 0, n, n⟩⟩).heaps 0 =
        (alloc (Heap.init : Heap Nat) n).2 := rfl
    have hg : Mem.get (alloc (Heap.init : Heap Nat) n).2 (some 0) k = .ok .raw := by
      refine get_mid (s := List.replicate n .raw) (pre := List.replicate k .raw) (post := List.replicate (n - k - 1) .raw) rfl ?_ (by simp)
      have : n = k + (n - k - 1 + 1) := by omega
      conv => lhs; rw [this, ← List.replicate_append_replicate, List.replicate_succ]
    simp only [R.ok_bind, hb, Mem.read, hg]
    rfl

/-- **C72**, negation of the full property: `a.resize(n, a[k])` and `a.reset(alloc, n, a[k])` with `n > 0` read the element after it has
been destroyed and its memory returned. -/
theorem C72_own_element_is_dead :
    (Spec.run strElem.dflt strElem.eqv (fun _ => V.empty) [.assignNew 0 (some 1) (.range [5, 6]), .resize 0 3 (.elem 0 1), .get 0 2]).map
      (fun p => p.2) = some [.none, .none, .elem 6] ∧
    (run strElem World.init [.assignNew 0 (some 1) (.range [5, 6]), .resize 0 3 (.elem 0 1), .get 0 2]).map (fun p => p.2) = .error .ub ∧
    (run strElem World.init [.assignNew 0 (some 1) (.range [5, 6]), .resetWith 0 (some 1) 3 (.elem 0 1)]).map (fun p => p.2) =
      .error .ub := by
  refine ⟨?_, ?_, ?_⟩ <;> decide +kernel

end Verif.AArr
