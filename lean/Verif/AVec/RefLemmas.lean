import Verif.AVec.RefSpec
import Verif.AVec.Props
import Verif.Vector.RefProps

/-! Lemmas for property C142. -/
namespace Verif.AVec
open Verif.Mem Verif.Vector

variable {α : Type}

/-- `capacity()` of all the vectors. -/
def World.caps (w : World α) : Vector.Spec.Caps := fun i => (w.vecs i).v.cap

/-- What a call does to the memory of the vectors. -/
structure Fx (s : Spec.State α) (w : World α) (op : Op α) (w' : World α) : Prop where
  next : ∀ a, (w.heaps a).next ≤ (w'.heaps a).next
  caps : ∀ j, (w'.vecs j).v.cap = Spec.capStep s w.caps op j
  ptr : ∀ j, NewMem (w.heaps (w'.vecs j).al) (w'.vecs j).v ∨ ∃ j', (w'.vecs j).al = (w.vecs j').al ∧
    (w'.vecs j).v.data = (w.vecs j').v.data ∧ Spec.track s w.caps op (some j') = some j
  keep : ∀ i j, Spec.track s w.caps op (some i) = some j →
    (w'.vecs j).al = (w.vecs i).al ∧ (w'.vecs j).v.data = (w.vecs i).v.data

/-- Where the memory `p` of allocator `a` is. -/
def At (w : World α) (a : Nat) (p : Ptr) : Option Nat → Prop
  | some j => (w.vecs j).al = a ∧ (w.vecs j).v.data = p
  | none => ∀ b, p = some b → b < (w.heaps a).next ∧ (w.heaps a).blocks b = none

theorem at_step {T : Ty α} {w w' : World α} {s s' : Spec.State α} {op : Op α} (I : Inv T w s) (I' : Inv T w' s')
    (f : Fx s w op w') {a : Nat} {p : Ptr} {t : Option Nat} (h : At w a p t) :
    At w' a p (Spec.track s w.caps op t) := by
  have gone : ∀ b, b < (w.heaps a).next → (∀ j, (w'.vecs j).al = a → (w'.vecs j).v.data ≠ some b) →
      b < (w'.heaps a).next ∧ (w'.heaps a).blocks b = none := by
    intro b hb hj
    refine ⟨Nat.lt_of_lt_of_le hb (f.next a), ?_⟩
    cases hbb : (w'.heaps a).blocks b with
    | none => rfl
    | some x =>
      obtain ⟨j, hj'⟩ := (I'.sub a).all b (by rw [sub_heap, hbb]; simp)
      by_cases hal : (w'.vecs j).al = a
      · rw [sub_vecs_eq w' hal] at hj'
        exact absurd hj' (hj j hal)
      · rw [sub_vecs_ne w' hal] at hj'; cases hj'
  have old : ∀ b j, b < (w.heaps a).next → (w'.vecs j).al = a → (w'.vecs j).v.data = some b →
      ∃ j', (w.vecs j').al = a ∧ (w.vecs j').v.data = some b ∧ Spec.track s w.caps op (some j') = some j := by
    intro b j hb hal hj
    rcases f.ptr j with (h1 | ⟨x, hx, h1⟩) | ⟨j', h0, h1, h2⟩
    · rw [h1] at hj; cases hj
    · rw [h1] at hj; cases hj; rw [hal] at hx; omega
    · exact ⟨j', by rw [← h0]; exact hal, by rw [← h1]; exact hj, h2⟩
  cases t with
  | none =>
    intro b hb
    obtain ⟨h1, h2⟩ := h b hb
    refine gone b h1 ?_
    intro j hal hj
    obtain ⟨j', hal', h3, -⟩ := old b j h1 hal hj
    have ho := I.owns j'
    rw [hal'] at ho
    rcases ho.2 with ⟨h4, -⟩ | ⟨b', tail, h4, -, h5, -⟩
    · rw [h4] at h3; cases h3
    · rw [h4] at h3; cases h3
      rw [h2] at h5; cases h5
  | some i =>
    cases ht : Spec.track s w.caps op (some i) with
    | some j =>
      obtain ⟨k1, k2⟩ := f.keep i j ht
      exact ⟨by rw [k1]; exact h.1, by rw [k2]; exact h.2⟩
    | none =>
      intro b hb
      have hi : (w.vecs i).v.data = some b := by rw [← hb]; exact h.2
      have ho := I.owns i
      rw [h.1] at ho
      have hlt := ho.lt b hi
      refine gone b hlt ?_
      intro j hal hj
      obtain ⟨j', hal', h3, h4⟩ := old b j hlt hal hj
      by_cases hji : j' = i
      · subst hji; rw [ht] at h4; cases h4
      · exact (I.sub a).dist i j' b (Ne.symm hji) (by rw [sub_vecs_eq w h.1]; exact hi)
          (by rw [sub_vecs_eq w hal']; exact h3)

/-- Only variable `i` changes, within its heap. -/
theorem fx_one {s : Spec.State α} {w w' : World α} {op : Op α} {i c : Nat} {a : Nat}
    (hn : ∀ b, (w.heaps b).next ≤ (w'.heaps b).next) (hv : ∀ j, j ≠ i → w'.vecs j = w.vecs j)
    (ha : (w.vecs i).al = a) (ha' : (w'.vecs i).al = a)
    (hc : Spec.capStep s w.caps op = Vector.Spec.updc w.caps i c)
    (ht : ∀ j, Spec.track s w.caps op (some j) = if Spec.capStep s w.caps op j = w.caps j then some j else none)
    (m : Moves (w.heaps a) (w.vecs i).v (w'.vecs i).v c) : Fx s w op w' := by
  have hci : Spec.capStep s w.caps op i = c := by rw [hc]; simp [Vector.Spec.updc]
  have hcj : ∀ j, j ≠ i → Spec.capStep s w.caps op j = w.caps j := by
    intro j hj; rw [hc]; simp [Vector.Spec.updc, hj]
  have htj : ∀ j, j ≠ i → Spec.track s w.caps op (some j) = some j := by
    intro j hj; rw [ht, if_pos (hcj j hj)]
  obtain ⟨m1, m2⟩ := m
  refine ⟨hn, ?_, ?_, ?_⟩
  · intro j
    by_cases hj : j = i
    · subst hj; rw [hci]; exact m1
    · rw [hcj j hj, hv j hj]; rfl
  · intro j
    by_cases hj : j = i
    · subst hj
      rcases m2 with ⟨e, d⟩ | ⟨-, d⟩
      · right
        refine ⟨j, by rw [ha, ha'], d, ?_⟩
        rw [ht, if_pos (by rw [hci]; exact e)]
      · left; rw [ha']; exact d
    · right
      exact ⟨j, by rw [hv j hj], by rw [hv j hj], htj j hj⟩
  · intro k j hk
    by_cases hki : k = i
    · subst hki
      rw [ht] at hk
      split at hk
      · rename_i he
        cases hk
        rw [hci] at he
        refine ⟨by rw [ha, ha'], ?_⟩
        rcases m2 with ⟨-, d⟩ | ⟨ne, -⟩
        · exact d
        · exact absurd he ne
      · cases hk
    · rw [htj k hki] at hk
      cases hk
      rw [hv k hki]; exact ⟨rfl, rfl⟩

/-- Variable `i` gets a vector in new memory, of any allocator. -/
theorem fx_new {s : Spec.State α} {w w' : World α} {op : Op α} {i c : Nat}
    (hn : ∀ b, (w.heaps b).next ≤ (w'.heaps b).next) (hv : ∀ j, j ≠ i → w'.vecs j = w.vecs j)
    (hc : Spec.capStep s w.caps op = Vector.Spec.updc w.caps i c)
    (ht : ∀ j, Spec.track s w.caps op (some j) = if i = j then none else some j)
    (hcap : (w'.vecs i).v.cap = c) (m : NewMem (w.heaps (w'.vecs i).al) (w'.vecs i).v) : Fx s w op w' := by
  refine ⟨hn, ?_, ?_, ?_⟩
  · intro j
    rw [hc]
    unfold Vector.Spec.updc
    by_cases hj : j = i
    · subst hj; rw [if_pos rfl]; exact hcap
    · rw [if_neg hj, hv j hj]; rfl
  · intro j
    by_cases hj : j = i
    · subst hj; exact .inl m
    · right
      exact ⟨j, by rw [hv j hj], by rw [hv j hj], by rw [ht, if_neg (Ne.symm hj)]⟩
  · intro k j hk
    rw [ht] at hk
    split at hk
    · cases hk
    · rename_i hne
      cases hk
      rw [hv k (Ne.symm hne)]; exact ⟨rfl, rfl⟩

theorem fx_same {s : Spec.State α} {w : World α} {op : Op α} (hc : Spec.capStep s w.caps op = w.caps)
    (ht : ∀ j, Spec.track s w.caps op (some j) = some j) : Fx s w op w := by
  refine ⟨fun _ => Nat.le_refl _, ?_, ?_, ?_⟩
  · intro j; rw [hc]; rfl
  · intro j; exact .inr ⟨j, rfl, rfl, ht j⟩
  · intro i j h
    rw [ht] at h
    cases h
    exact ⟨rfl, rfl⟩

/-! ### calls of `vector_base` -/

theorem onHeap_next {T : Ty α} {w w' : World α} {i : Nat} {vop : Vector.Op α} {o : Obs α} {x : Vector.World α}
    (hx : Vector.step T (w.sub (w.vecs i).al) vop = .ok (x, o)) (hn : (w.heaps (w.vecs i).al).next ≤ x.heap.next)
    (e : onHeap T w i vop = .ok (w', o)) :
    (∀ b, (w.heaps b).next ≤ (w'.heaps b).next) ∧ (∀ j, j ≠ i → w'.vecs j = w.vecs j) ∧
    (w'.vecs i).al = (w.vecs i).al ∧ (w'.vecs i).v = x.vecs i := by
  unfold onHeap at e
  dsimp only at e
  rw [hx] at e
  simp only [R.ok_bind, Except.ok.injEq, Prod.mk.injEq, and_true] at e
  subst e
  refine ⟨?_, fun j hj => setVec_ne _ _ hj, by simp, by simp⟩
  intro b
  simp only [setVec_heaps, World.setHeap]
  by_cases hb : b = (w.vecs i).al
  · rw [if_pos hb, hb]; exact hn
  · rw [if_neg hb]; exact Nat.le_refl _

/-- The plain vector call `vop` concerns vector `i` only. -/
theorem fx_onHeap {T : Ty α} {w w' : World α} {s : Spec.State α} (I : Inv T w s) {i c : Nat} {vop : Vector.Op α} {op : Op α}
    {o : Obs α} (hd : Vector.Spec.demand (mask s (s i).al) vop ≤ 2 ^ 48)
    (hr : ∀ k idx cnt, vop = .removeRange k idx cnt → idx + cnt < 2 ^ 64 ∧ (mask s (s i).al k).length < 2 ^ 64)
    (e : onHeap T w i vop = .ok (w', o))
    (hvc : Vector.Spec.capStep (mask s (s i).al) (fun k => ((w.sub (s i).al).vecs k).cap) vop i = c)
    (hvt : ∀ j, Vector.Spec.track (mask s (s i).al) (fun k => ((w.sub (s i).al).vecs k).cap) vop (some j) =
      if Vector.Spec.capStep (mask s (s i).al) (fun k => ((w.sub (s i).al).vecs k).cap) vop j = ((w.sub (s i).al).vecs j).cap
      then some j else none)
    (hc : Spec.capStep s w.caps op = Vector.Spec.updc w.caps i c)
    (ht : ∀ j, Spec.track s w.caps op (some j) = if Spec.capStep s w.caps op j = w.caps j then some j else none) :
    Fx s w op w' := by
  have e0 := e
  unfold onHeap at e
  dsimp only at e
  rw [R.bind_eq_ok] at e
  obtain ⟨⟨x, o'⟩, hx, e⟩ := e
  simp only [Except.ok.injEq, Prod.mk.injEq] at e
  obtain ⟨-, rfl⟩ := e
  have hx' := hx
  rw [I.al i] at hx'
  have f := Vector.step_fx (I.sub (s i).al) hd hr hx'
  have hn := f.next
  rw [sub_heap, ← I.al i] at hn
  obtain ⟨g1, g2, g3, g4⟩ := onHeap_next hx hn e0
  have hsub : (w.sub (s i).al).vecs i = (w.vecs i).v := sub_vecs_eq w (I.al i)
  have fc := f.caps i
  rw [hvc] at fc
  refine fx_one g1 g2 (I.al i) (by rw [g3]; exact I.al i) hc ht ?_
  rw [g4]
  refine ⟨fc, ?_⟩
  by_cases hcc : c = (w.vecs i).v.cap
  · left
    refine ⟨hcc, ?_⟩
    have := f.keep i i (by rw [hvt, if_pos (by rw [hvc, hsub]; exact hcc)])
    rw [this, hsub]
  · right
    refine ⟨hcc, ?_⟩
    rcases f.ptr i with h1 | ⟨j', -, h2⟩
    · exact h1
    · exfalso
      rw [hvt] at h2
      split at h2
      · rename_i he
        cases h2
        rw [hvc, hsub] at he
        exact hcc he
      · cases h2

theorem fx_call {T : Ty α} {w w' : World α} {s : Spec.State α} (I : Inv T w s) {i : Nat} {c : Call α} {o : Obs α}
    (hd : Spec.demand s (.call i c) ≤ 2 ^ 48)
    (hr : ∀ idx cnt, c = .removeRange idx cnt → idx + cnt < 2 ^ 64 ∧ (s i).l.length < 2 ^ 64)
    (e : step T w (.call i c) = .ok (w', o)) : Fx s w (.call i c) w' := by
  have hsub : (w.sub (s i).al).vecs i = (w.vecs i).v := sub_vecs_eq w (I.al i)
  refine fx_onHeap I (vop := c.on i) (by rw [demand_call]; exact hd) ?_ e ?_ ?_ rfl (fun j => rfl)
  · intro k idx cnt he
    cases c <;> simp only [Call.on, reduceCtorEq, Vector.Op.removeRange.injEq] at he
    obtain ⟨rfl, rfl, rfl⟩ := he
    have := hr _ _ rfl
    rw [mask_eq rfl]
    exact this
  · cases c <;> simp [Call.on, Vector.Spec.capStep, Spec.callCap, Vector.Spec.updc, hsub, mask_eq, World.caps]
  · intro j
    cases c <;> rfl

theorem fx_pushElem {T : Ty α} {w w' : World α} {s : Spec.State α} (I : Inv T w s) {i j k : Nat} {o : Obs α}
    (e : step T w (.pushElem i j k) = .ok (w', o)) : Fx s w (.pushElem i j k) w' := by
  have hsub : (w.sub (s i).al).vecs i = (w.vecs i).v := sub_vecs_eq w (I.al i)
  simp only [step, pushElem] at e
  split at e
  · refine fx_onHeap I (vop := .pushBack i (.elem j k)) (by simp [Vector.Spec.demand]) (by intro _ _ _ h; cases h) e ?_
      (fun _ => rfl) rfl (fun _ => rfl)
    simp [Vector.Spec.capStep, Vector.Spec.updc, hsub, mask_eq, World.caps]
  · rw [R.bind_eq_ok] at e
    obtain ⟨a, -, e⟩ := e
    refine fx_onHeap I (vop := .pushBack i (.val a)) (by simp [Vector.Spec.demand]) (by intro _ _ _ h; cases h) e ?_
      (fun _ => rfl) rfl (fun _ => rfl)
    simp [Vector.Spec.capStep, Vector.Spec.updc, hsub, mask_eq, World.caps]

/-! ### whole vectors -/

theorem dtor_eq {T : Ty α} {w : World α} {x : AV} {l : List α} (hw : WF (w.heaps x.al)) (o : Owns T (w.heaps x.al) x.v l) :
    dtor T w x = .ok (w.setHeap x.al (dropBlock (w.heaps x.al) x.v.data)) := by
  unfold dtor
  rw [dtor_ok hw o]; rfl

theorem setHeap_drop_next (w : World α) (x : AV) (b : Nat) :
    ((w.setHeap x.al (dropBlock (w.heaps x.al) x.v.data)).heaps b).next = (w.heaps b).next := by
  unfold World.setHeap
  dsimp only
  by_cases hb : b = x.al
  · rw [if_pos hb, dropBlock_next, hb]
  · rw [if_neg hb]

theorem Inv.wf {T : Ty α} {w : World α} {s : Spec.State α} (I : Inv T w s) (a : Nat) : WF (w.heaps a) := (I.sub a).wf

/-- Variable `i` is destroyed and gets the vector of `j`, which becomes empty. -/
theorem fx_move {s : Spec.State α} {w w' : World α} {op : Op α} {i j : Nat} (hij : i ≠ j)
    (hn : ∀ b, (w.heaps b).next ≤ (w'.heaps b).next) (hv : ∀ k, k ≠ i → k ≠ j → w'.vecs k = w.vecs k)
    (hi : w'.vecs i = w.vecs j) (hj : w'.vecs j = AV.empty)
    (hc : ∀ k, Spec.capStep s w.caps op k = if k = j then 0 else if k = i then w.caps j else w.caps k)
    (ht : ∀ k, Spec.track s w.caps op (some k) = if i = k then none else if j = k then some i else some k) :
    Fx s w op w' := by
  refine ⟨hn, ?_, ?_, ?_⟩
  · intro k
    rw [hc]
    by_cases h1 : k = j
    · subst h1; rw [if_pos rfl, hj]; rfl
    · rw [if_neg h1]
      by_cases h2 : k = i
      · subst h2; rw [if_pos rfl, hi]; rfl
      · rw [if_neg h2, hv k h2 h1]; rfl
  · intro k
    by_cases h1 : k = j
    · subst h1; left; left; rw [hj]; rfl
    · by_cases h2 : k = i
      · subst h2; right
        exact ⟨j, by rw [hi], by rw [hi], by rw [ht, if_neg hij, if_pos rfl]⟩
      · right
        exact ⟨k, by rw [hv k h2 h1], by rw [hv k h2 h1], by rw [ht, if_neg (Ne.symm h2), if_neg (Ne.symm h1)]⟩
  · intro k m hk
    rw [ht] at hk
    split at hk
    · cases hk
    · rename_i h2
      split at hk
      · rename_i h1
        cases hk; subst h1
        rw [hi]; exact ⟨rfl, rfl⟩
      · rename_i h1
        cases hk
        rw [hv k (Ne.symm h2) (Ne.symm h1)]; exact ⟨rfl, rfl⟩

theorem fx_moveAssign {T : Ty α} {w w' : World α} {s : Spec.State α} (I : Inv T w s) {i j : Nat} {o : Obs α}
    (e : step T w (.moveAssign i j) = .ok (w', o)) : Fx s w (.moveAssign i j) w' := by
  simp only [step, moveAssign] at e
  rw [dtor_eq (I.wf _) (I.owns i)] at e
  simp only [R.ok_bind, Except.ok.injEq, Prod.mk.injEq] at e
  obtain ⟨rfl, -⟩ := e
  have hn : ∀ b, (w.heaps b).next ≤
      ((w.setHeap (w.vecs i).al (dropBlock (w.heaps (w.vecs i).al) (w.vecs i).v.data)).heaps b).next :=
    fun b => Nat.le_of_eq (setHeap_drop_next w (w.vecs i) b).symm
  by_cases hij : i = j
  · subst hij
    rw [setVec_setVec]
    refine fx_new (i := i) (c := 0) hn (fun k hk => by rw [setVec_ne _ _ hk]; rfl) ?_ ?_ (by simp [AV.empty, Vec.empty]) (.inl (by simp [AV.empty, Vec.empty]))
    · funext k
      simp only [Spec.capStep, Vector.Spec.updc]
      split <;> rfl
    · intro k
      simp only [Spec.track]
      split
      · rfl
      · rfl
  · refine fx_move hij hn ?_ ?_ ?_ ?_ (fun k => rfl)
    · intro k h1 h2
      rw [setVec_ne _ _ h2, setVec_ne _ _ h1]; rfl
    · rw [setVec_ne _ _ hij, setVec_at]; rfl
    · rw [setVec_at]
    · intro k
      simp only [Spec.capStep, Vector.Spec.updc]

theorem fx_moveCtor {T : Ty α} {w w' : World α} {s : Spec.State α} (I : Inv T w s) {i j : Nat} {o : Obs α}
    (e : step T w (.moveCtor i j) = .ok (w', o)) : Fx s w (.moveCtor i j) w' := by
  simp only [step, moveCtor] at e
  by_cases hij : i = j
  · subst hij
    rw [setVec_at, show AV.empty = ⟨system, Vec.empty⟩ from rfl, dtor_empty] at e
    simp only [R.ok_bind, setVec_setVec] at e
    rw [dtor_empty, setVec_self] at e
    simp only [R.ok_bind, Except.ok.injEq, Prod.mk.injEq] at e
    obtain ⟨rfl, -⟩ := e
    refine fx_same ?_ ?_
    · funext k
      simp only [Spec.capStep, Vector.Spec.updc]
      split
      · rename_i h; rw [h]
      · rfl
    · intro k
      simp only [Spec.track]
      rw [if_pos trivial]
  · rw [setVec_ne _ _ hij] at e
    rw [dtor_eq (w := w.setVec j AV.empty) (I.wf _) (I.owns i)] at e
    simp only [R.ok_bind] at e
    rw [show dtor T _ AV.empty = _ from dtor_empty T _ system] at e
    simp only [R.ok_bind, Except.ok.injEq, Prod.mk.injEq] at e
    obtain ⟨rfl, -⟩ := e
    refine fx_move hij (fun b => Nat.le_of_eq (setHeap_drop_next (w.setVec j AV.empty) (w.vecs i) b).symm) ?_ ?_ ?_ ?_ ?_
    · intro k h1 h2
      rw [setVec_ne _ _ h1, setHeap_vecs, setVec_ne _ _ h2]
    · rw [setVec_at]
    · rw [setVec_ne _ _ (Ne.symm hij), setHeap_vecs, setVec_at]
    · intro k
      simp only [Spec.capStep, Vector.Spec.updc]
      by_cases h1 : k = j
      · subst h1; rw [if_neg (Ne.symm hij), if_pos rfl, if_pos rfl]
      · rw [if_neg h1, if_neg h1]
    · intro k
      simp only [Spec.track]
      rw [if_neg hij]

theorem ctor_cap {T : Ty α} {w : World α} {s : Spec.State α} (I : Inv T w s) {a : Nat} {c : Ctor α} {h1 : Heap α} {t : Vec}
    (e : construct T w a c = .ok (h1, t)) : t.cap = Spec.ctorCap s c := by
  have e0 : ∀ n, Vector.Spec.roomFor Vec.empty.cap n = n := by
    intro n; unfold Vector.Spec.roomFor Vec.empty; dsimp only; split <;> omega
  have er : ∀ {h h1 : Heap α} {t : Vec} {src : Src α} {n : Nat}, mkRange T h src n = .ok (h1, t) → t.cap = n := by
    intro h h1 t src n e
    simp only [mkRange, R.bind_eq_ok, Except.ok.injEq, Prod.mk.injEq] at e
    obtain ⟨⟨h2, v2⟩, e1, _, -, -, e⟩ := e
    have := (reserve_moves e1).2.1
    rw [e0] at this
    rw [← e]; exact this
  cases c with
  | dflt =>
    simp only [construct, Except.ok.injEq, Prod.mk.injEq] at e
    rw [← e.2]; rfl
  | sized n =>
    simp only [construct, mkSized, alloc, R.bind_eq_ok, Except.ok.injEq, Prod.mk.injEq] at e
    obtain ⟨_, -, -, e⟩ := e
    rw [← e]; rfl
  | filled n x =>
    have := (resize_moves (v := Vec.empty) e).1
    rw [e0] at this; exact this
  | range l => exact er e
  | each l =>
    have := (pushEach_moves l (I.wf a) (owns_empty T _) e).1
    exact this
  | copyOf j =>
    simp only [construct] at e
    split at e
    · have := er (n := (w.vecs j).v.size) e
      rw [this]; exact (I.owns j).1
    · rw [R.bind_eq_ok] at e
      obtain ⟨l, -, e⟩ := e
      rw [er e]; exact (I.owns j).1

theorem newMem_frame {h h1 : Heap α} {t : Vec} (f : Frame h none h1 t.data) : NewMem h t := by
  rcases f.ptr with h3 | h3 | h3
  · exact .inl h3
  · exact .inl h3
  · exact .inr h3

/-- A vector `t` has been made in heap `a`, then the old vector of `i` is destroyed. -/
theorem replace_next {T : Ty α} {w w2 : World α} {s : Spec.State α} (I : Inv T w s) {i a : Nat} {h1 : Heap α} {t : Vec}
    (f : Frame (w.heaps a) none h1 t.data) (e : dtor T (w.setHeap a h1) (w.vecs i) = .ok w2) :
    w2.vecs = w.vecs ∧ ∀ b, (w.heaps b).next ≤ (w2.heaps b).next := by
  have oi : Owns T ((w.setHeap a h1).heaps (w.vecs i).al) (w.vecs i).v (s i).l := by
    unfold World.setHeap
    dsimp only
    by_cases hb : (w.vecs i).al = a
    · rw [if_pos hb]
      have := I.owns i
      rw [hb] at this
      exact this.frame f (by simp)
    · rw [if_neg hb]; exact I.owns i
  have wf : WF ((w.setHeap a h1).heaps (w.vecs i).al) := by
    unfold World.setHeap
    dsimp only
    split
    · exact f.wf
    · exact I.wf _
  rw [dtor_eq wf oi] at e
  cases e
  refine ⟨rfl, fun b => ?_⟩
  rw [setHeap_drop_next]
  unfold World.setHeap
  dsimp only
  by_cases hb : b = a
  · rw [if_pos hb, hb]; exact f.next
  · rw [if_neg hb]; exact Nat.le_refl _

theorem fx_assignNew {T : Ty α} {w w' : World α} {s : Spec.State α} (I : Inv T w s) {i : Nat} {a : Option Nat} {c : Ctor α}
    {o : Obs α} (hn : Spec.demand s (.assignNew i a c) ≤ 2 ^ 48)
    (e : step T w (.assignNew i a c) = .ok (w', o)) : Fx s w (.assignNew i a c) w' := by
  simp only [step, assignNew] at e
  cases a with
  | none => cases e
  | some a =>
    obtain ⟨h1, t, e1, ot, f, lk⟩ := construct_ok I (i := i) (c := c) hn
    have hcap := ctor_cap I e1
    dsimp only at e
    rw [e1] at e
    simp only [R.ok_bind, setHeap_vecs] at e
    obtain ⟨w2, e2, I2, -⟩ := I.replace (i := i) f ot lk
    obtain ⟨g1, g2⟩ := replace_next I f e2
    rw [e2] at e
    simp only [R.ok_bind] at e
    rw [show dtor T _ AV.empty = _ from dtor_empty T _ system] at e
    simp only [R.ok_bind, Except.ok.injEq, Prod.mk.injEq] at e
    obtain ⟨rfl, -⟩ := e
    refine fx_new (i := i) g2 (fun k hk => by rw [setVec_ne _ _ hk, g1]) rfl (fun k => rfl) ?_ ?_
    · rw [setVec_at]; exact hcap
    · rw [setVec_at]; exact newMem_frame f

theorem fx_resetReserve {T : Ty α} {w w' : World α} {s : Spec.State α} (I : Inv T w s) {i : Nat} {a : Option Nat} {n : Nat}
    {o : Obs α} (hn : n ≤ 2 ^ 48) (e : step T w (.resetReserve i a n) = .ok (w', o)) : Fx s w (.resetReserve i a n) w' := by
  simp only [step, resetReserve, R.bind_eq_ok] at e
  obtain ⟨w3, ⟨w2, e1, e2⟩, e3⟩ := e
  simp only [Except.ok.injEq, Prod.mk.injEq] at e3
  obtain ⟨rfl, -⟩ := e3
  have hd : (w2.vecs i).v = Vec.empty ∧ (∀ k, k ≠ i → w2.vecs k = w.vecs k) ∧ (∀ b, (w2.heaps b).next = (w.heaps b).next) ∧
      ∀ b, WF (w2.heaps b) := by
    unfold destroyContents at e1
    dsimp only at e1
    split at e1
    · rw [dtor_eq (I.wf _) (I.owns i)] at e1
      simp only [R.ok_bind, Except.ok.injEq] at e1
      subst e1
      refine ⟨by simp, fun k hk => by rw [setVec_ne _ _ hk]; rfl, fun b => setHeap_drop_next w (w.vecs i) b, fun b => ?_⟩
      simp only [setVec_heaps, World.setHeap]
      split
      · exact (Frame.drop (I.wf _) _).wf
      · exact I.wf b
    · rename_i h0
      simp only [Except.ok.injEq] at e1
      subst e1
      have hnone : (w.vecs i).v.data = none := by simpa using h0
      refine ⟨?_, fun _ _ => rfl, fun _ => rfl, I.wf⟩
      obtain ⟨hsz, ⟨hd, hc, hl'⟩ | ⟨b, tail, hd, hb, hblk, hf, hc'⟩⟩ := I.owns i
      · cases hv : (w.vecs i).v with
        | mk d sz c =>
          rw [hv] at hd hc hsz
          rw [hl'] at hsz
          simp only [List.length_nil] at hd hc hsz
          subst hd; subst hc; subst hsz
          rfl
      · rw [hd] at hnone; cases hnone
  obtain ⟨k1, k2, k3, k4⟩ := hd
  cases a with
  | none => cases e2
  | some a =>
    simp only [R.bind_eq_ok] at e2
    obtain ⟨⟨h, v⟩, e4, e5⟩ := e2
    simp only [Except.ok.injEq] at e5
    subst e5
    rw [k1] at e4
    obtain ⟨h1, t, e6, -, f, -⟩ := (reserve_ok (k4 a) (owns_empty T (w2.heaps a)) hn).1
    rw [e4] at e6
    simp only [Except.ok.injEq, Prod.mk.injEq] at e6
    obtain ⟨rfl, rfl⟩ := e6
    have hcap := (reserve_moves e4).2.1
    have e0 : Vector.Spec.roomFor Vec.empty.cap n = n := by
      unfold Vector.Spec.roomFor Vec.empty; dsimp only; split <;> omega
    rw [e0] at hcap
    refine fx_new (i := i) ?_ (fun k hk => by rw [setVec_ne _ _ hk]; exact k2 k hk) rfl (fun k => rfl) ?_ ?_
    · intro b
      simp only [setVec_heaps, World.setHeap]
      split
      · rename_i hb; rw [hb, ← k3 a]; exact f.next
      · exact Nat.le_of_eq (k3 b).symm
    · rw [setVec_at]; exact hcap
    · rw [setVec_at]
      have := newMem_frame f
      unfold NewMem at this ⊢
      rw [k3 a] at this
      exact this

theorem step_fx {T : Ty α} {w w' : World α} {s : Spec.State α} {o : Obs α} (I : Inv T w s) {op : Op α}
    (hd : Spec.demand s op ≤ 2 ^ 48)
    (hr : ∀ i idx cnt, op = .call i (.removeRange idx cnt) → idx + cnt < 2 ^ 64 ∧ (s i).l.length < 2 ^ 64)
    (e : step T w op = .ok (w', o)) : Fx s w op w' := by
  cases op with
  | call i c => exact fx_call I hd (fun idx cnt h => hr i idx cnt (by rw [h])) e
  | pushElem i j k => exact fx_pushElem I e
  | eq i j =>
    simp only [step, R.bind_eq_ok, Except.ok.injEq, Prod.mk.injEq] at e
    obtain ⟨_, -, rfl, -⟩ := e
    exact fx_same rfl (fun k => if_pos rfl)
  | allocator i =>
    simp only [step, Except.ok.injEq, Prod.mk.injEq] at e
    obtain ⟨rfl, -⟩ := e
    exact fx_same rfl (fun k => if_pos rfl)
  | moveAssign i j => exact fx_moveAssign I e
  | moveCtor i j => exact fx_moveCtor I e
  | assignNew i a c => exact fx_assignNew I hd e
  | resetReserve i a n => exact fx_resetReserve I hd e

/-! ### histories -/

theorem track_run {T : Ty α} (ops : List (Op α)) : ∀ {w w2 : World α} {s : Spec.State α} {os : List (Obs α)} {a : Nat} {p : Ptr}
    {t : Option Nat}, Inv T w s → Spec.InRange T.dflt T.eqv s ops → run T w ops = .ok (w2, os) → At w a p t →
    ∃ s2, Spec.run T.dflt T.eqv s ops = some (s2, os) ∧ Inv T w2 s2 ∧
      (∀ j, (w2.vecs j).v.cap = Spec.capRun T.dflt T.eqv s w.caps ops j) ∧
      At w2 a p (Spec.trackRun T.dflt T.eqv s w.caps t ops) := by
  induction ops with
  | nil =>
    intro w w2 s os a p t I _ e ha
    simp only [run, Except.ok.injEq, Prod.mk.injEq] at e
    obtain ⟨rfl, rfl⟩ := e
    exact ⟨s, rfl, I, fun _ => rfl, ha⟩
  | cons op ops ih =>
    intro w w2 s os a p t I hr e ha
    simp only [run, R.bind_eq_ok, Except.ok.injEq, Prod.mk.injEq] at e
    obtain ⟨⟨w1, o⟩, e1, ⟨w2', os'⟩, e2, rfl, rfl⟩ := e
    obtain ⟨h1, h2, h3⟩ := hr
    have hst := step_ok I h1 h2
    have hf := step_fx I h1 h2 e1
    cases hs : Spec.step T.dflt T.eqv s op with
    | none =>
      rw [hs] at hst
      simp only [StepOK] at hst
      rw [hst] at e1
      cases e1
    | some q =>
      obtain ⟨s1, o'⟩ := q
      rw [hs] at hst
      obtain ⟨w1', e1', I1, -⟩ := hst
      rw [e1'] at e1
      simp only [Except.ok.injEq, Prod.mk.injEq] at e1
      obtain ⟨rfl, rfl⟩ := e1
      obtain ⟨s2, g1, g2, g3, g4⟩ := ih I1 (h3 s1 o' hs) e2 (at_step I I1 hf ha)
      have hcaps : w1'.caps = Spec.capStep s w.caps op := funext hf.caps
      rw [hcaps] at g3 g4
      refine ⟨s2, ?_, g2, ?_, ?_⟩
      · simp only [Spec.run, hs, g1, Option.bind_eq_bind, Option.bind_some]
      · intro j
        simp only [Spec.capRun, hs]
        exact g3 j
      · simp only [Spec.trackRun, hs]
        exact g4

theorem read_gone {w : World α} {a : Nat} {p : Ptr} (h : At w a p none) (k : Nat) : read (w.heaps a) p k = .error .ub := by
  cases p with
  | none => rfl
  | some b =>
    obtain ⟨-, h1⟩ := h b rfl
    unfold Mem.read Mem.get slots
    simp only [h1]
    rfl

end Verif.AVec
