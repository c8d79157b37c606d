import Verif.AVec.Spec
import Verif.Vector.Props

/-! Helper lemmas for alloc_vector: the part of the program in one heap is a program with plain vectors. -/
namespace Verif.AVec
open Verif.Mem Verif.Vector

variable {α : Type}

/-- The lists of the vectors that use allocator `a`. -/
def mask (s : Spec.State α) (a : Nat) : Vector.Spec.Lists α := fun i => if (s i).al = a then (s i).l else []

/-- The vectors hold the lists `s`, use the allocators `s`, and own every block of every heap. -/
structure Inv (T : Ty α) (w : World α) (s : Spec.State α) : Prop where
  al : ∀ i, (w.vecs i).al = (s i).al
  sub : ∀ a, Vector.Inv T (w.sub a) (mask s a)

theorem Inv.init (T : Ty α) : Inv T (World.init : World α) (fun _ => Spec.V.empty) where
  al := fun _ => rfl
  sub := by
    intro a
    have h := Vector.Inv.init (α := α) T
    have e1 : (World.init : World α).sub a = (Vector.World.init : Vector.World α) := by
      unfold World.sub Vector.World.init World.init AV.empty
      congr 1
      funext i
      dsimp only
      split <;> rfl
    have e2 : mask (fun _ => (Spec.V.empty : Spec.V α)) a = fun _ => [] := by
      funext i
      unfold mask Spec.V.empty
      split <;> rfl
    rw [e1, e2]
    exact h

theorem sub_vecs_eq (w : World α) {i a : Nat} (h : (w.vecs i).al = a) : (w.sub a).vecs i = (w.vecs i).v := by
  simp [World.sub, h]

theorem sub_vecs_ne (w : World α) {i a : Nat} (h : (w.vecs i).al ≠ a) : (w.sub a).vecs i = Vec.empty := by
  simp [World.sub, h]

@[simp] theorem sub_heap (w : World α) (a : Nat) : (w.sub a).heap = w.heaps a := rfl

theorem mask_eq {s : Spec.State α} {i a : Nat} (h : (s i).al = a) : mask s a i = (s i).l := by simp [mask, h]

theorem mask_ne {s : Spec.State α} {i a : Nat} (h : (s i).al ≠ a) : mask s a i = [] := by simp [mask, h]

theorem Inv.owns {T : Ty α} {w : World α} {s : Spec.State α} (I : Inv T w s) (i : Nat) :
    Owns T (w.heaps (w.vecs i).al) (w.vecs i).v (s i).l := by
  have h := (I.sub (w.vecs i).al).owns i
  rw [sub_vecs_eq w rfl, mask_eq (I.al i).symm] at h
  exact h

theorem mask_upd {s : Spec.State α} {i a : Nat} {x : Spec.V α} :
    mask (Spec.upd s i x) a = Vector.Spec.upd (mask s a) i (if x.al = a then x.l else []) := by
  funext k
  unfold mask Spec.upd Vector.Spec.upd
  by_cases hk : k = i
  · simp [hk]
  · simp [hk]

theorem sub_set {w : World α} {i a b : Nat} {h : Heap α} {v : Vec} :
    ((w.setHeap a h).setVec i ⟨a, v⟩).sub b =
      if b = a then (w.sub a).put h i v else (w.sub b).put (w.heaps b) i Vec.empty := by
  by_cases hb : b = a
  · subst hb
    rw [if_pos rfl]
    unfold World.sub World.setHeap World.setVec Vector.World.put
    simp only [if_true]
    congr 1
    funext k
    by_cases hk : k = i <;> simp [hk]
  · rw [if_neg hb]
    unfold World.sub World.setHeap World.setVec Vector.World.put
    simp only [if_neg hb]
    congr 1
    funext k
    by_cases hk : k = i
    · simp [hk, Ne.symm hb]
    · simp [hk]

theorem dropBlock_none (h : Heap α) : dropBlock h none = h := rfl

/-- The heap after the vector in variable `i` has been destroyed: only the heap of its allocator changes. -/
theorem drop_sub (w : World α) (i b : Nat) (h : Heap α) :
    dropBlock h ((w.sub b).vecs i).data = if b = (w.vecs i).al then dropBlock h (w.vecs i).v.data else h := by
  by_cases hb : (w.vecs i).al = b
  · rw [sub_vecs_eq w hb, if_pos hb.symm]
  · rw [sub_vecs_ne w hb, if_neg (Ne.symm hb)]; rfl

/-- Build a vector in fresh memory of allocator `a`, then destroy the old vector of variable `i`. -/
theorem Inv.replace {T : Ty α} {w : World α} {s : Spec.State α} (I : Inv T w s) {i a : Nat} {h1 : Heap α} {t : Vec} {l : List α}
    (f : Frame (w.heaps a) none h1 t.data) (o : Owns T h1 t l) (lk : h1.leaked = (w.heaps a).leaked) :
    ∃ w2, dtor T (w.setHeap a h1) (w.vecs i) = .ok w2 ∧ Inv T (w2.setVec i ⟨a, t⟩) (Spec.upd s i ⟨a, l⟩) ∧
      ∀ b, (w2.heaps b).leaked = (w.heaps b).leaked := by
  have oi : Owns T ((w.setHeap a h1).heaps (w.vecs i).al) (w.vecs i).v (s i).l := by
    unfold World.setHeap
    dsimp only
    by_cases hb : (w.vecs i).al = a
    · rw [if_pos hb]
      have := I.owns i
      rw [hb] at this
      exact this.frame f (by simp)
    · rw [if_neg hb]; exact I.owns i
  have wf : ∀ b, WF ((w.setHeap a h1).heaps b) := by
    intro b
    unfold World.setHeap
    dsimp only
    by_cases hb : b = a
    · rw [if_pos hb]; exact f.wf
    · rw [if_neg hb]; exact (I.sub b).wf
  unfold dtor
  rw [dtor_ok (wf _) oi]
  refine ⟨_, rfl, ⟨?_, ?_⟩, ?_⟩
  · intro k
    unfold World.setVec Spec.upd
    by_cases hk : k = i
    · simp [hk]
    · simp only [hk, if_false]; exact I.al k
  · intro b
    rw [mask_upd]
    -- the heaps
    have hh : ∀ b, (((w.setHeap a h1).setHeap (w.vecs i).al (dropBlock ((w.setHeap a h1).heaps (w.vecs i).al) (w.vecs i).v.data)).heaps b) =
        dropBlock (if b = a then h1 else w.heaps b) ((w.sub b).vecs i).data := by
      intro b
      rw [drop_sub]
      unfold World.setHeap
      dsimp only
      by_cases hb : b = (w.vecs i).al
      · rw [if_pos hb, if_pos hb, hb]
      · rw [if_neg hb, if_neg hb]
    have hsub : ∀ (w2 : World α), w2.vecs = w.vecs → (w2.setVec i ⟨a, t⟩).sub b = (w.sub b).put (w2.heaps b) i (if a = b then t else Vec.empty) := by
      intro w2 he
      unfold World.sub World.setVec Vector.World.put
      dsimp only
      congr 1
      funext k
      rw [he]
      by_cases hk : k = i <;> simp [hk]
    rw [hsub ((w.setHeap a h1).setHeap _ _) rfl, hh]
    by_cases hb : b = a
    · subst hb
      rw [if_pos rfl, if_pos rfl, if_pos rfl]
      have fr := Frame.replace f ((I.sub b).owns i).lt
      refine (I.sub b).put fr (o.frame (Frame.drop f.wf _) ?_)
      intro x hx hp
      have hlt := ((I.sub b).owns i).lt x hp
      rw [sub_heap] at hlt
      rcases f.ptr with h3 | h3 | ⟨y, hy, h3⟩
      · rw [h3] at hx; simp at hx
      · rw [h3] at hx; simp at hx
      · rw [h3] at hx; simp at hx; omega
    · rw [if_neg hb, if_neg (Ne.symm hb), if_neg (Ne.symm hb)]
      exact (I.sub b).put (Frame.drop (I.sub b).wf _) (owns_empty T _)
  · intro b
    unfold World.setHeap
    dsimp only
    by_cases hb : b = (w.vecs i).al
    · rw [if_pos hb, dropBlock_leaked, hb]
      by_cases hb2 : (w.vecs i).al = a
      · rw [if_pos hb2, lk, hb2]
      · rw [if_neg hb2]
    · rw [if_neg hb]
      by_cases hb2 : b = a
      · rw [if_pos hb2, lk, hb2]
      · rw [if_neg hb2]

theorem setHeap_self (w : World α) (a : Nat) : w.setHeap a (w.heaps a) = w := by
  unfold World.setHeap
  cases w with
  | mk hs vs =>
    dsimp only
    congr 1
    funext x
    by_cases hx : x = a <;> simp [hx]

theorem setVec_setVec (w : World α) (i : Nat) (x y : AV) : (w.setVec i x).setVec i y = w.setVec i y := by
  unfold World.setVec
  dsimp only
  congr 1
  funext j
  by_cases hj : j = i <;> simp [hj]

theorem setVec_self (w : World α) (i : Nat) : w.setVec i (w.vecs i) = w := by
  unfold World.setVec
  cases w with
  | mk hs vs =>
    dsimp only
    congr 1
    funext x
    by_cases hx : x = i <;> simp [hx]

@[simp] theorem setVec_at (w : World α) (i : Nat) (x : AV) : (w.setVec i x).vecs i = x := by simp [World.setVec]

theorem setVec_ne (w : World α) {i j : Nat} (x : AV) (h : j ≠ i) : (w.setVec i x).vecs j = w.vecs j := by simp [World.setVec, h]

@[simp] theorem setVec_heaps (w : World α) (i : Nat) (x : AV) : (w.setVec i x).heaps = w.heaps := rfl

@[simp] theorem setHeap_vecs (w : World α) (a : Nat) (h : Heap α) : (w.setHeap a h).vecs = w.vecs := rfl

/-- Destroying a default constructed or moved-from vector does nothing. -/
theorem dtor_empty (T : Ty α) (w : World α) (a : Nat) : dtor T w ⟨a, Vec.empty⟩ = .ok w := by
  unfold dtor
  have : Vector.dtor T (w.heaps a) Vec.empty = .ok (w.heaps a) := by
    unfold Vector.dtor Vec.empty
    rw [destroyReverse_zero _ _ _ _ _ (by simp)]
    rfl
  dsimp only
  rw [this]
  simp only [R.ok_bind, setHeap_self]

/-- What a step must do. -/
def StepOK (T : Ty α) (w : World α) (clean : Prop) (exp : Option (Spec.State α × Obs α)) (r : R (World α × Obs α)) : Prop :=
  match exp with
  | none => r = .error .assert
  | some (s', o) => ∃ w', r = .ok (w', o) ∧ Inv T w' s' ∧
      ∀ a, (w.heaps a).leaked ≤ (w'.heaps a).leaked ∧ (clean → (w'.heaps a).leaked = (w.heaps a).leaked)

theorem upd_self (s : Spec.State α) (i : Nat) : Spec.upd s i (s i) = s := by
  funext j
  by_cases hj : j = i <;> simp [Spec.upd, hj]

/-- The plain vector specification of a call, seen through the list of the vector. -/
theorem spec_call (dflt : α) (eqv : α → α → Bool) (s : Vector.Spec.Lists α) (i : Nat) (c : Call α) :
    Vector.Spec.step dflt eqv s (c.on i) =
      (Spec.call dflt eqv (s i) c).map fun r => (Vector.Spec.upd s i r.1, r.2) := by
  have hu := Vector.upd_self s i
  cases c <;> simp only [Call.on, Vector.Spec.step, Spec.call, Option.map_some, hu]
  case insertRange idx l => split <;> rfl
  case popBack => split <;> rfl
  case getAndPopBack => rw [Option.map_map]; rfl
  case removeFirstUnordered p =>
    cases (s i).findIdx? p with
    | none => simp [hu]
    | some k => rfl
  case removeRange idx cnt =>
    split
    · simp [hu]
    · split <;> rfl
  case removeAt idx => split <;> rfl
  case removeAtUnordered idx => split <;> rfl
  case get k =>
    rw [Option.map_map]
    congr 1
    funext a
    simp [hu]
  case set k a => split <;> rfl
  case front =>
    rw [Option.map_map]
    congr 1
    funext a
    simp [hu]
  case back =>
    rw [Option.map_map]
    congr 1
    funext a
    simp [hu]

/-- A plain vector call on variable `i` runs on the heap of its allocator. -/
theorem onHeap_ok {T : Ty α} {w : World α} {s : Spec.State α} (I : Inv T w s) {i : Nat} {op : Vector.Op α} {l : List α} {o : Obs α}
    (ht : ∀ k, k ≠ i → k ∉ op.targets)
    (hs : Vector.StepOK T (w.sub (w.vecs i).al) (Vector.Clean T op) (some (Vector.Spec.upd (mask s (s i).al) i l, o))
      (Vector.step T (w.sub (w.vecs i).al) op)) :
    StepOK T w (Vector.Clean T op) (some (Spec.upd s i ⟨(s i).al, l⟩, o)) (onHeap T w i op) := by
  obtain ⟨w', e, I', le, cl⟩ := hs
  unfold onHeap
  dsimp only
  rw [e]
  refine ⟨_, rfl, ⟨?_, ?_⟩, ?_⟩
  · intro k
    by_cases hk : k = i
    · subst hk; simp [Spec.upd, I.al k]
    · rw [setVec_ne _ _ hk]; simp only [Spec.upd, hk, if_false]; exact I.al k
  · intro b
    have hput : (w.sub (w.vecs i).al).put w'.heap i (w'.vecs i) = w' := by
      unfold Vector.World.put
      cases w' with
      | mk h' vs' =>
        dsimp only
        congr 1
        funext k
        by_cases hk : k = i
        · simp [hk]
        · rw [if_neg hk]
          exact (step_vecs e (ht k hk)).symm
    rw [sub_set, mask_upd]
    by_cases hb : b = (w.vecs i).al
    · subst hb
      rw [if_pos rfl, hput, if_pos (I.al i).symm]
      have : (w.vecs i).al = (s i).al := I.al i
      rw [this]
      exact I'
    · have hb2 : (s i).al ≠ b := by rw [← I.al i]; exact Ne.symm hb
      rw [if_neg hb, if_neg hb2]
      have hp : (w.sub b).put (w.heaps b) i Vec.empty = w.sub b := by
        have := sub_vecs_ne w (i := i) (a := b) (Ne.symm hb)
        unfold Vector.World.put
        rw [show w.heaps b = (w.sub b).heap from rfl]
        generalize w.sub b = q at this ⊢
        cases q with
        | mk h' vs' =>
          dsimp only at this ⊢
          congr 1
          funext k
          by_cases hk : k = i
          · simp [hk, this]
          · simp [hk]
      rw [hp]
      have : Vector.Spec.upd (mask s b) i [] = mask s b := by
        rw [← mask_ne hb2]
        exact Vector.upd_self _ _
      rw [this]
      exact I.sub b
  · intro b
    show _ ≤ ((w.setHeap _ _).heaps b).leaked ∧ (_ → ((w.setHeap _ _).heaps b).leaked = _)
    unfold World.setHeap
    dsimp only
    by_cases hb : b = (w.vecs i).al
    · rw [if_pos hb, hb]; exact ⟨le, cl⟩
    · rw [if_neg hb]; exact ⟨Nat.le_refl _, fun _ => rfl⟩

theorem onHeap_bad {T : Ty α} {w : World α} {i : Nat} {op : Vector.Op α} {clean clean' : Prop}
    (hs : Vector.StepOK T (w.sub (w.vecs i).al) clean' none (Vector.step T (w.sub (w.vecs i).al) op)) :
    StepOK T w clean none (onHeap T w i op) := by
  have h : Vector.step T (w.sub (w.vecs i).al) op = .error .assert := hs
  unfold onHeap
  dsimp only
  rw [h]
  rfl

theorem on_targets (c : Call α) {i k : Nat} (hk : k ≠ i) : k ∉ (c.on i).targets := by
  cases c <;> simp [Call.on, Vector.Op.targets, hk]

theorem demand_call (s : Spec.State α) (i : Nat) (c : Call α) :
    Vector.Spec.demand (mask s (s i).al) (c.on i) = Spec.demand s (.call i c) := by
  cases c <;> simp [Call.on, Vector.Spec.demand, Spec.demand, mask_eq]

/-- The calls that can leak. -/
def Clean (T : Ty α) (op : Op α) : Prop := T.triv = true ∨ ∀ i, op ≠ .call i .shrinkToFit

theorem clean_call {T : Ty α} {i : Nat} {c : Call α} (h : Clean T (.call i c)) : Vector.Clean T (c.on i) := by
  rcases h with h | h
  · exact Or.inl h
  · right
    intro k
    cases c <;> simp only [Call.on, ne_eq, reduceCtorEq, not_false_eq_true]
    exact absurd rfl (h i)

theorem StepOK.mono {T : Ty α} {w : World α} {p q : Prop} {exp} {r : R (World α × Obs α)} (h : StepOK T w p exp r) (hpq : q → p) :
    StepOK T w q exp r := by
  cases exp with
  | none => exact h
  | some x =>
    obtain ⟨w', e, I, hl⟩ := h
    exact ⟨w', e, I, fun a => ⟨(hl a).1, fun hq => (hl a).2 (hpq hq)⟩⟩

theorem call_ok {T : Ty α} {w : World α} {s : Spec.State α} (I : Inv T w s) {i : Nat} {c : Call α}
    (hd : Spec.demand s (.call i c) ≤ 2 ^ 48)
    (hr : ∀ idx cnt, c = .removeRange idx cnt → idx + cnt < 2 ^ 64 ∧ (s i).l.length < 2 ^ 64) :
    StepOK T w (Clean T (.call i c)) (Spec.step T.dflt T.eqv s (.call i c)) (step T w (.call i c)) := by
  have h := Vector.step_ok (I.sub (s i).al) (op := c.on i) (by rw [demand_call]; exact hd) (by
    intro k idx cnt he
    cases c <;> simp only [Call.on, reduceCtorEq, Vector.Op.removeRange.injEq] at he
    obtain ⟨rfl, rfl, rfl⟩ := he
    have := hr _ _ rfl
    rw [mask_eq rfl]
    exact this)
  rw [spec_call, mask_eq rfl] at h
  simp only [Spec.step, step]
  cases hc : Spec.call T.dflt T.eqv (s i).l c with
  | none =>
    rw [hc] at h
    rw [← I.al i] at h
    exact onHeap_bad h
  | some r =>
    rw [hc] at h
    simp only [Option.map_some] at h ⊢
    exact (onHeap_ok I (fun k hk => on_targets c hk) (by rw [I.al i]; exact h)).mono clean_call

theorem pushElem_ok {T : Ty α} {w : World α} {s : Spec.State α} (I : Inv T w s) {i j k : Nat} {clean : Prop} :
    StepOK T w clean (Spec.step T.dflt T.eqv s (.pushElem i j k)) (step T w (.pushElem i j k)) := by
  simp only [Spec.step, step, pushElem]
  by_cases hj : (w.vecs j).al = (w.vecs i).al
  · rw [if_pos hj]
    have hj' : (s j).al = (s i).al := by rw [← I.al, ← I.al]; exact hj
    have h := Vector.step_ok (I.sub (s i).al) (op := .pushBack i (.elem j k)) (by simp [Vector.Spec.demand]) (by intro _ _ _ he; cases he)
    simp only [Vector.Spec.step, mask_eq hj', mask_eq (rfl : (s i).al = (s i).al)] at h
    cases hk : (s j).l[k]? with
    | none =>
      rw [hk, ← I.al i] at h
      exact onHeap_bad h
    | some a =>
      rw [hk] at h
      exact (onHeap_ok I (fun k hk => by simp [Vector.Op.targets, hk]) (by rw [I.al i]; exact h)).mono (fun _ => Or.inr (by simp))
  · rw [if_neg hj]
    by_cases hk : k < (s j).l.length
    · rw [List.getElem?_eq_getElem hk, Vector.at_ok (I.owns j) hk]
      have h := Vector.step_ok (I.sub (s i).al) (op := .pushBack i (.val (s j).l[k])) (by simp [Vector.Spec.demand]) (by intro _ _ _ he; cases he)
      simp only [Vector.Spec.step, mask_eq (rfl : (s i).al = (s i).al)] at h
      exact (onHeap_ok I (fun k hk => by simp [Vector.Op.targets, hk]) (by rw [I.al i]; exact h)).mono (fun _ => Or.inr (by simp))
    · rw [List.getElem?_eq_none (by omega), Vector.at_bad (I.owns j) hk]
      rfl

end Verif.AVec
