import Verif.Vector.RefSpec
import Verif.Vector.Growth
import Verif.Vector.GrowthProps

/-! Lemmas for property C133. -/
namespace Verif.Vector
open Verif.Mem

variable {α : Type}

/-- The vector has no memory, or memory that was not in use before. -/
def NewMem (h : Heap α) (v' : Vec) : Prop := v'.data = none ∨ ∃ x, h.next ≤ x ∧ v'.data = some x

/-- The capacity becomes `c`; the memory is exchanged exactly if that is a change. -/
def Moves (h : Heap α) (v v' : Vec) (c : Nat) : Prop :=
  v'.cap = c ∧ ((c = v.cap ∧ v'.data = v.data) ∨ (c ≠ v.cap ∧ NewMem h v'))

theorem Keeps.moves {h : Heap α} {v v' : Vec} (k : Keeps v v') : Moves h v v' v.cap := ⟨k.2, .inl ⟨rfl, k.1⟩⟩

theorem realloc_ptr {h h' : Heap α} {p d : Ptr} {n : Nat} (e : realloc h p n = .ok (d, h')) : d = none ∨ d = some h.next := by
  unfold realloc at e
  split at e
  · simp only [R.bind_eq_ok, Except.ok.injEq, Prod.mk.injEq] at e
    obtain ⟨_, -, e, -⟩ := e
    exact .inl e.symm
  · simp only [alloc] at e
    cases p with
    | none =>
      simp only [Except.ok.injEq, Prod.mk.injEq] at e
      exact .inr e.1.symm
    | some b =>
      simp only [R.bind_eq_ok, Except.ok.injEq, Prod.mk.injEq] at e
      obtain ⟨_, -, _, -, _, -, e, -⟩ := e
      exact .inr e.symm

theorem newMem_of {h : Heap α} {v : Vec} (e : v.data = none ∨ v.data = some h.next) : NewMem h v := by
  rcases e with e | e
  · exact .inl e
  · exact .inr ⟨_, Nat.le_refl _, e⟩

theorem emplaceBack_moves {T : Ty α} {h h' : Heap α} {v v' : Vec} {arg : Arg α} (e : emplaceBack T h v arg = .ok (h', v')) :
    Moves h v v' (Spec.pushed v.size v.cap) := by
  unfold emplaceBack at e
  split at e
  · rename_i hs
    have hN : (if v.cap = 0 then 1 else v.cap * 2) = Spec.pushed v.size v.cap := by
      unfold Spec.pushed; rw [if_pos hs]; split <;> omega
    have hne : Spec.pushed v.size v.cap ≠ v.cap := by
      unfold Spec.pushed; rw [if_pos hs]; omega
    rw [hN] at e
    dsimp only at e
    split at e
    · simp only [R.bind_eq_ok, Except.ok.injEq, Prod.mk.injEq] at e
      obtain ⟨_, -, ⟨d, _⟩, e1, _, -, -, e⟩ := e
      rw [← e]
      exact ⟨rfl, .inr ⟨hne, newMem_of (realloc_ptr e1)⟩⟩
    · simp only [R.bind_eq_ok, Except.ok.injEq, Prod.mk.injEq] at e
      obtain ⟨_, -, _, -, _, -, _, -, _, -, -, e⟩ := e
      rw [← e]
      exact ⟨rfl, .inr ⟨hne, newMem_of (.inr rfl)⟩⟩
  · rename_i hs
    simp only [R.bind_eq_ok, Except.ok.injEq, Prod.mk.injEq] at e
    obtain ⟨_, -, _, -, -, e⟩ := e
    rw [← e]
    unfold Spec.pushed
    rw [if_neg hs]
    exact ⟨rfl, .inl ⟨rfl, rfl⟩⟩

theorem reserve_moves {T : Ty α} {h h' : Heap α} {v v' : Vec} {n : Nat} (e : reserve T h v n = .ok (h', v')) :
    v'.size = v.size ∧ Moves h v v' (Spec.roomFor v.cap n) := by
  unfold reserve at e
  rw [R.bind_eq_ok] at e
  obtain ⟨_, -, e⟩ := e
  split at e
  · rename_i hs
    simp only [Except.ok.injEq, Prod.mk.injEq] at e
    rw [← e.2]
    unfold Spec.roomFor
    rw [if_pos hs]
    exact ⟨rfl, rfl, .inl ⟨rfl, rfl⟩⟩
  · rename_i hs
    have hN : (if v.cap * 2 < n then n else v.cap * 2) = Spec.roomFor v.cap n := by
      unfold Spec.roomFor; rw [if_neg hs]; split <;> omega
    have hne : Spec.roomFor v.cap n ≠ v.cap := by
      unfold Spec.roomFor; rw [if_neg hs]; omega
    rw [hN] at e
    dsimp only at e
    split at e
    · simp only [R.bind_eq_ok, Except.ok.injEq, Prod.mk.injEq] at e
      obtain ⟨⟨d, _⟩, e1, -, e⟩ := e
      rw [← e]
      exact ⟨rfl, rfl, .inr ⟨hne, newMem_of (realloc_ptr e1)⟩⟩
    · simp only [R.bind_eq_ok, Except.ok.injEq, Prod.mk.injEq] at e
      obtain ⟨_, -, _, -, _, -, -, e⟩ := e
      rw [← e]
      exact ⟨rfl, rfl, .inr ⟨hne, newMem_of (.inr rfl)⟩⟩

theorem roomFor_le {cap n : Nat} (h : n ≤ cap) : Spec.roomFor cap n = cap := if_pos h

theorem Moves.resize {h : Heap α} {v v' : Vec} {c k : Nat} (m : Moves h v v' c) : Moves h v { v' with size := k } c := m

theorem pushBackRangeN_moves {T : Ty α} {h h' : Heap α} {v v' : Vec} {src : Src α} {num : Nat} (hle : v.size ≤ v.cap)
    (e : pushBackRangeN T h v src num = .ok (h', v')) : Moves h v v' (Spec.roomFor v.cap (v.size + num)) := by
  unfold pushBackRangeN at e
  split at e
  · rename_i h0
    simp only [Except.ok.injEq, Prod.mk.injEq] at e
    rw [← e.2, roomFor_le (by omega)]
    exact ⟨rfl, .inl ⟨rfl, rfl⟩⟩
  · simp only [R.bind_eq_ok, Except.ok.injEq, Prod.mk.injEq] at e
    obtain ⟨⟨h1, v1⟩, e1, _, -, -, e⟩ := e
    rw [← e]
    exact (reserve_moves e1).2.resize

theorem pushed_ge (len cap : Nat) : cap ≤ Spec.pushed len cap := by
  unfold Spec.pushed; split <;> omega

theorem pushedN_ge (n : Nat) : ∀ len cap, cap ≤ Spec.pushedN len cap n := by
  induction n with
  | zero => intro len cap; exact Nat.le_refl _
  | succ n ih => intro len cap; exact Nat.le_trans (pushed_ge len cap) (ih _ _)

theorem pushedN_room (n : Nat) : ∀ len cap, len + n ≤ cap → Spec.pushedN len cap n = cap := by
  induction n with
  | zero => intro len cap _; rfl
  | succ n ih =>
    intro len cap h
    have : Spec.pushed len cap = cap := if_neg (by omega)
    unfold Spec.pushedN
    rw [this]
    exact ih _ _ (by omega)

theorem Moves.trans {h h1 : Heap α} {v v1 v2 : Vec} {c1 c2 : Nat} (m1 : Moves h v v1 c1) (m2 : Moves h1 v1 v2 c2)
    (hn : h.next ≤ h1.next) (h1c : v.cap ≤ c1) (h2c : c1 ≤ c2) : Moves h v v2 c2 := by
  obtain ⟨e1, m1⟩ := m1
  obtain ⟨e2, m2⟩ := m2
  refine ⟨e2, ?_⟩
  rcases m2 with ⟨a, b⟩ | ⟨a, b⟩
  · rcases m1 with ⟨a', b'⟩ | ⟨a', b'⟩
    · exact .inl ⟨by omega, b.trans b'⟩
    · refine .inr ⟨by omega, ?_⟩
      unfold NewMem at *
      rw [b]; exact b'
  · refine .inr ⟨by omega, ?_⟩
    rcases b with b | ⟨x, hx, b⟩
    · exact .inl b
    · exact .inr ⟨x, Nat.le_trans hn hx, b⟩

theorem pushEach_moves {T : Ty α} (xs : List α) : ∀ {h h' : Heap α} {v v' : Vec} {l : List α}, WF h → Owns T h v l →
    pushEach T h v xs = .ok (h', v') → Moves h v v' (Spec.pushedN v.size v.cap xs.length) := by
  induction xs with
  | nil =>
    intro h h' v v' l _ _ e
    simp only [pushEach, Except.ok.injEq, Prod.mk.injEq] at e
    rw [← e.2]
    exact ⟨rfl, .inl ⟨rfl, rfl⟩⟩
  | cons a xs ih =>
    intro h h' v v' l hw o e
    unfold pushEach at e
    obtain ⟨h1, v1, e1, o1, f1, -⟩ := emplaceBack_ok hw o (a := a) (arg := .val a) rfl
    rw [e1] at e
    simp only [R.ok_bind] at e
    have m1 := emplaceBack_moves e1
    have m2 := ih f1.wf o1 e
    have hs : v1.size = v.size + 1 := (emplaceBack_grow e1).1
    rw [hs, m1.1] at m2
    exact m1.trans m2 f1.next (pushed_ge _ _) (pushedN_ge _ _ _)

theorem pushBackRange_moves {T : Ty α} {c s : Bool} {h h' : Heap α} {v v' : Vec} {l xs : List α} (hw : WF h) (o : Owns T h v l)
    (hn : l.length + xs.length ≤ 2 ^ 48) (e : pushBackRange T c s h v xs = .ok (h', v')) :
    Moves h v v' (if c || s then Spec.roomFor v.cap (v.size + xs.length) else Spec.pushedN v.size v.cap xs.length) := by
  have hle := o.size_le
  unfold pushBackRange at e
  cases c with
  | true =>
    simp only [if_true, Bool.true_or] at e ⊢
    split at e
    · rename_i h0
      simp only [Except.ok.injEq, Prod.mk.injEq] at e
      rw [← e.2, roomFor_le (by omega)]
      exact ⟨rfl, .inl ⟨rfl, rfl⟩⟩
    · exact pushBackRangeN_moves hle e
  | false =>
    cases s with
    | true =>
      simp only [if_true, Bool.false_or, Bool.false_eq_true, if_false] at e ⊢
      obtain ⟨h1, v1, e1, o1, f1, -⟩ := (reserve_ok hw o (n := v.size + xs.length) (by rw [o.1]; exact hn)).1
      rw [e1] at e
      simp only [R.ok_bind] at e
      obtain ⟨s1, m1⟩ := reserve_moves e1
      have m2 := pushEach_moves xs f1.wf o1 e
      have hr : v.size + xs.length ≤ Spec.roomFor v.cap (v.size + xs.length) := by
        unfold Spec.roomFor; split <;> omega
      have hr2 : v.cap ≤ Spec.roomFor v.cap (v.size + xs.length) := by
        unfold Spec.roomFor; split <;> omega
      rw [s1, m1.1, pushedN_room _ _ _ hr] at m2
      exact m1.trans m2 f1.next hr2 (Nat.le_refl _)
    | false =>
      simp only [Bool.or_false, Bool.false_eq_true, if_false, R.ok_bind] at e ⊢
      exact pushEach_moves xs hw o e

theorem insertRangeAt_moves {T : Ty α} {h h' : Heap α} {v v' : Vec} {k : Nat} {l : List α} (hle : v.size ≤ v.cap)
    (e : insertRangeAt T h v k l = .ok (h', v')) : Moves h v v' (Spec.roomFor v.cap (v.size + l.length)) := by
  unfold insertRangeAt at e
  rw [R.bind_eq_ok] at e
  obtain ⟨_, -, e⟩ := e
  split at e
  · rename_i h0
    simp only [Except.ok.injEq, Prod.mk.injEq] at e
    rw [← e.2, roomFor_le (by omega)]
    exact ⟨rfl, .inl ⟨rfl, rfl⟩⟩
  · simp only [R.bind_eq_ok, Except.ok.injEq, Prod.mk.injEq] at e
    obtain ⟨⟨h1, v1⟩, e1, _, -, _, -, -, e⟩ := e
    rw [← e]
    exact (reserve_moves e1).2.resize

theorem resize_moves {T : Ty α} {h h' : Heap α} {v v' : Vec} {n : Nat} {a : α}
    (e : resize T h v n a = .ok (h', v')) : Moves h v v' (Spec.roomFor v.cap n) := by
  unfold resize at e
  split at e
  · simp only [R.bind_eq_ok, Except.ok.injEq, Prod.mk.injEq] at e
    obtain ⟨⟨h1, v1⟩, e1, _, -, _, -, -, e⟩ := e
    rw [← e]
    exact (reserve_moves e1).2.resize
  · rename_i h0
    simp only [R.ok_bind, R.bind_eq_ok, Except.ok.injEq, Prod.mk.injEq] at e
    obtain ⟨_, -, _, -, -, e⟩ := e
    rw [← e, roomFor_le (by omega)]
    exact ⟨rfl, .inl ⟨rfl, rfl⟩⟩

theorem shrinkToFit_moves {T : Ty α} {h h' : Heap α} {v v' : Vec} (e : shrinkToFit T h v = .ok (h', v')) :
    Moves h v v' v.size := by
  unfold shrinkToFit at e
  split at e
  · rename_i hne
    split at e
    · simp only [R.bind_eq_ok, Except.ok.injEq, Prod.mk.injEq] at e
      obtain ⟨⟨d, _⟩, e1, -, e⟩ := e
      rw [← e]
      exact ⟨rfl, .inr ⟨hne, newMem_of (realloc_ptr e1)⟩⟩
    · simp only [R.bind_eq_ok, Except.ok.injEq, Prod.mk.injEq, alloc] at e
      obtain ⟨_, -, _, -, -, e⟩ := e
      rw [← e]
      exact ⟨rfl, .inr ⟨hne, newMem_of (.inr rfl)⟩⟩
  · rename_i hne
    simp only [Except.ok.injEq, Prod.mk.injEq] at e
    rw [← e.2]
    exact ⟨(by omega), .inl ⟨by omega, rfl⟩⟩

theorem NewMem.mono {h h1 : Heap α} {v : Vec} (hn : h.next ≤ h1.next) (m : NewMem h1 v) : NewMem h v := by
  rcases m with b | ⟨x, hx, b⟩
  · exact .inl b
  · exact .inr ⟨x, Nat.le_trans hn hx, b⟩

theorem ctor_cap {T : Ty α} {w : World α} {s : Spec.Lists α} (I : Inv T w s) {c : Ctor α} {h1 : Heap α} {t : Vec}
    (e : construct T w c = .ok (h1, t)) : t.cap = Spec.ctorCap s c := by
  have e0 : ∀ n, Spec.roomFor Vec.empty.cap n = n := by
    intro n; unfold Spec.roomFor Vec.empty; dsimp only; split <;> omega
  cases c with
  | sized n =>
    simp only [construct, mkSized, alloc, R.bind_eq_ok, Except.ok.injEq, Prod.mk.injEq] at e
    obtain ⟨_, -, -, e⟩ := e
    rw [← e]; rfl
  | filled n a =>
    have := (resize_moves (v := Vec.empty) e).1
    rw [e0] at this; exact this
  | reserved n =>
    have := (reserve_moves (v := Vec.empty) e).2.1
    rw [e0] at this; exact this
  | range l =>
    simp only [construct, mkRange, R.bind_eq_ok, Except.ok.injEq, Prod.mk.injEq] at e
    obtain ⟨⟨h2, v2⟩, e1, _, -, -, e⟩ := e
    have := (reserve_moves e1).2.1
    rw [e0] at this
    rw [← e]; exact this
  | copyOf j =>
    simp only [construct, mkCopy, mkRange, R.bind_eq_ok, Except.ok.injEq, Prod.mk.injEq] at e
    obtain ⟨⟨h2, v2⟩, e1, _, -, -, e⟩ := e
    have := (reserve_moves e1).2.1
    rw [e0] at this
    rw [← e]
    show v2.cap = _
    rw [this]
    exact (I.owns j).1

/-! ### one call -/

/-- What a call does to the memory of the vectors. -/
structure Fx (s : Spec.Lists α) (w : World α) (op : Op α) (w' : World α) : Prop where
  next : w.heap.next ≤ w'.heap.next
  caps : ∀ j, (w'.vecs j).cap = Spec.capStep s (fun i => (w.vecs i).cap) op j
  ptr : ∀ j, NewMem w.heap (w'.vecs j) ∨ ∃ j', (w'.vecs j).data = (w.vecs j').data ∧
    Spec.track s (fun i => (w.vecs i).cap) op (some j') = some j
  keep : ∀ i j, Spec.track s (fun i => (w.vecs i).cap) op (some i) = some j → (w'.vecs j).data = (w.vecs i).data

theorem fx_put {T : Ty α} {s : Spec.Lists α} {w : World α} {op : Op α} {i : Nat} {h' : Heap α} {v' : Vec} {c : Nat}
    (hc : Spec.capStep s (fun i => (w.vecs i).cap) op = Spec.updc (fun i => (w.vecs i).cap) i c)
    (ht : ∀ j, Spec.track s (fun i => (w.vecs i).cap) op (some j) =
      if Spec.capStep s (fun i => (w.vecs i).cap) op j = (w.vecs j).cap then some j else none)
    (f : Frame w.heap (w.vecs i).data h' v'.data) (m : Moves w.heap (w.vecs i) v' c) : Fx s w op (w.put h' i v') := by
  have hci : Spec.capStep s (fun i => (w.vecs i).cap) op i = c := by rw [hc]; simp [Spec.updc]
  have hcj : ∀ j, j ≠ i → Spec.capStep s (fun i => (w.vecs i).cap) op j = (w.vecs j).cap := by
    intro j hj; rw [hc]; simp [Spec.updc, hj]
  refine ⟨f.next, ?_, ?_, ?_⟩
  · intro j
    by_cases hj : j = i
    · subst hj; rw [put_vecs_self, hci]; exact m.1
    · rw [put_vecs_ne _ _ _ hj, hcj j hj]
  · intro j
    by_cases hj : j = i
    · subst hj
      rw [put_vecs_self]
      rcases m.2 with ⟨a, b⟩ | ⟨a, b⟩
      · refine .inr ⟨j, b, ?_⟩
        rw [ht, hci, if_pos a]
      · exact .inl b
    · rw [put_vecs_ne _ _ _ hj]
      refine .inr ⟨j, rfl, ?_⟩
      rw [ht, hcj j hj, if_pos rfl]
  · intro a b hab
    rw [ht] at hab
    split at hab
    · rename_i h0
      cases hab
      by_cases hj : a = i
      · subst hj
        rw [put_vecs_self]
        rw [hci] at h0
        rcases m.2 with ⟨-, b⟩ | ⟨x, -⟩
        · exact b
        · exact absurd h0 x
      · rw [put_vecs_ne _ _ _ hj]
    · cases hab

theorem fx_same {s : Spec.Lists α} {w : World α} {op : Op α}
    (hc : Spec.capStep s (fun i => (w.vecs i).cap) op = (fun i => (w.vecs i).cap))
    (ht : ∀ j, Spec.track s (fun i => (w.vecs i).cap) op (some j) =
      if Spec.capStep s (fun i => (w.vecs i).cap) op j = (w.vecs j).cap then some j else none) : Fx s w op w := by
  have ht' : ∀ j, Spec.track s (fun i => (w.vecs i).cap) op (some j) = some j := by
    intro j; rw [ht, hc]; simp
  refine ⟨Nat.le_refl _, ?_, ?_, ?_⟩
  · intro j; rw [hc]
  · intro j; exact .inr ⟨j, rfl, ht' j⟩
  · intro a b hab
    rw [ht'] at hab
    cases hab; rfl

theorem fx_call {T : Ty α} {s : Spec.Lists α} {w w' : World α} {op : Op α} {o : Obs α} {i c : Nat} {l : List α}
    {f : Heap α → Vec → R (Heap α × Vec)} (e : w.call i f = .ok (w', o))
    (hc : Spec.capStep s (fun i => (w.vecs i).cap) op = Spec.updc (fun i => (w.vecs i).cap) i c)
    (ht : ∀ j, Spec.track s (fun i => (w.vecs i).cap) op (some j) =
      if Spec.capStep s (fun i => (w.vecs i).cap) op j = (w.vecs j).cap then some j else none)
    (hd : Done T w.heap (w.vecs i) l (f w.heap (w.vecs i)))
    (hm : ∀ h' v', f w.heap (w.vecs i) = .ok (h', v') → Moves w.heap (w.vecs i) v' c) : Fx s w op w' := by
  obtain ⟨h', v', e1, -, fr, -⟩ := hd
  unfold World.call at e
  rw [e1] at e
  simp only [R.ok_bind, Except.ok.injEq, Prod.mk.injEq] at e
  rw [← e.1]
  exact fx_put (T := T) hc ht fr (hm h' v' e1)

theorem fx_callObs {T : Ty α} {β : Type} {s : Spec.Lists α} {w w' : World α} {op : Op α} {o : Obs α} {i c : Nat} {l : List α}
    {f : Heap α → Vec → R (β × Heap α × Vec)} {g : β → Obs α} {x : β} (e : w.callObs i f g = .ok (w', o))
    (hc : Spec.capStep s (fun i => (w.vecs i).cap) op = Spec.updc (fun i => (w.vecs i).cap) i c)
    (ht : ∀ j, Spec.track s (fun i => (w.vecs i).cap) op (some j) =
      if Spec.capStep s (fun i => (w.vecs i).cap) op j = (w.vecs j).cap then some j else none)
    (hd : ∃ h' v', f w.heap (w.vecs i) = .ok (x, h', v') ∧ Owns T h' v' l ∧ Frame w.heap (w.vecs i).data h' v'.data ∧
      h'.leaked = w.heap.leaked)
    (hm : ∀ b h' v', f w.heap (w.vecs i) = .ok (b, h', v') → Moves w.heap (w.vecs i) v' c) : Fx s w op w' := by
  obtain ⟨h', v', e1, -, fr, -⟩ := hd
  unfold World.callObs at e
  rw [e1] at e
  simp only [R.ok_bind, Except.ok.injEq, Prod.mk.injEq] at e
  rw [← e.1]
  exact fx_put (T := T) hc ht fr (hm _ h' v' e1)

theorem updc_self (c : Spec.Caps) (i : Nat) : c = Spec.updc c i (c i) := by
  funext j; unfold Spec.updc; split
  · rename_i h; rw [h]
  · rfl

theorem copyAssignOther_moves {T : Ty α} {h h' : Heap α} {v v' r : Vec} {l m : List α} (hw : WF h) (o : Owns T h v l)
    (e : copyAssignOther T h v r = .ok (h', v')) (hm : r.size = m.length) :
    Moves h v v' (if m.length ≤ v.cap then v.cap else m.length) := by
  unfold copyAssignOther at e
  obtain ⟨h1, v1, e1, o1, f1, -⟩ := clear_ok hw o
  unfold clear at e1
  rw [R.bind_eq_ok] at e1
  obtain ⟨h2, e2, e1⟩ := e1
  simp only [Except.ok.injEq, Prod.mk.injEq] at e1
  obtain ⟨rfl, rfl⟩ := e1
  have hnx : ∀ h3, free T.triv h2 v.data = .ok h3 → h3.next = h2.next := by
    intro h3 e3
    cases hv : v.data with
    | none => rw [hv] at e3; simp only [free, Except.ok.injEq] at e3; rw [← e3]
    | some b =>
      rw [hv] at e3
      simp only [free] at e3
      split at e3
      · cases e3
      · simp only [Except.ok.injEq] at e3
        rw [← e3]; rfl
  rw [e2] at e
  simp only [R.ok_bind] at e
  split at e
  · rename_i hlt
    rw [R.bind_eq_ok] at e
    obtain ⟨h3, e3, e⟩ := e
    simp only [R.bind_eq_ok, Except.ok.injEq, Prod.mk.injEq] at e
    obtain ⟨_, -, -, e⟩ := e
    rw [if_neg (by omega), ← e]
    refine ⟨hm, .inr ⟨by omega, .inr ⟨h3.next, ?_, rfl⟩⟩⟩
    rw [hnx h3 e3]; exact f1.next
  · rename_i hlt
    simp only [R.bind_eq_ok, Except.ok.injEq, Prod.mk.injEq] at e
    obtain ⟨_, -, -, e⟩ := e
    rw [if_pos (by omega), ← e]
    exact ⟨rfl, .inl ⟨rfl, rfl⟩⟩

theorem fx_moveAssign {T : Ty α} {s : Spec.Lists α} {w w' : World α} {o : Obs α} (I : Inv T w s) {a b : Nat}
    (e : step T w (.moveAssign a b) = .ok (w', o)) : Fx s w (.moveAssign a b) w' := by
  simp only [step, Vector.moveAssign] at e
  rw [dtor_ok I.wf (I.owns a)] at e
  simp only [R.ok_bind, Except.ok.injEq, Prod.mk.injEq] at e
  rw [← e.1]
  have hv : ∀ k, (((w.put (dropBlock w.heap (w.vecs a).data) a (w.vecs b)).put
      (dropBlock w.heap (w.vecs a).data) b Vec.empty).vecs k) =
      if k = b then Vec.empty else if k = a then w.vecs b else w.vecs k := by
    intro k; rfl
  refine ⟨by simp, ?_, ?_, ?_⟩
  · intro j
    rw [hv]
    simp only [Spec.capStep, Spec.updc]
    split
    · rfl
    · split <;> rfl
  · intro j
    rw [hv]
    by_cases h1 : j = b
    · rw [if_pos h1]; exact .inl (.inl rfl)
    · rw [if_neg h1]
      by_cases h2 : j = a
      · rw [if_pos h2]
        refine .inr ⟨b, rfl, ?_⟩
        simp only [Spec.track]
        rw [if_neg (by omega), if_pos trivial, h2]
      · rw [if_neg h2]
        refine .inr ⟨j, rfl, ?_⟩
        simp only [Spec.track]
        rw [if_neg (by omega), if_neg (by omega)]
  · intro i j hij
    rw [hv]
    simp only [Spec.track] at hij
    split at hij
    · cases hij
    · rename_i h1
      split at hij
      · rename_i h2
        cases hij
        rw [if_neg (by omega), if_pos rfl, h2]
      · rename_i h2
        cases hij
        rw [if_neg (by omega), if_neg (by omega)]

theorem fx_assignNew {T : Ty α} {s : Spec.Lists α} {w w' : World α} {o : Obs α} (I : Inv T w s) {i : Nat} {c : Ctor α}
    (hn : Spec.demand s (.assignNew i c) ≤ 2 ^ 48)
    (e : step T w (.assignNew i c) = .ok (w', o)) : Fx s w (.assignNew i c) w' := by
  obtain ⟨h1, t, e1, ot, f, lk⟩ := construct_ok I hn
  have hcap := ctor_cap I e1
  simp only [step, assignNew] at e
  rw [e1] at e
  simp only [R.ok_bind] at e
  have oi : Owns T h1 (w.vecs i) (s i) := (I.owns i).frame f (by simp [Vec.empty])
  rw [dtor_ok f.wf oi] at e
  simp only [R.ok_bind] at e
  have fr := Frame.replace f (I.owns i).lt
  rw [dtor_ok fr.wf (owns_empty T _)] at e
  simp only [R.ok_bind, Vec.empty, Except.ok.injEq, Prod.mk.injEq] at e
  rw [← e.1]
  refine ⟨?_, ?_, ?_, ?_⟩
  · simpa using f.next
  · intro j
    simp only [Spec.capStep, Spec.updc]
    by_cases hj : j = i
    · subst hj; rw [put_vecs_self, if_pos rfl]; exact hcap
    · rw [put_vecs_ne _ _ _ hj, if_neg hj]
  · intro j
    by_cases hj : j = i
    · subst hj
      rw [put_vecs_self]
      left
      rcases f.ptr with h3 | h3 | h3
      · exact .inl h3
      · exact .inl h3
      · exact .inr h3
    · rw [put_vecs_ne _ _ _ hj]
      refine .inr ⟨j, rfl, ?_⟩
      simp only [Spec.track]
      rw [if_neg (by omega)]
  · intro a b hab
    simp only [Spec.track] at hab
    split at hab
    · cases hab
    · rename_i h1
      cases hab
      rw [put_vecs_ne _ _ _ (by omega)]

/-- Every call does to the memory what the specification says. -/
theorem step_fx {T : Ty α} {w w' : World α} {s : Spec.Lists α} {o : Obs α} (I : Inv T w s) {op : Op α}
    (hd : Spec.demand s op ≤ 2 ^ 48)
    (hr : ∀ i idx cnt, op = .removeRange i idx cnt → idx + cnt < 2 ^ 64 ∧ (s i).length < 2 ^ 64)
    (e : step T w op = .ok (w', o)) : Fx s w op w' := by
  have keepc : ∀ {i : Nat}, (fun i => (w.vecs i).cap) = Spec.updc (fun i => (w.vecs i).cap) i (w.vecs i).cap :=
    fun {i} => updc_self (fun i => (w.vecs i).cap) i
  cases op with
  | pushBack i a =>
    have hc : Spec.capStep s (fun i => (w.vecs i).cap) (.pushBack i a) =
        Spec.updc (fun i => (w.vecs i).cap) i (Spec.pushed (w.vecs i).size (w.vecs i).cap) := by
      rw [(I.owns i).1]; rfl
    simp only [step, R.bind_eq_ok] at e
    obtain ⟨arg, e1, e⟩ := e
    cases a with
    | val a =>
      cases e1
      exact fx_call e hc (fun _ => rfl) (emplaceBack_ok I.wf (I.owns i) (a := a) (arg := .val a) rfl)
        (fun _ _ => emplaceBack_moves)
    | elem j k =>
      simp only [pushArg] at e1
      by_cases hk : k < (s j).length
      · rw [ccAssert_true (by simpa [(I.owns j).1] using hk)] at e1
        cases e1
        exact fx_call e hc (fun _ => rfl) (emplaceBack_ok I.wf (I.owns i) (argOK_elem (I.owns j) hk))
          (fun _ _ => emplaceBack_moves)
      · rw [ccAssert_false (by simpa [(I.owns j).1] using hk)] at e1
        cases e1
  | pushRange i c sz l =>
    simp only [step] at e
    refine fx_call e ?_ (fun _ => rfl) (pushBackRange_ok I.wf (I.owns i) hd)
      (fun _ _ => pushBackRange_moves I.wf (I.owns i) hd)
    rw [(I.owns i).1]; rfl
  | insertRange i idx l =>
    by_cases hi : idx ≤ (s i).length
    · simp only [step] at e
      refine fx_call e ?_ (fun _ => rfl) (insertRangeAt_ok I.wf (I.owns i) hd hi)
        (fun _ _ => insertRangeAt_moves (I.owns i).size_le)
      rw [(I.owns i).1]; rfl
    · simp only [step, World.call] at e
      rw [insertRangeAt_bad (I.owns i) hi] at e
      cases e
  | popBack i =>
    by_cases h0 : s i = []
    · simp only [step, World.call] at e
      rw [popBack_bad (by rw [(I.owns i).1, h0]; rfl)] at e
      cases e
    · simp only [step] at e
      exact fx_call e keepc (fun _ => rfl) (popBack_ok I.wf (I.owns i) h0) (fun _ _ h => (popBack_keep h).moves)
  | getAndPopBack i =>
    by_cases h0 : s i = []
    · simp only [step, World.callObs] at e
      rw [getAndPopBack_bad (by rw [(I.owns i).1, h0]; rfl)] at e
      cases e
    · simp only [step] at e
      exact fx_callObs e keepc (fun _ => rfl) (getAndPopBack_ok I.wf (I.owns i) h0)
        (fun _ _ _ h => (getAndPopBack_keep h).moves)
  | reserve i n =>
    simp only [step] at e
    exact fx_call e rfl (fun _ => rfl) (reserve_ok I.wf (I.owns i) hd).1 (fun _ _ h => (reserve_moves h).2)
  | resize i n => simp only [step] at e; exact fx_call e rfl (fun _ => rfl) (resize_ok I.wf (I.owns i) hd) (fun _ _ => resize_moves)
  | resizeWith i n a => simp only [step] at e; exact fx_call e rfl (fun _ => rfl) (resize_ok I.wf (I.owns i) hd) (fun _ _ => resize_moves)
  | clear i => simp only [step] at e; exact fx_call e keepc (fun _ => rfl) (clear_ok I.wf (I.owns i)) (fun _ _ h => (clear_keep h).moves)
  | shrinkToFit i =>
    obtain ⟨h', v', e1, -, f, -⟩ := shrinkToFit_ok I.wf (I.owns i)
    simp only [step, World.call] at e
    rw [e1] at e
    simp only [R.ok_bind, Except.ok.injEq, Prod.mk.injEq] at e
    rw [← e.1]
    refine fx_put (T := T) (c := (w.vecs i).size) ?_ (fun _ => rfl) f (shrinkToFit_moves e1)
    rw [(I.owns i).1]; rfl
  | removeAll i p =>
    simp only [step] at e
    exact fx_callObs e keepc (fun _ => rfl) (removeAll_ok I.wf (I.owns i)) (fun _ _ _ h => (removeAll_keep h).moves)
  | removeFirst i p =>
    simp only [step] at e
    exact fx_callObs e keepc (fun _ => rfl) (removeFirst_ok I.wf (I.owns i)) (fun _ _ _ h => (removeFirst_keep h).moves)
  | removeFirstUnordered i p =>
    simp only [step] at e
    exact fx_callObs e keepc (fun _ => rfl) (removeFirstUnordered_ok I.wf (I.owns i))
      (fun _ _ _ h => (removeFirstUnordered_keep h).moves)
  | removeValue i a =>
    simp only [step] at e
    exact fx_callObs e keepc (fun _ => rfl) (removeAll_ok (pred := fun x => T.eqv x a) I.wf (I.owns i))
      (fun _ _ _ h => (removeAll_keep h).moves)
  | removeRange i idx cnt =>
    obtain ⟨h1, h2⟩ := hr i idx cnt rfl
    by_cases h0 : cnt = 0
    · subst h0
      have hd : Done T w.heap (w.vecs i) (s i) (removeRange T w.heap (w.vecs i) idx 0) := by
        unfold removeRange
        rw [if_pos rfl]
        exact Done.refl I.wf (I.owns i)
      simp only [step] at e
      exact fx_call e keepc (fun _ => rfl) hd (fun _ _ h => (removeRange_keep h).moves)
    · by_cases hi : idx + cnt ≤ (s i).length
      · simp only [step] at e
        exact fx_call e keepc (fun _ => rfl) (removeRange_ok I.wf (I.owns i) hi (by omega) h2)
          (fun _ _ h => (removeRange_keep h).moves)
      · simp only [step, World.call] at e
        rw [removeRange_bad (I.owns i) hi h0 h1] at e
        cases e
  | removeAt i idx =>
    by_cases hi : idx < (s i).length
    · simp only [step] at e
      exact fx_call e keepc (fun _ => rfl) (removeAt_ok I.wf (I.owns i) hi) (fun _ _ h => (removeAt_keep h).moves)
    · simp only [step, World.call] at e
      rw [removeAt_bad (I.owns i) hi] at e
      cases e
  | removeAtUnordered i idx =>
    by_cases hi : idx < (s i).length
    · simp only [step] at e
      exact fx_call e keepc (fun _ => rfl) (removeAtUnordered_ok I.wf (I.owns i) hi)
        (fun _ _ h => (removeAtUnordered_keep h).moves)
    · simp only [step, World.call] at e
      rw [removeAtUnordered_bad (I.owns i) hi] at e
      cases e
  | set i k a =>
    by_cases hi : k < (s i).length
    · simp only [step] at e
      refine fx_call e keepc (fun _ => rfl) (setAt_ok I.wf (I.owns i) hi) ?_
      intro h' v' h
      simp only [R.bind_eq_ok, Except.ok.injEq, Prod.mk.injEq] at h
      obtain ⟨_, -, -, h⟩ := h
      rw [← h]
      exact ⟨rfl, .inl ⟨rfl, rfl⟩⟩
    · simp only [step, World.call] at e
      rw [setAt_bad (I.owns i) hi] at e
      cases e
  | get i k =>
    simp only [step, R.bind_eq_ok, Except.ok.injEq, Prod.mk.injEq] at e
    obtain ⟨_, -, e, -⟩ := e
    rw [← e]; exact fx_same rfl (fun _ => rfl)
  | front i =>
    simp only [step, R.bind_eq_ok, Except.ok.injEq, Prod.mk.injEq] at e
    obtain ⟨_, -, e, -⟩ := e
    rw [← e]; exact fx_same rfl (fun _ => rfl)
  | back i =>
    simp only [step, R.bind_eq_ok, Except.ok.injEq, Prod.mk.injEq] at e
    obtain ⟨_, -, e, -⟩ := e
    rw [← e]; exact fx_same rfl (fun _ => rfl)
  | size i =>
    simp only [step, Except.ok.injEq, Prod.mk.injEq] at e
    rw [← e.1]; exact fx_same rfl (fun _ => rfl)
  | contains i a =>
    simp only [step, R.bind_eq_ok, Except.ok.injEq, Prod.mk.injEq] at e
    obtain ⟨_, -, e, -⟩ := e
    rw [← e]; exact fx_same rfl (fun _ => rfl)
  | eq i j =>
    simp only [step, R.bind_eq_ok, Except.ok.injEq, Prod.mk.injEq] at e
    obtain ⟨_, -, e, -⟩ := e
    rw [← e]; exact fx_same rfl (fun _ => rfl)
  | copyAssign i j =>
    simp only [step] at e
    split at e
    · rename_i hij
      subst hij
      simp only [Except.ok.injEq, Prod.mk.injEq] at e
      rw [← e.1]
      refine fx_same ?_ (fun _ => rfl)
      simp only [Spec.capStep]
      have := (I.owns i).size_le
      rw [(I.owns i).1] at this
      rw [if_pos this]
      exact keepc.symm
    · rename_i hij
      exact fx_call e rfl (fun _ => rfl)
        (copyAssignOther_ok I.wf (I.owns i) (I.owns j) (fun b hb => I.dist j i b (Ne.symm hij) hb))
        (fun _ _ h => copyAssignOther_moves I.wf (I.owns i) h (I.owns j).1)
  | moveAssign i j => exact fx_moveAssign I e
  | assignNew i c => exact fx_assignNew I hd e

/-! ### histories -/

/-- Where the memory of a reference is. -/
def At (w : World α) (p : Ptr) : Option Nat → Prop
  | some j => (w.vecs j).data = p
  | none => ∀ b, p = some b → b < w.heap.next ∧ w.heap.blocks b = none

theorem at_step {T : Ty α} {w w' : World α} {s s' : Spec.Lists α} {op : Op α} (I : Inv T w s) (I' : Inv T w' s')
    (f : Fx s w op w') {p : Ptr} {t : Option Nat} (h : At w p t) :
    At w' p (Spec.track s (fun i => (w.vecs i).cap) op t) := by
  -- no vector has the block afterwards
  have gone : ∀ b, b < w.heap.next → (∀ j, (w'.vecs j).data ≠ some b) → b < w'.heap.next ∧ w'.heap.blocks b = none := by
    intro b hb hj
    refine ⟨Nat.lt_of_lt_of_le hb f.next, ?_⟩
    cases hbb : w'.heap.blocks b with
    | none => rfl
    | some x =>
      obtain ⟨j, hj'⟩ := I'.all b (by rw [hbb]; simp)
      exact absurd hj' (hj j)
  have old : ∀ b j, b < w.heap.next → (w'.vecs j).data = some b → ∃ j', (w.vecs j').data = some b ∧
      Spec.track s (fun i => (w.vecs i).cap) op (some j') = some j := by
    intro b j hb hj
    rcases f.ptr j with (h1 | ⟨x, hx, h1⟩) | ⟨j', h1, h2⟩
    · rw [h1] at hj; cases hj
    · rw [h1] at hj; cases hj; omega
    · exact ⟨j', by rw [← h1]; exact hj, h2⟩
  cases t with
  | none =>
    intro b hb
    obtain ⟨h1, h2⟩ := h b hb
    refine gone b h1 ?_
    intro j hj
    obtain ⟨j', h3, -⟩ := old b j h1 hj
    rcases (I.owns j').2 with ⟨h4, -⟩ | ⟨b', tail, h4, -, h5, -⟩
    · rw [h4] at h3; cases h3
    · rw [h4] at h3; cases h3
      rw [h2] at h5; cases h5
  | some i =>
    cases ht : Spec.track s (fun i => (w.vecs i).cap) op (some i) with
    | some j =>
      show (w'.vecs j).data = p
      rw [f.keep i j ht]; exact h
    | none =>
      intro b hb
      have hi : (w.vecs i).data = some b := by rw [← hb]; exact h
      have hlt := (I.owns i).lt b hi
      refine gone b hlt ?_
      intro j hj
      obtain ⟨j', h3, h4⟩ := old b j hlt hj
      by_cases hji : j' = i
      · subst hji; rw [ht] at h4; cases h4
      · exact I.dist i j' b (Ne.symm hji) hi h3

theorem track_run {T : Ty α} (ops : List (Op α)) : ∀ {w w2 : World α} {s : Spec.Lists α} {os : List (Obs α)} {p : Ptr}
    {t : Option Nat}, Inv T w s → Spec.InRange T.dflt T.eqv s ops → run T w ops = .ok (w2, os) → At w p t →
    ∃ s2, Spec.run T.dflt T.eqv s ops = some (s2, os) ∧ Inv T w2 s2 ∧
      (∀ j, (w2.vecs j).cap = Spec.capRun T.dflt T.eqv s (fun i => (w.vecs i).cap) ops j) ∧
      At w2 p (Spec.trackRun T.dflt T.eqv s (fun i => (w.vecs i).cap) t ops) := by
  induction ops with
  | nil =>
    intro w w2 s os p t I _ e ha
    simp only [run, Except.ok.injEq, Prod.mk.injEq] at e
    obtain ⟨rfl, rfl⟩ := e
    exact ⟨s, rfl, I, fun _ => rfl, ha⟩
  | cons op ops ih =>
    intro w w2 s os p t I hr e ha
    simp only [run, R.bind_eq_ok, Except.ok.injEq, Prod.mk.injEq] at e
    obtain ⟨⟨w1, o⟩, e1, ⟨w2', os'⟩, e2, rfl, rfl⟩ := e
    obtain ⟨h1, h2, h3⟩ := hr
    have hst := step_ok I h1 h2
    have hf := step_fx I h1 h2 e1
    cases hs : Spec.step T.dflt T.eqv s op with
    | none =>
      rw [hs] at hst
      simp only [StepOK] at hst
      rw [hst] at e1
      cases e1
    | some q =>
      obtain ⟨s1, o'⟩ := q
      rw [hs] at hst
      obtain ⟨w1', e1', I1, -⟩ := hst
      rw [e1'] at e1
      simp only [Except.ok.injEq, Prod.mk.injEq] at e1
      obtain ⟨rfl, rfl⟩ := e1
      obtain ⟨s2, g1, g2, g3, g4⟩ := ih I1 (h3 s1 o' hs) e2 (at_step I I1 hf ha)
      have hcaps : (fun i => (w1'.vecs i).cap) = Spec.capStep s (fun i => (w.vecs i).cap) op := funext hf.caps
      rw [hcaps] at g3 g4
      refine ⟨s2, ?_, g2, ?_, ?_⟩
      · simp only [Spec.run, hs, g1, Option.bind_eq_bind, Option.bind_some]
      · intro j
        simp only [Spec.capRun, hs]
        exact g3 j
      · simp only [Spec.trackRun, hs]
        exact g4

theorem Owns.read_ok {T : Ty α} {h : Heap α} {v : Vec} {l : List α} (o : Owns T h v l) {k : Nat} {a : α}
    (hk : l[k]? = some a) : read h v.data k = .ok a := by
  obtain ⟨hlt, rfl⟩ := List.getElem?_eq_some_iff.1 hk
  have := at_ok o hlt
  unfold at_ at this
  rw [ccAssert_true (by simpa [o.1] using hlt)] at this
  exact this

theorem Owns.read_bad {T : Ty α} {h : Heap α} {v : Vec} {l : List α} (o : Owns T h v l) (ht : T.triv = false) {k : Nat}
    (hk : l.length ≤ k) : read h v.data k = .error .ub := by
  rcases o.2 with ⟨h1, -⟩ | ⟨b, tail, h1, -, h2, h3, -⟩
  · rw [h1]; rfl
  · rw [h1]
    unfold Mem.read Mem.get slots
    simp only [h2, R.ok_bind]
    cases hx : (l.map Slot.live ++ tail)[k]? with
    | none => rfl
    | some x =>
      have : x = .raw := by
        rw [List.getElem?_append_right (by simpa using hk)] at hx
        rcases h3 with h3 | h3
        · rw [ht] at h3; cases h3
        · exact h3 x (List.mem_of_getElem? hx)
      subst this
      rfl

theorem read_gone {w : World α} {p : Ptr} (h : At w p none) (k : Nat) : read w.heap p k = .error .ub := by
  cases p with
  | none => rfl
  | some b =>
    obtain ⟨-, h1⟩ := h b rfl
    unfold Mem.read Mem.get slots
    simp only [h1]
    rfl

end Verif.Vector
