import Verif.FList.Props

/-!
References and iterators to the elements of a `forward_list` (/repo/src/clean-core/forward_list.hh:34-43, 47-56, 97-130), on the model of C62:
the address of a node. And range-based `for` loops whose body changes lists.
-/
namespace Verif.FList

variable {α : Type}

/-- The iterator with number `k` of list `i`: `k` times `++` from `begin()` (forward_list.hh:99, 128). -/
def iteratorAt (w : World α) (i k : Nat) : R (Option Nat) :=
  match w.objs i with
  | some p => advance w.heap p k
  | none => .error .ub

/-- Read through a reference or an iterator (forward_list.hh:100). -/
def load (h : Heap α) (p : Nat) : R α := do
  let (_, n) ← deref h (some p)
  .ok n.value

/-- What the body of a loop does: calls on any lists, which may depend on the elements it has been given. -/
abbrev Body (α : Type) := List α → List (Op α)

/-- `for (; it != end; ++it) body(*it)` (forward_list.hh:97-107, 128-130) from the node `p`. `none` if it has not ended after `n` rounds. -/
def loopFrom (body : Body α) (w : World α) (p : Option Nat) (shown : List α) : Nat → R (Option (World α × List α))
  | 0 => .ok (if p.isNone then some (w, shown) else none)
  | n + 1 =>
    match p with
    | none => .ok (some (w, shown))
    | some a => do
      let v ← load w.heap a
      let (w, _) ← run w (body (shown ++ [v]))
      let (_, nd) ← deref w.heap (some a)
      loopFrom body w nd.next (shown ++ [v]) n

/-- `for (auto& x : list_i) body(x)`, at most `n` rounds of it. -/
def loop (body : Body α) (w : World α) (i n : Nat) : R (Option (World α × List α)) :=
  match w.objs i with
  | some p => loopFrom body w p [] n
  | none => .error .ub

namespace Spec

/-- A reference to element `k` of list `i`: where is the element after a call that is carried out? `none` if it has been removed. -/
def track (s : State α) (op : Op α) : Option (Nat × Nat) → Option (Nat × Nat)
  | none => none
  | some (i, k) =>
    match op with
    | .moveCtor a b => if (s a).isNone ∧ b = i then some (a, k) else some (i, k)
    | .copyAssign a b => if (s b).isSome ∧ a = i then none else some (i, k)
    | .moveAssign a b =>
      if (s a).isSome ∧ (s b).isSome then
        if a = i then none else if b = i then some (a, k) else some (i, k)
      else some (i, k)
    | .destroy a => if a = i then none else some (i, k)
    | .clear a => if a = i then none else some (i, k)
    | .pushFront a _ => if a = i then some (i, k + 1) else some (i, k)
    | .popFront a => if a = i then (if k = 0 then none else some (i, k - 1)) else some (i, k)
    | .eraseAfter a m =>
      if a = i then (if k = m + 1 then none else if m + 1 < k then some (i, k - 1) else some (i, k)) else some (i, k)
    | _ => some (i, k)

/-- The same after a history. -/
def trackRun (s : State α) (t : Option (Nat × Nat)) : List (Op α) → Option (Nat × Nat)
  | [] => t
  | op :: ops =>
    match step s op with
    | .error _ => none
    | .ok (s', _) => trackRun s' (track s op t) ops

/-- Element `k` of list `i`. -/
def elem (s : State α) (i k : Nat) : Option α := (s i).bind fun l => l[k]?

/-- What the loop has to do, on lists: it goes from the current element to the one that is behind it when the body has run, in
whichever list that is. It must not go on from an element that has been removed. -/
def loopFrom (body : Body α) (s : State α) (t : Option (Nat × Nat)) (shown : List α) : Nat → R (Option (State α × List α))
  | 0 => .ok (if t.isNone then some (s, shown) else none)
  | n + 1 =>
    match t with
    | none => .ok (some (s, shown))
    | some (i, k) =>
      match elem s i k with
      | none => .error .ub
      | some a => do
        let (s', _) ← run s (body (shown ++ [a]))
        match trackRun s (some (i, k)) (body (shown ++ [a])) with
        | none => .error .ub
        | some (i', k') => loopFrom body s' (if (elem s' i' (k' + 1)).isSome then some (i', k' + 1) else none) (shown ++ [a]) n

/-- The loop over list `i`. -/
def loop (body : Body α) (s : State α) (i n : Nat) : R (Option (State α × List α)) :=
  match s i with
  | some l => loopFrom body s (if l.isEmpty then none else some (i, 0)) [] n
  | none => .error .ub

end Spec

/-! ### Proofs -/

theorem Chain.get {h : Heap α} : ∀ {k : Nat} {p : Option Nat} {ns : List Nat} {l : List α} {x : Nat}, Chain h p ns l → ns[k]? = some x →
    ∃ v q, l[k]? = some v ∧ h[x]? = some (some { value := v, next := q }) ∧ Chain h q (ns.drop (k + 1)) (l.drop (k + 1)) := by
  intro k
  induction k with
  | zero =>
    intro p ns l x c hx
    cases l with
    | nil => obtain ⟨-, rfl⟩ := c.nil_inv; cases hx
    | cons v l =>
      obtain ⟨a, ms, q, rfl, rfl, e, c'⟩ := c.cons_inv
      simp only [List.getElem?_cons_zero, Option.some.injEq] at hx
      subst hx
      exact ⟨v, q, rfl, e, by simpa using c'⟩
  | succ k ih =>
    intro p ns l x c hx
    cases l with
    | nil => obtain ⟨-, rfl⟩ := c.nil_inv; cases hx
    | cons v l =>
      obtain ⟨a, ms, q, rfl, rfl, e, c'⟩ := c.cons_inv
      simp only [List.getElem?_cons_succ] at hx
      obtain ⟨v', q', h1, h2, h3⟩ := ih c' hx
      exact ⟨v', q', by simpa using h1, h2, by simpa using h3⟩

/-- Node `p` is element `t`; or it has been removed. -/
def At (w : World α) (N : Nat → List Nat) (p : Nat) : Option (Nat × Nat) → Prop
  | none => p < w.heap.length ∧ ∀ i, p ∉ N i
  | some (i, k) => (N i)[k]? = some p

theorem At.bound {w : World α} {s : Spec.State α} {N : Nat → List Nat} (I : Inv w s N) {p : Nat} {i : Nat} (h : p ∈ N i) :
    p < w.heap.length ∧ ∃ l, s i = some l := by
  have hi := I.objs i
  cases hs : s i with
  | none => rw [hs] at hi; rw [hi.2] at h; cases h
  | some l =>
    rw [hs] at hi
    obtain ⟨q, -, c⟩ := hi
    obtain ⟨n, e⟩ := c.live h
    exact ⟨live_lt e, l, rfl⟩

theorem At.elem {w : World α} {s : Spec.State α} {N : Nat → List Nat} (I : Inv w s N) {p i k : Nat} (h : At w N p (some (i, k))) :
    ∃ a l q, s i = some l ∧ l[k]? = some a ∧ Spec.elem s i k = some a ∧ w.heap[p]? = some (some { value := a, next := q }) ∧
      Chain w.heap q ((N i).drop (k + 1)) (l.drop (k + 1)) := by
  have h' : (N i)[k]? = some p := h
  obtain ⟨-, l, hl⟩ := At.bound I (List.mem_of_getElem? h')
  obtain ⟨p0, -, c⟩ := I.some hl
  obtain ⟨a, q, h1, h2, h3⟩ := c.get h'
  exact ⟨a, l, q, hl, h1, by simp [Spec.elem, hl, h1], h2, h3⟩

theorem load_ok {h : Heap α} {p : Nat} {n : Node α} (e : h[p]? = some (some n)) : load h p = .ok n.value := by
  simp only [load, deref_ok e, R.ok_bind]

theorem deref_gone {w : World α} {s : Spec.State α} {N : Nat → List Nat} (I : Inv w s N) {p : Nat} (h : At w N p none) :
    deref w.heap (some p) = .error .ub := by
  unfold deref
  simp only
  cases hp : w.heap[p]? with
  | none => rfl
  | some o =>
    cases o with
    | none => rfl
    | some n => obtain ⟨i, hi⟩ := I.cover p n hp; exact absurd hi (h.2 i)

/-- All nodes in `M` are in `N` or new. -/
def Old (fresh : List Nat) (N M : Nat → List Nat) : Prop := ∀ j, ∀ x ∈ M j, x ∈ fresh ∨ ∃ j, x ∈ N j

theorem track_step {w w' : World α} {s s' : Spec.State α} {N : Nat → List Nat} {op : Op α} {o : Out α} {fresh : List Nat} (I : Inv w s N)
    (hop : NotSelf op) (hs : Spec.step s op = .ok (s', o)) (hf : ∀ x ∈ fresh, w.heap.length ≤ x) (hw : w.heap.length ≤ w'.heap.length)
    (hp : ∀ i v, op = .pushFront i v → fresh ≠ [] ∨ tagStep s N fresh op = N) {p : Nat} {t : Option (Nat × Nat)} (h : At w N p t) :
    At w' (tagStep s N fresh op) p (Spec.track s op t) := by
  have hgone : ∀ (M : Nat → List Nat), p < w.heap.length → (∀ i, ∀ x ∈ M i, x ∈ fresh ∨ ∃ j, p ∉ N j ∧ x ∈ N j) → At w' M p none := by
    intro M hlt hM
    refine ⟨by omega, fun i hi => ?_⟩
    rcases hM i p hi with h1 | ⟨j, h1, h2⟩
    · have := hf p h1; omega
    · exact h1 h2
  cases t with
  | none =>
    obtain ⟨hlt, hno⟩ := h
    have hupd : ∀ (M : Nat → List Nat) i ns, Old fresh N M → (∀ x ∈ ns, x ∈ fresh ∨ ∃ j, x ∈ N j) →
        Old fresh N (upd M i ns) := by
      intro M i ns h1 h2 j x hx
      by_cases hj : j = i
      · subst hj; rw [upd_same] at hx; exact h2 x hx
      · rw [upd_other _ _ hj] at hx; exact h1 j x hx
    have hN : Old fresh N N := fun j x hx => .inr ⟨j, hx⟩
    have hnil : ∀ x ∈ ([] : List Nat), x ∈ fresh ∨ ∃ j, x ∈ N j := fun x hx => by cases hx
    have key : Old fresh N (tagStep s N fresh op) := by
      cases op with
      | create i =>
        simp only [tagStep]; split
        · exact hupd _ _ _ hN hnil
        · exact hN
      | copyCtor i j =>
        simp only [tagStep]; split
        · exact hupd _ _ _ hN (fun x hx => .inl hx)
        · exact hN
      | moveCtor i j =>
        simp only [tagStep]; split
        · exact hupd _ _ _ (hupd _ _ _ hN (fun x hx => .inr ⟨j, hx⟩)) hnil
        · exact hN
      | copyAssign i j =>
        simp only [tagStep]; split
        · exact hupd _ _ _ hN (fun x hx => .inl hx)
        · exact hN
      | moveAssign i j =>
        simp only [tagStep]; split
        · exact hupd _ _ _ (hupd _ _ _ hN (fun x hx => .inr ⟨j, hx⟩)) hnil
        · exact hN
      | destroy i =>
        simp only [tagStep]; split
        · exact hupd _ _ _ hN hnil
        · exact hN
      | clear i =>
        simp only [tagStep]; split
        · exact hupd _ _ _ hN hnil
        · exact hN
      | pushFront i v =>
        rcases hp i v rfl with h1 | h1
        · simp only [tagStep]
          split
          · refine hupd _ _ _ hN ?_
            intro x hx
            rcases List.mem_cons.1 hx with rfl | hx
            · cases fresh with
              | nil => exact absurd rfl h1
              | cons y ys => exact .inl (by simp)
            · exact .inr ⟨i, hx⟩
          · exact hN
        · rw [h1]; exact hN
      | popFront i =>
        simp only [tagStep]; split
        · exact hupd _ _ _ hN (fun x hx => .inr ⟨i, List.mem_of_mem_tail hx⟩)
        · exact hN
      | eraseAfter i k =>
        simp only [tagStep]; split
        · split
          · exact hupd _ _ _ hN (fun x hx => .inr ⟨i, List.mem_of_mem_eraseIdx hx⟩)
          · exact hN
        · exact hN
      | front i => exact hN
      | size i => exact hN
      | empty i => exact hN
      | iterate i => exact hN
    refine hgone _ hlt fun i x hx => ?_
    rcases key i x hx with h1 | ⟨j, h1⟩
    · exact .inl h1
    · exact .inr ⟨j, hno j, h1⟩
  | some t =>
    obtain ⟨i, k⟩ := t
    have h : (N i)[k]? = some p := h
    have hmem : p ∈ N i := List.mem_of_getElem? h
    obtain ⟨hlt, l, hl⟩ := At.bound I hmem
    have hlen : (N i).length = l.length := by obtain ⟨_, -, c⟩ := I.some hl; exact c.length
    have hk : k < l.length := by rw [← hlen]; exact (List.getElem?_eq_some_iff.1 h).1
    -- removing list `i`
    have hrem : ∀ (M : Nat → List Nat), (∀ j, ∀ x ∈ M j, x ∈ fresh ∨ ∃ j, j ≠ i ∧ x ∈ N j) → At w' M p none := by
      intro M hM
      refine hgone M hlt fun j x hx => ?_
      rcases hM j x hx with h1 | ⟨a, h1, h2⟩
      · exact .inl h1
      · exact .inr ⟨a, fun h3 => I.disj a i p h1 h3 hmem, h2⟩
    have hother : ∀ {a : Nat} {ns : List Nat}, i ≠ a → At w' (upd N a ns) p (some (i, k)) := by
      intro a ns ha
      show (upd N a ns i)[k]? = some p
      rw [upd_other _ _ ha]; exact h
    have hnil : At w' (upd N i []) p none := by
      refine hrem _ fun j x hx => ?_
      by_cases hj : j = i
      · subst hj; rw [upd_same] at hx; cases hx
      · rw [upd_other _ _ hj] at hx; exact .inr ⟨j, hj, hx⟩
    cases op with
    | create a =>
      simp only [tagStep, Spec.track]
      split
      · next ha => exact hother (fun e => by subst e; rw [hl] at ha; cases ha)
      · exact h
    | copyCtor a b =>
      simp only [tagStep, Spec.track]
      split
      · next ha _ => exact hother (fun e => by subst e; rw [hl] at ha; cases ha)
      · exact h
    | moveCtor a b =>
      simp only [tagStep, Spec.track]
      cases ha : s a with
      | some m => simp only [Option.isNone_some, Bool.false_eq_true, false_and, if_false]; exact h
      | none =>
        have hia : i ≠ a := fun e => by subst e; rw [hl] at ha; cases ha
        by_cases hb : b = i
        · subst hb
          simp only [hl, Option.isNone_none, and_self, if_true]
          show (upd (upd N a (N b)) b [] a)[k]? = some p
          rw [upd_other _ _ (Ne.symm hia), upd_same]; exact h
        · simp only [hb, and_false, if_false]
          split
          · show (upd (upd N a (N b)) b [] i)[k]? = some p
            rw [upd_other _ _ (Ne.symm hb), upd_other _ _ hia]; exact h
          · exact h
    | copyAssign a b =>
      simp only [tagStep, Spec.track]
      cases hb : s b with
      | none =>
        simp only [Option.isSome_none, Bool.false_eq_true, false_and, if_false]
        split
        · next e => cases e
        · exact h
      | some lb =>
        by_cases ha : a = i
        · subst ha
          simp only [hl, Option.isSome_some, and_self, if_true]
          refine hrem _ fun j x hx => ?_
          by_cases hj : j = a
          · subst hj; rw [upd_same] at hx; exact .inl hx
          · rw [upd_other _ _ hj] at hx; exact .inr ⟨j, hj, hx⟩
        · simp only [ha, and_false, if_false]
          split
          · exact hother (Ne.symm ha)
          · exact h
    | moveAssign a b =>
      simp only [tagStep, Spec.track]
      cases ha : s a with
      | none => simp only [Option.isSome_none, Bool.false_eq_true, false_and, if_false]; exact h
      | some la =>
        cases hb : s b with
        | none => simp only [Option.isSome_none, Bool.false_eq_true, and_false, if_false]; exact h
        | some lb =>
          simp only [Option.isSome_some, and_self, if_true]
          by_cases hai : a = i
          · subst hai
            simp only [if_true]
            refine hrem _ fun j x hx => ?_
            by_cases hj : j = b
            · subst hj; rw [upd_same] at hx; cases hx
            · rw [upd_other _ _ hj] at hx
              by_cases hj2 : j = a
              · subst hj2; rw [upd_same] at hx; exact .inr ⟨b, fun e => hop e.symm, hx⟩
              · rw [upd_other _ _ hj2] at hx; exact .inr ⟨j, hj2, hx⟩
          · simp only [hai, if_false]
            by_cases hbi : b = i
            · subst hbi
              simp only [if_true]
              show (upd (upd N a (N b)) b [] a)[k]? = some p
              rw [upd_other _ _ hai, upd_same]; exact h
            · simp only [hbi, if_false]
              show (upd (upd N a (N b)) b [] i)[k]? = some p
              rw [upd_other _ _ (Ne.symm hbi), upd_other _ _ (Ne.symm hai)]; exact h
    | destroy a =>
      simp only [tagStep, Spec.track]
      by_cases ha : a = i
      · subst ha; simp only [hl, if_true]; exact hnil
      · simp only [ha, if_false]; split
        · exact hother (Ne.symm ha)
        · exact h
    | clear a =>
      simp only [tagStep, Spec.track]
      by_cases ha : a = i
      · subst ha; simp only [hl, if_true]; exact hnil
      · simp only [ha, if_false]; split
        · exact hother (Ne.symm ha)
        · exact h
    | pushFront a v =>
      simp only [tagStep, Spec.track]
      by_cases ha : a = i
      · subst ha
        simp only [hl, if_true]
        show (upd N a _ a)[k + 1]? = some p
        rw [upd_same, List.getElem?_cons_succ]; exact h
      · simp only [ha, if_false]; split
        · exact hother (Ne.symm ha)
        · exact h
    | popFront a =>
      simp only [tagStep, Spec.track]
      by_cases ha : a = i
      · subst ha
        cases l with
        | nil => simp at hk
        | cons v l =>
          simp only [hl, if_true]
          cases k with
          | zero =>
            simp only [if_true]
            refine ⟨by omega, fun j hj => ?_⟩
            by_cases hja : j = a
            · subst hja
              rw [upd_same] at hj
              have hnd := I.nodup j
              cases hN : N j with
              | nil => rw [hN] at hmem; cases hmem
              | cons x xs =>
                rw [hN] at hj h hnd
                simp only [List.getElem?_cons_zero, Option.some.injEq] at h
                subst h
                exact (List.nodup_cons.1 hnd).1 hj
            · rw [upd_other _ _ hja] at hj
              exact I.disj j a p hja hj hmem
          | succ k =>
            simp only [Nat.add_one_ne_zero, if_false]
            show (upd N a _ a)[k]? = some p
            rw [upd_same, List.getElem?_tail]; exact h
      · simp only [ha, if_false]; split
        · exact hother (Ne.symm ha)
        · exact h
    | eraseAfter a m =>
      simp only [tagStep, Spec.track]
      by_cases ha : a = i
      · subst ha
        simp only [Spec.step, hl] at hs
        have hm : m + 1 < l.length := by
          by_cases hm : m + 1 < l.length
          · exact hm
          · rw [if_neg hm] at hs
            split at hs <;> cases hs
        simp only [hl, if_true, if_pos hm]
        by_cases hkm : k = m + 1
        · subst hkm
          simp only [if_true]
          refine ⟨by omega, fun j hj => ?_⟩
          by_cases hja : j = a
          · subst hja
            rw [upd_same] at hj
            obtain ⟨hlt', rfl⟩ := List.getElem?_eq_some_iff.1 h
            rw [List.mem_eraseIdx_iff_getElem] at hj
            obtain ⟨b, hb, hne, e⟩ := hj
            have hnd := List.pairwise_iff_getElem.1 (I.nodup j)
            rcases Nat.lt_or_gt_of_ne hne with h1 | h1
            · exact hnd _ _ _ _ h1 e
            · exact hnd _ _ _ _ h1 e.symm
          · rw [upd_other _ _ hja] at hj
            exact I.disj j a p hja hj hmem
        · simp only [hkm, if_false]
          by_cases hlt2 : m + 1 < k
          · simp only [hlt2, if_true]
            show (upd N a _ a)[k - 1]? = some p
            rw [upd_same, List.getElem?_eraseIdx, if_neg (by omega), show k - 1 + 1 = k by omega]; exact h
          · simp only [hlt2, if_false]
            show (upd N a _ a)[k]? = some p
            rw [upd_same, List.getElem?_eraseIdx, if_pos (by omega)]; exact h
      · simp only [ha, if_false]; split
        · split
          · exact hother (Ne.symm ha)
          · exact h
        · exact h
    | front a => exact h
    | size a => exact h
    | empty a => exact h
    | iterate a => exact h

theorem track_run : ∀ {ops : List (Op α)} {w : World α} {s : Spec.State α} {N : Nat → List Nat} {p : Nat} {t : Option (Nat × Nat)},
    Inv w s N → (∀ op ∈ ops, NotSelf op) → At w N p t →
    match Spec.run s ops with
    | .error e => run w ops = .error e
    | .ok (s', os) => ∃ w' N', run w ops = .ok (w', os) ∧ Inv w' s' N' ∧ At w' N' p (Spec.trackRun s t ops) := by
  intro ops
  induction ops with
  | nil => intro w s N p t I _ h; exact ⟨w, N, rfl, I, h⟩
  | cons op ops ih =>
    intro w s N p t I hops hat
    have h1 := step_ok I op (hops op List.mem_cons_self)
    rw [Spec.run, run]
    cases hs : Spec.step s op with
    | error e => rw [hs] at h1; simp only at h1; rw [h1]; simp
    | ok so =>
      obtain ⟨s', o⟩ := so
      rw [hs] at h1
      obtain ⟨w', N', e1, I', fresh, eN, hf, hw, hp⟩ := h1
      have hat' := track_step I (hops op List.mem_cons_self) hs hf hw (fun i v e => by
        rcases hp i v e with h | h
        · exact .inl h
        · exact .inr (eN ▸ h)) hat
      rw [← eN] at hat'
      have h2 := ih I' (fun x hx => hops x (List.mem_cons_of_mem _ hx)) hat'
      rw [e1]
      simp only [R.ok_bind, Spec.trackRun, hs]
      cases hr : Spec.run s' ops with
      | error e => rw [hr] at h2; simp only at h2; rw [h2]; simp
      | ok so =>
        obtain ⟨s'', os⟩ := so
        rw [hr] at h2
        obtain ⟨w'', N'', e2, I'', hat''⟩ := h2
        rw [e2]
        exact ⟨w'', N'', rfl, I'', hat''⟩

end Verif.FList
