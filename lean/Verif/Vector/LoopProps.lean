import Verif.Vector.Loop

/-! Property C134: a loop over a vector whose body changes vectors, the one it goes over among them. -/
namespace Verif.Vector
open Verif.Mem

variable {α : Type}

/-- The state after a history, in terms of the specification. -/
theorem reach {T : Ty α} {ops : List (Op α)} (hr : Spec.InRange T.dflt T.eqv (fun _ => []) ops) {w : World α}
    {os : List (Obs α)} (h : run T World.init ops = .ok (w, os)) :
    ∃ s, Spec.run T.dflt T.eqv (fun _ => []) ops = some (s, os) ∧ Inv T w s ∧
      (fun j => (w.vecs j).cap) = Spec.capRun T.dflt T.eqv (fun _ => []) (fun _ => 0) ops := by
  obtain ⟨s, g1, I, hc, -⟩ := track_run ops (p := none) (t := none) (Inv.init T) hr h (by intro b hb; cases hb)
  exact ⟨s, g1, I, funext hc⟩

/-- **C134.** After any history, a loop over vector `i` does what the specification says, whatever its body calls: the rounds are
counted before the loop; every round shows the element at its position at that time; the loop is undefined behaviour exactly if
a round comes to a position that is no more, or after the memory has been given back. -/
theorem C134_loop (T : Ty α) (ht : T.triv = false) (ops : List (Op α)) (hr : Spec.InRange T.dflt T.eqv (fun _ => []) ops)
    {w : World α} {os : List (Obs α)} (h : run T World.init ops = .ok (w, os)) (i : Nat) (body : Body α) :
    ∃ s, Spec.run T.dflt T.eqv (fun _ => []) ops = some (s, os) ∧
      (Spec.LoopInRange T.dflt T.eqv body s (some i) (Spec.capRun T.dflt T.eqv (fun _ => []) (fun _ => 0) ops) 0 [] (s i).length →
       Match (loop T w i body) (Spec.loopFrom T.dflt T.eqv body s
        (Spec.capRun T.dflt T.eqv (fun _ => []) (fun _ => 0) ops) (some i) 0 [] (s i).length)) := by
  obtain ⟨s, g1, I, hc⟩ := reach hr h
  refine ⟨s, g1, ?_⟩
  rw [← hc]
  intro hl
  unfold loop
  rw [(I.owns i).1]
  exact loopFrom_ok _ I rfl hl (.inl ht)

/-- **C134.** The same for trivially copyable elements, where memory behind the last element can be read: whenever the
specification says that the loop is right, it is. -/
theorem C134_loop_trivial (T : Ty α) (ops : List (Op α)) (hr : Spec.InRange T.dflt T.eqv (fun _ => []) ops)
    {w : World α} {os : List (Obs α)} (h : run T World.init ops = .ok (w, os)) (i : Nat) (body : Body α) :
    ∃ s, Spec.run T.dflt T.eqv (fun _ => []) ops = some (s, os) ∧ ∀ s' shown,
      Spec.LoopInRange T.dflt T.eqv body s (some i) (Spec.capRun T.dflt T.eqv (fun _ => []) (fun _ => 0) ops) 0 [] (s i).length →
      Spec.loopFrom T.dflt T.eqv body s (Spec.capRun T.dflt T.eqv (fun _ => []) (fun _ => 0) ops) (some i) 0 [] (s i).length =
        .ok (s', shown) →
      ∃ w', loop T w i body = .ok (w', shown) ∧ Holds w' s' := by
  obtain ⟨s, g1, I, hc⟩ := reach hr h
  refine ⟨s, g1, ?_⟩
  rw [← hc]
  intro s' shown hl e
  unfold loop
  rw [(I.owns i).1]
  have := loopFrom_ok (T := T) (p := (w.vecs i).data) (t := some i) _ I rfl hl (.inr ⟨_, e⟩)
  rw [e] at this
  exact this

/-- A loop whose body removes the first element in the first round and appends the element it is at in the second: it shows the
first and the (old) third element, and goes on to the appended one. -/
example : (Spec.loopFrom (α := Nat) 0 (· == ·)
    (fun shown => if shown.length = 1 then [.removeAt 0 0] else if shown.length = 2 then [.pushBack 0 (.elem 0 1)] else [])
    (fun i => if i = 0 then [5, 6, 7] else []) (fun i => if i = 0 then 4 else 0) (some 0) 0 [] 3).map (fun r => (r.1 0, r.2)) =
    .ok ([6, 7, 7], [5, 7, 7]) := by
  decide +kernel

/-- And in the model, for strings in memory; with `clear()` instead the second round is undefined behaviour. -/
example : (do
    let (w, _) ← run strTy World.init [.reserve 0 4, .pushRange 0 true false [5, 6, 7]]
    let (_, shown) ← loop strTy w 0
      (fun shown => if shown.length = 1 then [.removeAt 0 0] else if shown.length = 2 then [.pushBack 0 (.elem 0 1)] else [])
    .ok shown : R (List Nat)) = .ok [5, 7, 7] ∧
  (do
    let (w, _) ← run strTy World.init [.reserve 0 4, .pushRange 0 true false [5, 6, 7]]
    let (_, shown) ← loop strTy w 0 (fun _ => [.clear 0])
    .ok shown : R (List Nat)) = .error .ub := by
  decide +kernel

/-! ### the vector itself is left alone -/

theorem spec_step_other {dflt : α} {eqv : α → α → Bool} {s s' : Spec.Lists α} {op : Op α} {o : Obs α} {i : Nat}
    (hi : i ∉ op.targets) (c : Spec.Caps) (e : Spec.step dflt eqv s op = some (s', o)) :
    s' i = s i ∧ Spec.track s c op (some i) = some i ∧ Spec.capStep s c op i = c i := by
  have up : ∀ {j : Nat} {l : List α}, ¬ i = j → Spec.upd s j l i = s i := by
    intro j l h; simp [Spec.upd, h]
  have upc : ∀ {j : Nat} {n : Nat}, ¬ i = j → Spec.updc c j n i = c i := by
    intro j l h; simp [Spec.updc, h]
  cases op <;> simp only [Op.targets, List.mem_cons, List.not_mem_nil, or_false, not_or, not_false_eq_true] at hi
  case pushBack j a =>
    cases a with
    | val a =>
      simp only [Spec.step, Option.some.injEq, Prod.mk.injEq] at e
      simp only [← e.1, Spec.track, Spec.capStep, up hi, upc hi, if_true, and_self]
    | elem j' k =>
      simp only [Spec.step, Option.map_eq_some_iff, Prod.mk.injEq] at e
      obtain ⟨_, -, e, -⟩ := e
      simp only [← e, Spec.track, Spec.capStep, up hi, upc hi, if_true, and_self]
  case moveAssign a b =>
    simp only [Spec.step, Option.some.injEq, Prod.mk.injEq] at e
    have h1 : ¬ a = i := fun h => hi.1 h.symm
    have h2 : ¬ b = i := fun h => hi.2 h.symm
    simp only [← e.1, Spec.track, Spec.capStep, Spec.upd, Spec.updc, hi.1, hi.2, h1, h2, if_false, and_self]
  case assignNew a k =>
    have h1 : ¬ a = i := fun h => hi h.symm
    cases k <;> simp only [Spec.step, Option.some.injEq, Prod.mk.injEq] at e <;>
      simp only [← e.1, Spec.track, Spec.capStep, up hi, upc hi, h1, if_false, and_self]
  case removeFirstUnordered j p =>
    simp only [Spec.step] at e
    split at e <;> simp only [Option.some.injEq, Prod.mk.injEq] at e <;>
      simp only [← e.1, Spec.track, Spec.capStep, up hi, if_true, and_self]
  case removeRange j a b =>
    simp only [Spec.step] at e
    split at e
    · simp only [Option.some.injEq, Prod.mk.injEq] at e
      simp only [← e.1, Spec.track, Spec.capStep, if_true, and_self]
    · split at e
      · simp only [Option.some.injEq, Prod.mk.injEq] at e
        simp only [← e.1, Spec.track, Spec.capStep, up hi, if_true, and_self]
      · cases e
  all_goals
    first
    | (simp only [Spec.step, Option.some.injEq, Prod.mk.injEq] at e
       simp only [← e.1, Spec.track, Spec.capStep, up hi, upc hi, if_true, and_self])
    | (simp only [Spec.step, Option.some.injEq, Prod.mk.injEq] at e
       simp only [← e.1, Spec.track, Spec.capStep, up hi, if_true, and_self])
    | (simp only [Spec.step, Option.some.injEq, Prod.mk.injEq] at e
       simp only [← e.1, Spec.track, Spec.capStep, upc hi, if_true, and_self])
    | (simp only [Spec.step, Option.some.injEq, Prod.mk.injEq] at e
       simp only [← e.1, Spec.track, Spec.capStep, if_true, and_self])
    | (simp only [Spec.step, Option.map_eq_some_iff, Prod.mk.injEq] at e
       obtain ⟨_, -, e, -⟩ := e
       simp only [← e, Spec.track, Spec.capStep, up hi, if_true, and_self])
    | (simp only [Spec.step, Option.map_eq_some_iff, Prod.mk.injEq] at e
       obtain ⟨_, -, e, -⟩ := e
       simp only [← e, Spec.track, Spec.capStep, if_true, and_self])
    | (simp only [Spec.step] at e
       split at e
       · simp only [Option.some.injEq, Prod.mk.injEq] at e
         simp only [← e.1, Spec.track, Spec.capStep, up hi, upc hi, if_true, and_self]
       · cases e)
    | (simp only [Spec.step] at e
       split at e
       · simp only [Option.some.injEq, Prod.mk.injEq] at e
         simp only [← e.1, Spec.track, Spec.capStep, up hi, if_true, and_self]
       · cases e)

theorem spec_run_other {dflt : α} {eqv : α → α → Bool} {i : Nat} (ops : List (Op α)) : ∀ {s s' : Spec.Lists α} {os : List (Obs α)}
    {c : Spec.Caps}, (∀ op ∈ ops, i ∉ op.targets) → Spec.run dflt eqv s ops = some (s', os) →
    s' i = s i ∧ Spec.trackRun dflt eqv s c (some i) ops = some i := by
  induction ops with
  | nil =>
    intro s s' os c _ e
    simp only [Spec.run, Option.some.injEq, Prod.mk.injEq] at e
    rw [← e.1]
    exact ⟨rfl, rfl⟩
  | cons op ops ih =>
    intro s s' os c hi e
    cases hs : Spec.step dflt eqv s op with
    | none => simp only [Spec.run, hs, Option.bind_eq_bind, Option.bind_none] at e; cases e
    | some q =>
      obtain ⟨s1, o⟩ := q
      simp only [Spec.run, hs, Option.bind_eq_bind, Option.bind_some] at e
      cases hs2 : Spec.run dflt eqv s1 ops with
      | none => rw [hs2] at e; cases e
      | some q2 =>
        obtain ⟨s2, o2⟩ := q2
        rw [hs2] at e
        simp only [Option.bind_some, Option.some.injEq, Prod.mk.injEq] at e
        obtain ⟨h1, h2, -⟩ := spec_step_other (hi op (by simp)) c hs
        obtain ⟨h3, h4⟩ := ih (c := Spec.capStep s c op) (fun op h => hi op (by simp [h])) hs2
        refine ⟨by rw [← e.1, h3, h1], ?_⟩
        simp only [Spec.trackRun, hs, h2]
        exact h4

theorem spec_loop_other {dflt : α} {eqv : α → α → Bool} {i : Nat} {body : Body α} (hb : ∀ shown, ∀ op ∈ body shown, i ∉ op.targets)
    (n : Nat) : ∀ {s : Spec.Lists α} {c : Spec.Caps} {k : Nat} {shown : List α}, k + n = (s i).length →
    shown = (s i).take k →
    Spec.loopFrom dflt eqv body s c (some i) k shown n = .error .assert ∨
    ∃ s', Spec.loopFrom dflt eqv body s c (some i) k shown n = .ok (s', s i) ∧ s' i = s i := by
  induction n with
  | zero =>
    intro s c k shown hk hs
    right
    refine ⟨s, ?_, rfl⟩
    unfold Spec.loopFrom
    rw [hs, List.take_of_length_le (by omega)]
  | succ n ih =>
    intro s c k shown hk hs
    unfold Spec.loopFrom
    have hlt : k < (s i).length := by omega
    simp only [List.getElem?_eq_getElem hlt]
    cases hr : Spec.run dflt eqv s (body (shown ++ [(s i)[k]])) with
    | none => exact .inl rfl
    | some q =>
      obtain ⟨s', os⟩ := q
      obtain ⟨h1, h2⟩ := spec_run_other (c := c) _ (hb _) hr
      simp only [h2]
      have := ih (s := s') (c := Spec.capRun dflt eqv s c (body (shown ++ [(s i)[k]]))) (k := k + 1)
        (shown := shown ++ [(s i)[k]]) (by rw [h1]; omega) (by rw [h1, hs, List.take_succ_eq_append_getElem hlt])
      rw [h1] at this
      exact this

/-- **C134.** If the body calls nothing that changes the vector of the loop (calls on other vectors, that read or copy it, are
fine), the loop shows exactly its elements in order, unless a call of the body is out of contract. -/
theorem C134_body_elsewhere (T : Ty α) (ht : T.triv = false) (ops : List (Op α))
    (hr : Spec.InRange T.dflt T.eqv (fun _ => []) ops) {w : World α} {os : List (Obs α)}
    (h : run T World.init ops = .ok (w, os)) (i : Nat) (body : Body α) (hb : ∀ shown, ∀ op ∈ body shown, i ∉ op.targets) :
    ∃ s, Spec.run T.dflt T.eqv (fun _ => []) ops = some (s, os) ∧
      (Spec.LoopInRange T.dflt T.eqv body s (some i) (Spec.capRun T.dflt T.eqv (fun _ => []) (fun _ => 0) ops) 0 [] (s i).length →
       loop T w i body = .error .assert ∨ ∃ w', loop T w i body = .ok (w', s i) ∧
        ∀ k a, (s i)[k]? = some a → at_ w'.heap (w'.vecs i) k = .ok a) := by
  obtain ⟨s, g, hm⟩ := C134_loop T ht ops hr h i body
  refine ⟨s, g, fun hl => ?_⟩
  have hm := hm hl
  rcases spec_loop_other (dflt := T.dflt) (eqv := T.eqv) (c := Spec.capRun T.dflt T.eqv (fun _ => []) (fun _ => 0) ops) hb
    (s i).length (s := s) (k := 0) (shown := []) (by omega) rfl with e | ⟨s', e, es⟩
  · rw [e] at hm; exact .inl hm
  · rw [e] at hm
    obtain ⟨w', e', hh⟩ := hm
    refine .inr ⟨w', e', ?_⟩
    rw [← es]
    exact (hh i).2

/-- Copying the elements of vector 0 into vector 1, backwards. -/
example : (do
    let (w, _) ← run strTy World.init [.pushRange 0 true false [5, 6, 7]]
    let (w, shown) ← loop strTy w 0 (fun shown => [.insertRange 1 0 [shown.getLast?.getD 0]])
    .ok (shown, at_ w.heap (w.vecs 1) 0, (w.vecs 1).size) : R (List Nat × R Nat × Nat)) = .ok ([5, 6, 7], .ok 7, 3) := by
  decide +kernel

/-! ### appending what is already there -/

/-- `for (auto const& x : v) v.push_back(x)`. -/
def selfAppend (i : Nat) : Body α := fun shown => [.pushBack i (.elem i (shown.length - 1))]

theorem selfAppend_inRange {dflt : α} {eqv : α → α → Bool} {i : Nat} (n : Nat) : ∀ {s : Spec.Lists α} {t : Option Nat} {c : Spec.Caps}
    {k : Nat} {shown : List α}, Spec.LoopInRange dflt eqv (selfAppend i) s t c k shown n := by
  induction n with
  | zero => intro s t c k shown; trivial
  | succ n ih =>
    intro s t c k shown j a _ _
    refine ⟨⟨by simp [Spec.demand], (by intro _ _ _ h; cases h), fun _ _ _ => trivial⟩, fun _ _ _ => ih⟩

theorem selfAppend_spec {dflt : α} {eqv : α → α → Bool} {i : Nat} (n : Nat) : ∀ {s : Spec.Lists α} {c : Spec.Caps} {k : Nat}
    {shown l : List α}, k + n = l.length → s i = l ++ l.take k → shown = l.take k → (s i).length ≤ c i →
    if 2 * l.length ≤ c i + 1 then
      ∃ s', Spec.loopFrom dflt eqv (selfAppend i) s c (some i) k shown n = .ok (s', l) ∧ s' i = l ++ l
    else Spec.loopFrom dflt eqv (selfAppend i) s c (some i) k shown n = .error .ub := by
  induction n with
  | zero =>
    intro s c k shown l hk hs hsh hc
    have hl : l.take k = l := List.take_of_length_le (by omega)
    rw [hs, List.length_append, hl] at hc
    rw [if_pos (by omega)]
    refine ⟨s, ?_, by rw [hs, hl]⟩
    unfold Spec.loopFrom
    rw [hsh, hl]
  | succ n ih =>
    intro s c k shown l hk hs hsh hc
    have hlt : k < l.length := by omega
    have hget : (s i)[k]? = some l[k] := by
      rw [hs, List.getElem?_append_left hlt, List.getElem?_eq_getElem hlt]
    have hlen : shown.length = k := by rw [hsh, List.length_take]; omega
    have hslen : (s i).length = l.length + k := by rw [hs, List.length_append, List.length_take]; omega
    unfold Spec.loopFrom
    simp only [hget]
    have hbody : selfAppend i (shown ++ [l[k]]) = [.pushBack i (.elem i k)] := by
      unfold selfAppend
      rw [List.length_append, hlen]
      rfl
    have hstep : Spec.step dflt eqv s (.pushBack i (.elem i k)) = some (Spec.upd s i (s i ++ [l[k]]), .none) := by
      simp only [Spec.step, hget, Option.map_some]
    have hrun : Spec.run dflt eqv s [.pushBack i (.elem i k)] = some (Spec.upd s i (s i ++ [l[k]]), [.none]) := by
      simp only [Spec.run, hstep, Option.bind_eq_bind, Option.bind_some]
    rw [hbody, hrun]
    have hself : ∀ m, Spec.updc c i m i = m := by intro m; simp [Spec.updc]
    have hcs : Spec.capStep s c (.pushBack i (.elem i k)) = Spec.updc c i (Spec.pushed (s i).length (c i)) := rfl
    have htr : Spec.track s c (.pushBack i (.elem i k)) (some i) =
        if Spec.pushed (s i).length (c i) = c i then some i else none := by
      simp only [Spec.track, hcs, hself]
    simp only [Spec.capRun, Spec.trackRun, hstep, htr, hcs]
    have hs' : Spec.upd s i (s i ++ [l[k]]) i = l ++ l.take (k + 1) := by
      simp only [Spec.upd, if_true]
      rw [hs, List.append_assoc, List.take_succ_eq_append_getElem hlt]
    have hsh' : shown ++ [l[k]] = l.take (k + 1) := by rw [hsh, List.take_succ_eq_append_getElem hlt]
    by_cases hfull : (s i).length = c i
    · -- the memory is exchanged in this round
      have hne : Spec.pushed (s i).length (c i) ≠ c i := by
        unfold Spec.pushed; rw [if_pos hfull]; omega
      rw [if_neg hne]
      cases n with
      | zero =>
        rw [if_pos (by omega)]
        refine ⟨Spec.upd s i (s i ++ [l[k]]), ?_, ?_⟩
        · unfold Spec.loopFrom
          rw [hsh', List.take_of_length_le (by omega)]
        · rw [hs', List.take_of_length_le (by omega)]
      | succ n =>
        rw [if_neg (by omega)]
        unfold Spec.loopFrom
        rfl
    · have heq : Spec.pushed (s i).length (c i) = c i := by
        unfold Spec.pushed; rw [if_neg hfull]
      rw [heq, if_pos rfl]
      have := ih (s := Spec.upd s i (s i ++ [l[k]])) (c := Spec.updc c i (c i)) (k := k + 1) (shown := shown ++ [l[k]])
        (l := l) (by omega) hs' hsh' (by
          rw [hself, hs', List.length_append, List.length_take]; omega)
      rw [hself] at this
      exact this

/-- **C134.** `for (auto const& x : v) v.push_back(x)` makes `v` twice as long if there was room for all but the last of the new elements
before the loop; otherwise it reads memory that has been given back. -/
theorem C134_self_append (T : Ty α) (ht : T.triv = false) (ops : List (Op α))
    (hr : Spec.InRange T.dflt T.eqv (fun _ => []) ops) {w : World α} {os : List (Obs α)}
    (h : run T World.init ops = .ok (w, os)) (i : Nat) :
    ∃ s, Spec.run T.dflt T.eqv (fun _ => []) ops = some (s, os) ∧
      (2 * (s i).length ≤ (w.vecs i).cap + 1 → ∃ w', loop T w i (selfAppend i) = .ok (w', s i) ∧
        (w'.vecs i).size = 2 * (s i).length ∧
        ∀ k a, (s i ++ s i)[k]? = some a → at_ w'.heap (w'.vecs i) k = .ok a) ∧
      ((w.vecs i).cap + 1 < 2 * (s i).length → loop T w i (selfAppend i) = .error .ub) := by
  obtain ⟨s, g, I, hc⟩ := reach hr h
  obtain ⟨s2, g2, hm⟩ := C134_loop T ht ops hr h i (selfAppend i)
  rw [g] at g2
  cases g2
  refine ⟨s, g, ?_⟩
  have hm := hm (selfAppend_inRange _)
  rw [← hc] at hm
  have hle := (I.owns i).size_le
  rw [(I.owns i).1] at hle
  have key := selfAppend_spec (dflt := T.dflt) (eqv := T.eqv) (i := i) (s i).length (s := s) (c := fun j => (w.vecs j).cap) (k := 0)
    (shown := []) (l := s i) (by omega) (by simp) rfl hle
  constructor
  · intro hcap
    rw [if_pos hcap] at key
    obtain ⟨s', e, es⟩ := key
    rw [e] at hm
    obtain ⟨w', e', hh⟩ := hm
    refine ⟨w', e', ?_, ?_⟩
    · rw [(hh i).1, es, List.length_append]; omega
    · rw [← es]; exact (hh i).2
  · intro hcap
    rw [if_neg (by omega)] at key
    rw [key] at hm
    exact hm

/-- Both cases happen. -/
example : (do
    let (w, _) ← run strTy World.init [.reserve 0 5, .pushRange 0 true false [5, 6, 7]]
    let (w, _) ← loop strTy w 0 (selfAppend 0)
    .ok ((w.vecs 0).size, at_ w.heap (w.vecs 0) 5) : R (Nat × R Nat)) = .ok (6, .ok 7) ∧
  (do
    let (w, _) ← run strTy World.init [.reserve 0 4, .pushRange 0 true false [5, 6, 7]]
    let (w, _) ← loop strTy w 0 (selfAppend 0)
    .ok ((w.vecs 0).size, at_ w.heap (w.vecs 0) 5) : R (Nat × R Nat)) = .error .ub := by
  decide +kernel

end Verif.Vector
