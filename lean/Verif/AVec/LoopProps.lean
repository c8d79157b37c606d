import Verif.AVec.Loop

/-! Property C146: a loop over an `alloc_vector` whose body changes vectors, the one it goes over among them. -/
namespace Verif.AVec
open Verif.Mem Verif.Vector

variable {α : Type}

/-- The state after a history, in terms of the specification. -/
theorem reach {T : Ty α} {ops : List (Op α)} (hr : Spec.InRange T.dflt T.eqv (fun _ => Spec.V.empty) ops) {w : World α}
    {os : List (Obs α)} (h : run T World.init ops = .ok (w, os)) :
    ∃ s, Spec.run T.dflt T.eqv (fun _ => Spec.V.empty) ops = some (s, os) ∧ Inv T w s ∧
      w.caps = Spec.capRun T.dflt T.eqv (fun _ => Spec.V.empty) (fun _ => 0) ops := by
  obtain ⟨s, g1, I, hc, -⟩ := track_run ops (a := 0) (p := none) (t := none) (Inv.init T) hr h (by intro b hb; cases hb)
  exact ⟨s, g1, I, funext hc⟩

/-- **C146.** After any history, a loop over vector `i` does what the specification says, whatever its body calls, on vectors
with whatever allocators: the rounds are counted before the loop; every round shows the element at its position at that time; the
loop is undefined behaviour exactly if a round comes to a position that is no more, or after the memory has been given back. -/
theorem C146_loop (T : Ty α) (ht : T.triv = false) (ops : List (Op α))
    (hr : Spec.InRange T.dflt T.eqv (fun _ => Spec.V.empty) ops)
    {w : World α} {os : List (Obs α)} (h : run T World.init ops = .ok (w, os)) (i : Nat) (body : Body α) :
    ∃ s, Spec.run T.dflt T.eqv (fun _ => Spec.V.empty) ops = some (s, os) ∧
      (Spec.LoopInRange T.dflt T.eqv body s (some i)
          (Spec.capRun T.dflt T.eqv (fun _ => Spec.V.empty) (fun _ => 0) ops) 0 [] (s i).l.length →
       Match (loop T w i body) (Spec.loopFrom T.dflt T.eqv body s
        (Spec.capRun T.dflt T.eqv (fun _ => Spec.V.empty) (fun _ => 0) ops) (some i) 0 [] (s i).l.length)) := by
  obtain ⟨s, g1, I, hc⟩ := reach hr h
  refine ⟨s, g1, ?_⟩
  rw [← hc]
  intro hl
  unfold loop
  rw [(I.owns i).1]
  exact loopFrom_ok _ I ⟨rfl, rfl⟩ hl (.inl ht)

/-- **C146.** The same for trivially copyable elements, where memory behind the last element can be read: whenever the
specification lets the loop come to its end, it does so with these elements. -/
theorem C146_loop_trivial (T : Ty α) (ops : List (Op α)) (hr : Spec.InRange T.dflt T.eqv (fun _ => Spec.V.empty) ops)
    {w : World α} {os : List (Obs α)} (h : run T World.init ops = .ok (w, os)) (i : Nat) (body : Body α) :
    ∃ s, Spec.run T.dflt T.eqv (fun _ => Spec.V.empty) ops = some (s, os) ∧ ∀ s' shown,
      Spec.LoopInRange T.dflt T.eqv body s (some i)
        (Spec.capRun T.dflt T.eqv (fun _ => Spec.V.empty) (fun _ => 0) ops) 0 [] (s i).l.length →
      Spec.loopFrom T.dflt T.eqv body s (Spec.capRun T.dflt T.eqv (fun _ => Spec.V.empty) (fun _ => 0) ops) (some i) 0 []
        (s i).l.length = .ok (s', shown) →
      ∃ w', loop T w i body = .ok (w', shown) ∧ Holds w' s' := by
  obtain ⟨s, g1, I, hc⟩ := reach hr h
  refine ⟨s, g1, ?_⟩
  rw [← hc]
  intro s' shown hl e
  unfold loop
  rw [(I.owns i).1]
  have := loopFrom_ok (T := T) (h := (w.vecs i).al) (p := (w.vecs i).v.data) (t := some i) _ I ⟨rfl, rfl⟩ hl (.inr ⟨_, e⟩)
  rw [e] at this
  exact this

/-- Three elements with allocator 1 in memory for four. -/
def loopDemoOps : List (Op Nat) := [.resetReserve 0 (some 1) 4, .call 0 (.pushRange true false [5, 6, 7])]

/-- The elements a loop over vector 0 shows. -/
def loopDemo (body : Body Nat) : R (List Nat) := do
  let (w, _) ← run strTy World.init loopDemoOps
  let (_, shown) ← loop strTy w 0 body
  .ok shown

/-- The body moves the vector to variable 3 and removes an element there, then appends one: the loop goes on in variable 3. If
the body clears the vector, or resets it to another allocator and fills it again, the second round is undefined behaviour. -/
example : loopDemo (fun shown => if shown.length = 1 then [.moveAssign 3 0, .call 3 (.removeAt 0)]
      else if shown.length = 2 then [.pushElem 3 3 1] else []) = .ok [5, 7, 7] ∧
    loopDemo (fun _ => [.call 0 .clear]) = .error .ub ∧
    loopDemo (fun _ => [.resetReserve 0 (some 2) 4, .call 0 (.pushRange true false [5, 6, 7])]) = .error .ub := by
  decide +kernel

/-- The same in the specification. -/
example : (Spec.loopFrom (α := Nat) 0 (· == ·)
    (fun shown => if shown.length = 1 then [.moveAssign 3 0, .call 3 (.removeAt 0)]
      else if shown.length = 2 then [.pushElem 3 3 1] else [])
    (fun i => if i = 0 then ⟨1, [5, 6, 7]⟩ else Spec.V.empty) (fun i => if i = 0 then 4 else 0) (some 0) 0 [] 3).map
      (fun r => ((r.1 3).al, (r.1 3).l, r.2)) = .ok (1, [6, 7, 7], [5, 7, 7]) := by
  decide +kernel

/-- The history is within the limits. -/
example : Spec.InRange strTy.dflt strTy.eqv (fun _ => Spec.V.empty) loopDemoOps := inRangeB_sound _ (by decide +kernel)

/-! ### the vector itself is left alone -/

theorem spec_step_other {dflt : α} {eqv : α → α → Bool} {s s' : Spec.State α} {op : Op α} {o : Obs α} {i : Nat}
    (hi : i ∉ op.targets) (c : Vector.Spec.Caps) (e : Spec.step dflt eqv s op = some (s', o)) :
    s' i = s i ∧ Spec.track s c op (some i) = some i := by
  have up : ∀ {s : Spec.State α} {j : Nat} {l : Spec.V α}, ¬ i = j → Spec.upd s j l i = s i := by
    intro s j l h; simp [Spec.upd, h]
  have upc : ∀ {c : Vector.Spec.Caps} {j : Nat} {n : Nat}, ¬ i = j → Vector.Spec.updc c j n i = c i := by
    intro c j l h; simp [Vector.Spec.updc, h]
  cases op <;> simp only [Op.targets, List.mem_cons, List.not_mem_nil, or_false, not_or, not_false_eq_true] at hi
  case call j k =>
    simp only [Spec.step, Option.map_eq_some_iff, Prod.mk.injEq] at e
    obtain ⟨_, -, e, -⟩ := e
    simp only [← e, Spec.track, Spec.capStep, up hi, upc hi, if_true, and_self]
  case pushElem j j' k =>
    simp only [Spec.step, Option.map_eq_some_iff, Prod.mk.injEq] at e
    obtain ⟨_, -, e, -⟩ := e
    simp only [← e, Spec.track, Spec.capStep, up hi, upc hi, if_true, and_self]
  case eq =>
    simp only [Spec.step, Option.some.injEq, Prod.mk.injEq] at e
    simp only [← e.1, Spec.track, Spec.capStep, if_true, and_self]
  case allocator =>
    simp only [Spec.step, Option.some.injEq, Prod.mk.injEq] at e
    simp only [← e.1, Spec.track, Spec.capStep, if_true, and_self]
  case moveAssign a b =>
    simp only [Spec.step, Option.some.injEq, Prod.mk.injEq] at e
    have h1 : ¬ a = i := fun h => hi.1 h.symm
    have h2 : ¬ b = i := fun h => hi.2 h.symm
    simp only [← e.1, Spec.track, up hi.1, up hi.2, h1, h2, if_false, and_self]
  case moveCtor a b =>
    simp only [Spec.step, Option.some.injEq, Prod.mk.injEq] at e
    have h1 : ¬ a = i := fun h => hi.1 h.symm
    have h2 : ¬ b = i := fun h => hi.2 h.symm
    simp only [← e.1, Spec.track, up hi.1, up hi.2, h1, h2, if_false, ite_self, and_self]
  case assignNew a k ct =>
    have h1 : ¬ a = i := fun h => hi h.symm
    simp only [Spec.step, Option.map_eq_some_iff, Prod.mk.injEq] at e
    obtain ⟨_, -, e, -⟩ := e
    simp only [← e, Spec.track, up hi, h1, if_false, and_self]
  case resetReserve a k n =>
    have h1 : ¬ a = i := fun h => hi h.symm
    simp only [Spec.step, Option.map_eq_some_iff, Prod.mk.injEq] at e
    obtain ⟨_, -, e, -⟩ := e
    simp only [← e, Spec.track, up hi, h1, if_false, and_self]

theorem spec_run_other {dflt : α} {eqv : α → α → Bool} {i : Nat} (ops : List (Op α)) : ∀ {s s' : Spec.State α} {os : List (Obs α)}
    {c : Vector.Spec.Caps}, (∀ op ∈ ops, i ∉ op.targets) → Spec.run dflt eqv s ops = some (s', os) →
    s' i = s i ∧ Spec.trackRun dflt eqv s c (some i) ops = some i := by
  induction ops with
  | nil =>
    intro s s' os c _ e
    simp only [Spec.run, Option.some.injEq, Prod.mk.injEq] at e
    rw [← e.1]
    exact ⟨rfl, rfl⟩
  | cons op ops ih =>
    intro s s' os c hi e
    cases hs : Spec.step dflt eqv s op with
    | none => simp only [Spec.run, hs, Option.bind_eq_bind, Option.bind_none] at e; cases e
    | some q =>
      obtain ⟨s1, o⟩ := q
      simp only [Spec.run, hs, Option.bind_eq_bind, Option.bind_some] at e
      cases hs2 : Spec.run dflt eqv s1 ops with
      | none => rw [hs2] at e; cases e
      | some q2 =>
        obtain ⟨s2, o2⟩ := q2
        rw [hs2] at e
        simp only [Option.bind_some, Option.some.injEq, Prod.mk.injEq] at e
        obtain ⟨h1, h2⟩ := spec_step_other (hi op (by simp)) c hs
        obtain ⟨h3, h4⟩ := ih (c := Spec.capStep s c op) (fun op h => hi op (by simp [h])) hs2
        refine ⟨by rw [← e.1, h3, h1], ?_⟩
        simp only [Spec.trackRun, hs, h2]
        exact h4

theorem spec_loop_other {dflt : α} {eqv : α → α → Bool} {i : Nat} {body : Body α} (hb : ∀ shown, ∀ op ∈ body shown, i ∉ op.targets)
    (n : Nat) : ∀ {s : Spec.State α} {c : Vector.Spec.Caps} {k : Nat} {shown : List α}, k + n = (s i).l.length →
    shown = (s i).l.take k →
    Spec.loopFrom dflt eqv body s c (some i) k shown n = .error .assert ∨
    ∃ s', Spec.loopFrom dflt eqv body s c (some i) k shown n = .ok (s', (s i).l) ∧ s' i = s i := by
  induction n with
  | zero =>
    intro s c k shown hk hs
    right
    refine ⟨s, ?_, rfl⟩
    unfold Spec.loopFrom
    rw [hs, List.take_of_length_le (by omega)]
  | succ n ih =>
    intro s c k shown hk hs
    unfold Spec.loopFrom
    have hlt : k < (s i).l.length := by omega
    simp only [List.getElem?_eq_getElem hlt]
    cases hr : Spec.run dflt eqv s (body (shown ++ [(s i).l[k]])) with
    | none => exact .inl rfl
    | some q =>
      obtain ⟨s', os⟩ := q
      obtain ⟨h1, h2⟩ := spec_run_other (c := c) _ (hb _) hr
      simp only [h2]
      have := ih (s := s') (c := Spec.capRun dflt eqv s c (body (shown ++ [(s i).l[k]]))) (k := k + 1)
        (shown := shown ++ [(s i).l[k]]) (by rw [h1]; omega) (by rw [h1, hs, List.take_succ_eq_append_getElem hlt])
      rw [h1] at this
      exact this

/-- **C146.** If the body calls nothing that changes the vector of the loop (calls on other vectors, that read or copy it, are
fine, also if they use the same allocator), the loop shows exactly its elements in order, unless a call of the body is out of
contract, and the vector has its elements and its allocator afterwards. -/
theorem C146_body_elsewhere (T : Ty α) (ht : T.triv = false) (ops : List (Op α))
    (hr : Spec.InRange T.dflt T.eqv (fun _ => Spec.V.empty) ops) {w : World α} {os : List (Obs α)}
    (h : run T World.init ops = .ok (w, os)) (i : Nat) (body : Body α) (hb : ∀ shown, ∀ op ∈ body shown, i ∉ op.targets) :
    ∃ s, Spec.run T.dflt T.eqv (fun _ => Spec.V.empty) ops = some (s, os) ∧
      (Spec.LoopInRange T.dflt T.eqv body s (some i)
          (Spec.capRun T.dflt T.eqv (fun _ => Spec.V.empty) (fun _ => 0) ops) 0 [] (s i).l.length →
       loop T w i body = .error .assert ∨ ∃ w', loop T w i body = .ok (w', (s i).l) ∧ (w'.vecs i).al = (s i).al ∧
        (w'.vecs i).v.size = (s i).l.length ∧
        ∀ k a, (s i).l[k]? = some a → at_ (w'.heaps (w'.vecs i).al) (w'.vecs i).v k = .ok a) := by
  obtain ⟨s, g, hm⟩ := C146_loop T ht ops hr h i body
  refine ⟨s, g, fun hl => ?_⟩
  have hm := hm hl
  rcases spec_loop_other (dflt := T.dflt) (eqv := T.eqv)
    (c := Spec.capRun T.dflt T.eqv (fun _ => Spec.V.empty) (fun _ => 0) ops) hb
    (s i).l.length (s := s) (k := 0) (shown := []) (by omega) rfl with e | ⟨s', e, es⟩
  · rw [e] at hm; exact .inl hm
  · rw [e] at hm
    obtain ⟨w', e', hh⟩ := hm
    refine .inr ⟨w', e', ?_⟩
    rw [← es]
    exact hh i

/-- Copying the elements of vector 0 into vector 1 with another allocator, backwards. -/
example : (do
    let (w, _) ← run strTy World.init loopDemoOps
    let (w, shown) ← loop strTy w 0 (fun shown => [.call 1 (.insertRange 0 [shown.getLast?.getD 0])])
    .ok (shown, at_ (w.heaps 0) (w.vecs 1).v 0, (w.vecs 1).v.size) : R (List Nat × R Nat × Nat)) = .ok ([5, 6, 7], .ok 7, 3) := by
  decide +kernel

/-! ### appending what is already there -/

/-- `for (auto const& x : v) v.push_back(x)`. -/
def selfAppend (i : Nat) : Body α := fun shown => [.pushElem i i (shown.length - 1)]

theorem selfAppend_inRange {dflt : α} {eqv : α → α → Bool} {i : Nat} (n : Nat) : ∀ {s : Spec.State α} {t : Option Nat}
    {c : Vector.Spec.Caps} {k : Nat} {shown : List α}, Spec.LoopInRange dflt eqv (selfAppend i) s t c k shown n := by
  induction n with
  | zero => intro s t c k shown; trivial
  | succ n ih =>
    intro s t c k shown j a _ _
    refine ⟨⟨by simp [Spec.demand], (by intro _ _ _ h; cases h), fun _ _ _ => trivial⟩, fun _ _ _ => ih⟩

theorem selfAppend_spec {dflt : α} {eqv : α → α → Bool} {i : Nat} (n : Nat) : ∀ {s : Spec.State α} {c : Vector.Spec.Caps} {k : Nat}
    {shown l : List α} {m : Nat}, k + n = l.length → s i = ⟨m, l ++ l.take k⟩ → shown = l.take k → (s i).l.length ≤ c i →
    if 2 * l.length ≤ c i + 1 then
      ∃ s', Spec.loopFrom dflt eqv (selfAppend i) s c (some i) k shown n = .ok (s', l) ∧ s' i = ⟨m, l ++ l⟩
    else Spec.loopFrom dflt eqv (selfAppend i) s c (some i) k shown n = .error .ub := by
  induction n with
  | zero =>
    intro s c k shown l m hk hs hsh hc
    have hl : l.take k = l := List.take_of_length_le (by omega)
    rw [hs, List.length_append, hl] at hc
    rw [if_pos (by omega)]
    refine ⟨s, ?_, by rw [hs, hl]⟩
    unfold Spec.loopFrom
    rw [hsh, hl]
  | succ n ih =>
    intro s c k shown l m hk hs hsh hc
    have hlt : k < l.length := by omega
    have hget : (s i).l[k]? = some l[k] := by
      rw [hs, List.getElem?_append_left hlt, List.getElem?_eq_getElem hlt]
    have hlen : shown.length = k := by rw [hsh, List.length_take]; omega
    have hslen : (s i).l.length = l.length + k := by rw [hs, List.length_append, List.length_take]; omega
    unfold Spec.loopFrom
    simp only [hget]
    have hbody : selfAppend i (shown ++ [l[k]]) = [.pushElem i i k] := by
      unfold selfAppend
      rw [List.length_append, hlen]
      rfl
    have hstep : Spec.step dflt eqv s (.pushElem i i k) = some (Spec.upd s i ⟨(s i).al, (s i).l ++ [l[k]]⟩, .none) := by
      simp only [Spec.step, hget, Option.map_some]
    have hrun : Spec.run dflt eqv s [.pushElem i i k] = some (Spec.upd s i ⟨(s i).al, (s i).l ++ [l[k]]⟩, [.none]) := by
      simp only [Spec.run, hstep, Option.bind_eq_bind, Option.bind_some]
    rw [hbody, hrun]
    have hself : ∀ m, Vector.Spec.updc c i m i = m := by intro m; simp [Vector.Spec.updc]
    have hcs : Spec.capStep s c (.pushElem i i k) = Vector.Spec.updc c i (Vector.Spec.pushed (s i).l.length (c i)) := rfl
    have htr : Spec.track s c (.pushElem i i k) (some i) =
        if Vector.Spec.pushed (s i).l.length (c i) = c i then some i else none := by
      simp only [Spec.track, hcs, hself]
    simp only [Spec.capRun, Spec.trackRun, hstep, htr, hcs]
    have hs' : Spec.upd s i ⟨(s i).al, (s i).l ++ [l[k]]⟩ i = ⟨m, l ++ l.take (k + 1)⟩ := by
      simp only [Spec.upd, if_true]
      rw [hs, List.append_assoc, List.take_succ_eq_append_getElem hlt]
    have hsh' : shown ++ [l[k]] = l.take (k + 1) := by rw [hsh, List.take_succ_eq_append_getElem hlt]
    by_cases hfull : (s i).l.length = c i
    · -- the memory is exchanged in this round
      have hne : Vector.Spec.pushed (s i).l.length (c i) ≠ c i := by
        unfold Vector.Spec.pushed; rw [if_pos hfull]; omega
      rw [if_neg hne]
      cases n with
      | zero =>
        rw [if_pos (by omega)]
        refine ⟨Spec.upd s i ⟨(s i).al, (s i).l ++ [l[k]]⟩, ?_, ?_⟩
        · unfold Spec.loopFrom
          rw [hsh', List.take_of_length_le (by omega)]
        · rw [hs', List.take_of_length_le (by omega)]
      | succ n =>
        rw [if_neg (by omega)]
        unfold Spec.loopFrom
        rfl
    · have heq : Vector.Spec.pushed (s i).l.length (c i) = c i := by
        unfold Vector.Spec.pushed; rw [if_neg hfull]
      rw [heq, if_pos rfl]
      have := ih (s := Spec.upd s i ⟨(s i).al, (s i).l ++ [l[k]]⟩) (c := Vector.Spec.updc c i (c i)) (k := k + 1)
        (shown := shown ++ [l[k]]) (l := l) (by omega) hs' hsh' (by
          rw [hself, hs', List.length_append, List.length_take]; omega)
      rw [hself] at this
      exact this

/-- **C146.** `for (auto const& x : v) v.push_back(x)` makes `v` twice as long, with the allocator it had, if there was room for all
but the last of the new elements before the loop; otherwise it reads memory that has been given back. -/
theorem C146_self_append (T : Ty α) (ht : T.triv = false) (ops : List (Op α))
    (hr : Spec.InRange T.dflt T.eqv (fun _ => Spec.V.empty) ops) {w : World α} {os : List (Obs α)}
    (h : run T World.init ops = .ok (w, os)) (i : Nat) :
    ∃ s, Spec.run T.dflt T.eqv (fun _ => Spec.V.empty) ops = some (s, os) ∧
      (2 * (s i).l.length ≤ (w.vecs i).v.cap + 1 → ∃ w', loop T w i (selfAppend i) = .ok (w', (s i).l) ∧
        (w'.vecs i).al = (w.vecs i).al ∧ (w'.vecs i).v.size = 2 * (s i).l.length ∧
        ∀ k a, ((s i).l ++ (s i).l)[k]? = some a → at_ (w'.heaps (w.vecs i).al) (w'.vecs i).v k = .ok a) ∧
      ((w.vecs i).v.cap + 1 < 2 * (s i).l.length → loop T w i (selfAppend i) = .error .ub) := by
  obtain ⟨s, g, I, hc⟩ := reach hr h
  obtain ⟨s2, g2, hm⟩ := C146_loop T ht ops hr h i (selfAppend i)
  rw [g] at g2
  cases g2
  refine ⟨s, g, ?_⟩
  have hm := hm (selfAppend_inRange _)
  rw [← hc] at hm
  have hle := (I.owns i).size_le
  rw [(I.owns i).1] at hle
  have key := selfAppend_spec (dflt := T.dflt) (eqv := T.eqv) (i := i) (s i).l.length (s := s) (c := w.caps) (k := 0)
    (shown := []) (l := (s i).l) (m := (s i).al) (by omega) (by simp) rfl hle
  constructor
  · intro hcap
    rw [if_pos (show 2 * (s i).l.length ≤ w.caps i + 1 from hcap)] at key
    obtain ⟨s', e, es⟩ := key
    rw [e] at hm
    obtain ⟨w', e', hh⟩ := hm
    obtain ⟨h1, h2, h3⟩ := hh i
    have hal : (w'.vecs i).al = (w.vecs i).al := by rw [h1, es, I.al i]
    refine ⟨w', e', hal, ?_, ?_⟩
    · rw [h2, es, List.length_append]; omega
    · rw [es, hal] at h3; exact h3
  · intro hcap
    rw [if_neg (show ¬ 2 * (s i).l.length ≤ w.caps i + 1 from Nat.not_le.2 hcap)] at key
    rw [key] at hm
    exact hm

/-- Both cases happen. -/
example : (do
    let (w, _) ← run strTy World.init [.resetReserve 0 (some 1) 5, .call 0 (.pushRange true false [5, 6, 7])]
    let (w, _) ← loop strTy w 0 (selfAppend 0)
    .ok ((w.vecs 0).v.size, at_ (w.heaps 1) (w.vecs 0).v 5) : R (Nat × R Nat)) = .ok (6, .ok 7) ∧
  (do
    let (w, _) ← run strTy World.init loopDemoOps
    let (w, _) ← loop strTy w 0 (selfAppend 0)
    .ok ((w.vecs 0).v.size, at_ (w.heaps 1) (w.vecs 0).v 5) : R (Nat × R Nat)) = .error .ub := by
  decide +kernel

end Verif.AVec
