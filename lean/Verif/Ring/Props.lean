import Verif.Ring.Lemmas

/-!
Property theorems for `cc::ringbuffer`: C21.

`run triv World.init ops` is a program that makes the calls `ops` on its ringbuffer variables; `Spec.run Spec.init ops` is the
same program on lists.
-/
namespace Verif.Ring
open Verif.Mem

variable {α : Type}

/-- The state of a program agrees with the abstract one, after at most `n` calls. -/
structure Inv (triv : Bool) (n : Nat) (w : World α) (s : Spec.Lists α) : Prop where
  rel : ∀ i, Rel triv (w.rings i) (s i)
  len : ∀ i, (s i).elems.length ≤ n
  cap : ∀ i, (s i).cap ≤ 2 * n + 3
  leaked : w.leaked = 0

theorem Inv.init (triv : Bool) : Inv triv 0 (World.init : World α) Spec.init where
  rel := fun _ => Rel.empty triv
  len := by simp [Spec.init]
  cap := by simp [Spec.init]
  leaked := rfl

theorem Inv.put {triv : Bool} {n : Nat} {w : World α} {s : Spec.Lists α} (I : Inv triv n w s) {i : Nat} {r : Ring α}
    {q : Spec.Q α} (h : Rel triv r q) (hl : q.elems.length ≤ n + 1) (hc : q.cap ≤ 2 * n + 5) :
    Inv triv (n + 1) (w.put i r 0) (Spec.upd s i q) where
  rel := by
    intro j
    simp only [World.put, Spec.upd]
    split
    · exact h
    · exact I.rel j
  len := by
    intro j
    simp only [Spec.upd]
    split
    · exact hl
    · have := I.len j; omega
  cap := by
    intro j
    simp only [Spec.upd]
    split
    · omega
    · have := I.cap j; omega
  leaked := by simp [World.put, I.leaked]

theorem Inv.mono {triv : Bool} {n : Nat} {w : World α} {s : Spec.Lists α} (I : Inv triv n w s) : Inv triv (n + 1) w s where
  rel := I.rel
  len := fun j => by have := I.len j; omega
  cap := fun j => by have := I.cap j; omega
  leaked := I.leaked

theorem capAfterPush_le {q : Spec.Q α} {n : Nat} (hl : q.elems.length ≤ n) (hc : q.cap ≤ 2 * n + 3) :
    Spec.capAfterPush q ≤ 2 * n + 5 := by
  unfold Spec.capAfterPush
  split
  · omega
  · split <;> omega

/-- One call. -/
def StepOK (triv : Bool) (n : Nat) (w : World α) (op : Op α) : Option (Spec.Lists α × Obs α) → Prop
  | none => step triv w op = .error .assert
  | some (s, o) => ∃ w', step triv w op = .ok (w', o) ∧ Inv triv (n + 1) w' s

theorem push_ok {triv : Bool} {n : Nat} {w : World α} {s : Spec.Lists α} (I : Inv triv n w s) (i : Nat) (p : PushArg α)
    {f : Ring α → Arg α → R (Ring α × Nat)} {g : α → Spec.Q α}
    (hf : ∀ arg a, evalArg (w.rings i).data arg = .ok a → ∃ r', f (w.rings i) arg = .ok (r', 0) ∧ Rel triv r' (g a))
    (hl : ∀ a, (g a).elems.length ≤ n + 1) (hc : ∀ a, (g a).cap ≤ 2 * n + 5) :
    match (Spec.argVal (s i).elems p).map fun a => (Spec.upd s i (g a), (Obs.none : Obs α)) with
    | none => w.push i p f = .error .assert
    | some (s, o) => ∃ w', w.push i p f = .ok (w', o) ∧ Inv triv (n + 1) w' s := by
  have h := pushArg_ok (I.rel i) p
  unfold World.push
  cases ha : Spec.argVal (s i).elems p with
  | none => rw [ha] at h; simp only at h; simp only [Option.map_none]; rw [h]; rfl
  | some a =>
    rw [ha] at h
    obtain ⟨arg, e, ev⟩ := h
    obtain ⟨r', e', hr⟩ := hf arg a ev
    simp only [Option.map_some]
    rw [e]
    simp only [R.ok_bind]
    rw [e']
    exact ⟨_, rfl, I.put hr (hl a) (hc a)⟩

theorem step_ok {triv : Bool} {n : Nat} {w : World α} {s : Spec.Lists α} (I : Inv triv n w s) (hn : n < 2 ^ 60) (op : Op α) :
    StepOK triv n w op (Spec.step s op) := by
  have hlim : ∀ i, (s i).cap < 2 ^ 62 := by intro i; have := I.cap i; omega
  cases op with
  | pushBack i p =>
    exact push_ok I i p (g := fun a => ⟨(s i).elems ++ [a], Spec.capAfterPush (s i)⟩)
      (fun arg a ha => emplaceBack_ok (I.rel i) (hlim i) ha) (by intro a; have := I.len i; simp; omega)
      (fun _ => capAfterPush_le (I.len i) (I.cap i))
  | pushFront i p =>
    exact push_ok I i p (g := fun a => ⟨a :: (s i).elems, Spec.capAfterPush (s i)⟩)
      (fun arg a ha => emplaceFront_ok (I.rel i) (hlim i) ha) (by intro a; have := I.len i; simp; omega)
      (fun _ => capAfterPush_le (I.len i) (I.cap i))
  | pushBackStable i p =>
    simp only [Spec.step]
    split
    · rename_i hlt
      exact push_ok I i p (g := fun a => ⟨(s i).elems ++ [a], (s i).cap⟩)
        (fun arg a ha => emplaceBackStable_ok (I.rel i) hlt ha) (by intro a; have := I.len i; simp; omega)
        (fun _ => by have := I.cap i; simp; omega)
    · rename_i hlt
      simp only [StepOK, step, World.push]
      have h := pushArg_ok (I.rel i) p
      cases ha : Spec.argVal (s i).elems p with
      | none => rw [ha] at h; simp only at h; rw [h]; rfl
      | some a =>
        rw [ha] at h
        obtain ⟨arg, e, ev⟩ := h
        rw [e]
        simp only [R.ok_bind]
        rw [(stable_bad (I.rel i) hlt arg).1]; rfl
  | pushFrontStable i p =>
    simp only [Spec.step]
    split
    · rename_i hlt
      exact push_ok I i p (g := fun a => ⟨a :: (s i).elems, (s i).cap⟩)
        (fun arg a ha => emplaceFrontStable_ok (I.rel i) hlt ha) (by intro a; have := I.len i; simp; omega)
        (fun _ => by have := I.cap i; simp; omega)
    · rename_i hlt
      simp only [StepOK, step, World.push]
      have h := pushArg_ok (I.rel i) p
      cases ha : Spec.argVal (s i).elems p with
      | none => rw [ha] at h; simp only at h; rw [h]; rfl
      | some a =>
        rw [ha] at h
        obtain ⟨arg, e, ev⟩ := h
        rw [e]
        simp only [R.ok_bind]
        rw [(stable_bad (I.rel i) hlt arg).2]; rfl
  | popBack i =>
    simp only [Spec.step]
    by_cases hl : (s i).elems = []
    · simp only [hl, List.getLast?_nil, Option.map_none, StepOK, step, World.pop]
      rw [(empty_bad (I.rel i) hl).2.2.1]; rfl
    · obtain ⟨r', e, hr⟩ := popBack_ok (I.rel i) hl
      rw [List.getLast?_eq_some_getLast hl]
      simp only [Option.map_some, StepOK, step, World.pop]
      rw [e]
      exact ⟨_, rfl, I.put hr (by have := I.len i; simp; omega) (by have := I.cap i; simp; omega)⟩
  | popFront i =>
    simp only [Spec.step]
    cases hl : (s i).elems with
    | nil =>
      simp only [List.head?_nil, Option.map_none, StepOK, step, World.pop]
      rw [(empty_bad (I.rel i) hl).2.2.2]; rfl
    | cons a l =>
      obtain ⟨r', e, hr⟩ := popFront_ok (I.rel i) hl
      simp only [List.head?_cons, Option.map_some, StepOK, step, World.pop, List.tail_cons]
      rw [e]
      have := I.len i
      rw [hl] at this
      simp only [List.length_cons] at this
      exact ⟨_, rfl, I.put hr (by simp; omega) (by have := I.cap i; simp; omega)⟩
  | clear i =>
    obtain ⟨r', e, hr⟩ := clear_ok (I.rel i)
    simp only [Spec.step, StepOK, step]
    rw [e]
    exact ⟨_, rfl, I.put hr (by simp) (by have := I.cap i; simp; omega)⟩
  | front i =>
    simp only [Spec.step]
    cases hl : (s i).elems with
    | nil =>
      simp only [List.head?_nil, Option.map_none, StepOK, step]
      rw [(empty_bad (I.rel i) hl).1]; rfl
    | cons a l =>
      have := front_ok (I.rel i) (by simp [hl])
      simp only [List.head?_cons, Option.map_some, StepOK, step]
      rw [this]
      exact ⟨w, by simp [hl], I.mono⟩
  | back i =>
    simp only [Spec.step]
    by_cases hl : (s i).elems = []
    · simp only [hl, List.getLast?_nil, Option.map_none, StepOK, step]
      rw [(empty_bad (I.rel i) hl).2.1]; rfl
    · have := back_ok (I.rel i) (List.length_pos_iff.2 hl)
      rw [List.getLast?_eq_some_getLast hl]
      simp only [Option.map_some, StepOK, step]
      rw [this]
      exact ⟨w, by rw [List.getLast_eq_getElem]; rfl, I.mono⟩
  | get i k =>
    simp only [Spec.step]
    by_cases hk : k < (s i).elems.length
    · rw [List.getElem?_eq_getElem hk]
      simp only [Option.map_some, StepOK, step]
      rw [get_ok (I.rel i) hk]
      exact ⟨w, rfl, I.mono⟩
    · rw [List.getElem?_eq_none (by omega)]
      simp only [Option.map_none, StepOK, step]
      rw [get_bad (I.rel i) hk]; rfl
  | set i k a =>
    simp only [Spec.step]
    split
    · rename_i hk
      obtain ⟨r', e, hr⟩ := set_ok (I.rel i) (a := a) hk
      simp only [StepOK, step]
      rw [e]
      exact ⟨_, rfl, I.put hr (by have := I.len i; simp; omega) (by have := I.cap i; simp; omega)⟩
    · rename_i hk
      simp only [StepOK, step]
      unfold set
      rw [size_ok (I.rel i), ccAssert_false (by simpa using hk)]; rfl
  | size i =>
    simp only [Spec.step, StepOK, step]
    rw [size_ok (I.rel i)]
    exact ⟨w, rfl, I.mono⟩
  | empty i =>
    simp only [Spec.step, StepOK, step]
    rw [isEmpty_ok (I.rel i)]
    exact ⟨w, rfl, I.mono⟩
  | assignCopy i j =>
    obtain ⟨r', e, hr⟩ := copy_ok (I.rel j)
    simp only [Spec.step, StepOK, step]
    rw [e, dtor_ok (I.rel i)]
    exact ⟨_, rfl, I.put hr (by have := I.len j; omega) (by have := I.cap j; omega)⟩
  | assignMove i j =>
    simp only [Spec.step, StepOK, step]
    rw [dtor_ok (I.rel i)]
    refine ⟨_, rfl, ?_, ?_, ?_, ?_⟩
    · intro m
      simp only [World.put, Spec.upd]
      split
      · exact Rel.empty triv
      · split
        · exact I.rel j
        · exact I.rel m
    · intro m
      simp only [Spec.upd]
      split
      · simp
      · split
        · have := I.len j; omega
        · have := I.len m; omega
    · intro m
      simp only [Spec.upd]
      split
      · simp
      · split
        · have := I.cap j; omega
        · have := I.cap m; omega
    · simp [World.put, I.leaked]

theorem run_ok {triv : Bool} (ops : List (Op α)) : ∀ {n : Nat} {w : World α} {s : Spec.Lists α}, Inv triv n w s →
    n + ops.length ≤ 2 ^ 60 →
    match Spec.run s ops with
    | none => run triv w ops = .error .assert
    | some (s', os) => ∃ w', run triv w ops = .ok (w', os) ∧ Inv triv (n + ops.length) w' s' := by
  induction ops with
  | nil => intro n w s I _; exact ⟨w, rfl, I⟩
  | cons op ops ih =>
    intro n w s I hn
    simp only [List.length_cons] at hn ⊢
    have h := step_ok I (by omega) op
    simp only [Spec.run, run]
    cases hs : Spec.step s op with
    | none =>
      rw [hs] at h
      simp only [StepOK] at h
      simp only [Option.bind_eq_bind, Option.bind_none]
      rw [h]; rfl
    | some p =>
      obtain ⟨s1, o⟩ := p
      rw [hs] at h
      obtain ⟨w1, e, I1⟩ := h
      have h2 := ih I1 (by omega)
      simp only [Option.bind_eq_bind, Option.bind_some]
      rw [e]
      simp only [R.ok_bind]
      cases hs2 : Spec.run s1 ops with
      | none => rw [hs2] at h2; simp only [Option.bind_none] at h2 ⊢; rw [h2]; rfl
      | some p2 =>
        obtain ⟨s2, os⟩ := p2
        rw [hs2] at h2
        obtain ⟨w2, e2, I2⟩ := h2
        simp only [Option.bind_some]
        rw [e2]
        refine ⟨w2, rfl, ?_⟩
        rw [show n + (ops.length + 1) = n + 1 + ops.length by omega]
        exact I2

/-- A history with growth at both ends, wrap-around, aliasing, copies and moves, used in the examples. -/
def demoOps : List (Op Nat) :=
  [.pushBack 0 (.val 1), .pushFront 0 (.elem 0), .pushFront 0 (.val 3), .pushBack 0 (.elem 1), .popFront 0, .popFront 0,
   .pushBackStable 0 (.val 5), .pushFrontStable 0 (.elem 2), .pushBack 0 (.val 7), .pushBack 0 (.val 8), .pushBack 0 (.val 9),
   .popBack 0, .assignCopy 1 0, .set 1 0 77, .assignMove 2 1, .pushFront 1 (.val 2), .get 2 0, .back 0, .front 0, .size 0,
   .empty 1, .clear 0, .empty 0]

/-- **C21.** For every history of at most 2^60 calls on any number of ringbuffers, whether or not the elements have a destructor:
if some call is out of contract (pop, front or back of an empty ringbuffer, index out of range, stable push at capacity), the
program ends in a contract failure. Otherwise nothing undefined happens (every accessed slot holds a living element, no element is
constructed over a living one, no null access), all results are those of the lists, at the end every ringbuffer has the size,
elements and capacity of its list, and no element was dropped without running its destructor. -/
theorem C21_ringbuffer_is_deque (triv : Bool) (ops : List (Op α)) (hn : ops.length ≤ 2 ^ 60) :
    match Spec.run Spec.init ops with
    | none => run triv World.init ops = .error .assert
    | some (s, os) => ∃ w, run triv World.init ops = .ok (w, os) ∧ w.leaked = 0 ∧
        ∀ i, size (w.rings i) = (s i).elems.length ∧ capacity (w.rings i) = (s i).cap ∧
          isEmpty (w.rings i) = (s i).elems.isEmpty ∧ (s i).elems.length ≤ (s i).cap ∧
          capacityRemaining (w.rings i) = (s i).cap - (s i).elems.length ∧
          ∀ k (hk : k < (s i).elems.length), get (w.rings i) k = .ok (s i).elems[k] := by
  have h := run_ok ops (Inv.init triv) (by omega)
  cases hs : Spec.run Spec.init ops with
  | none => rw [hs] at h; exact h
  | some p =>
    rw [hs] at h
    obtain ⟨w, e, I⟩ := h
    refine ⟨w, e, I.leaked, fun i => ?_⟩
    have hcap : capacity (w.rings i) = (p.1 i).cap := by
      obtain ⟨k, -, hc, hm, -⟩ := (I.rel i).ex
      unfold capacity; rw [hc, hm]
    refine ⟨size_ok (I.rel i), hcap, isEmpty_ok (I.rel i), (I.rel i).len_le, ?_, fun k hk => get_ok (I.rel i) hk⟩
    unfold capacity at hcap
    unfold capacityRemaining
    rw [hcap, size_ok (I.rel i)]
    have h1 := (I.rel i).len_le
    have h2 := I.cap i
    have : (p.1 i).cap + (2 ^ 64 - (p.1 i).elems.length) = ((p.1 i).cap - (p.1 i).elems.length) + 2 ^ 64 := by omega
    rw [this, Nat.add_mod_right, Nat.mod_eq_of_lt (by omega)]

example : ((Spec.run Spec.init demoOps).map fun p => ([(p.1 0).elems, (p.1 1).elems, (p.1 2).elems], (p.1 0).cap, p.2.drop 16)) =
    some ([[], [2], [77, 1, 1, 5, 7, 8]], 7, [.elem 77, .elem 8, .elem 5, .nat 6, .bool false, .none, .bool true]) := by
  decide +kernel

example : run (α := Nat) false World.init [.pushBack 0 (.val 1), .popBack 0, .popFront 0] = .error .assert := by
  have := C21_ringbuffer_is_deque (α := Nat) false [.pushBack 0 (.val 1), .popBack 0, .popFront 0] (by decide)
  exact this

/-- **C21**, destruction: after any history in contract, the destructor of every ringbuffer runs without undefined behaviour and
leaves no element undestroyed. -/
theorem C21_ringbuffer_destructor (triv : Bool) (ops : List (Op α)) (hn : ops.length ≤ 2 ^ 60) {w : World α} {os : List (Obs α)}
    (h : run triv World.init ops = .ok (w, os)) (i : Nat) : dtor triv (w.rings i) = .ok 0 := by
  have hr := run_ok ops (Inv.init triv) (by omega)
  cases hs : Spec.run Spec.init ops with
  | none => rw [hs] at hr; simp only at hr; rw [hr] at h; simp at h
  | some p =>
    rw [hs] at hr
    obtain ⟨w', e, I⟩ := hr
    rw [e] at h
    simp only [Except.ok.injEq, Prod.mk.injEq] at h
    rw [← h.1]
    exact dtor_ok (I.rel i)

example : (match run false World.init (demoOps.take 16) with
    | .ok (w, _) => (size (w.rings 0), dtor false (w.rings 0)) | _ => (0, .error .ub)) = (6, .ok 0) := by decide +kernel

/-- **C21**, stable pushes: a stable push that succeeds stays in the same storage: it changes one free slot of the buffer and leaves
every slot that holds an element untouched, so pointers to elements remain valid. -/
theorem C21_stable_push_keeps_storage (triv : Bool) (r r' : Ring α) (arg : Arg α) (n : Nat)
    (h : emplaceBackStable triv r arg = .ok (r', n) ∨ emplaceFrontStable triv r arg = .ok (r', n)) :
    ∃ b p a x, r.data = some b ∧ r'.data = some (b.set p (.live a)) ∧ b[p]? = some x ∧ (x = .raw ∨ triv = true) ∧
      r'.mask = r.mask ∧ (r'.begin_ = r.begin_ ∨ r'.begin_ = p) ∧ (r'.end_ = r.end_ ∨ r.end_ = p) := by
  have hcon : ∀ {b b' : Buf α} {p : Nat} {a : α}, b.construct triv p a = .ok b' →
      b' = b.set p (.live a) ∧ ∃ x, b[p]? = some x ∧ (x = .raw ∨ triv = true) := by
    intro b b' p a hc
    unfold Buf.construct Buf.slot at hc
    cases hx : b[p]? with
    | none => rw [hx] at hc; simp at hc
    | some x =>
      rw [hx] at hc
      simp only [R.ok_bind] at hc
      split at hc
      · rename_i hh
        simp only [Except.ok.injEq] at hc
        refine ⟨hc.symm, x, rfl, ?_⟩
        cases x <;> simp_all [Slot.alive]
      · simp at hc
  have hbuf : ∀ {b : Buf α}, buf r = .ok b → r.data = some b := by
    intro b hb
    unfold buf at hb
    split at hb
    · rename_i hd
      rw [hd]; simp only [Except.ok.injEq] at hb; rw [hb]
    · simp at hb
  rcases h with h | h
  · unfold emplaceBackStable at h
    simp only [R.bind_eq_ok] at h
    obtain ⟨-, -, b, hb, a, -, b', hb', h⟩ := h
    simp only [Except.ok.injEq, Prod.mk.injEq] at h
    obtain ⟨e, x, hx, hr⟩ := hcon hb'
    refine ⟨b, r.end_, a, x, hbuf hb, ?_, hx, hr, ?_, Or.inl ?_, Or.inr rfl⟩ <;> rw [← h.1]
    rw [e]
  · unfold emplaceFrontStable at h
    simp only [R.bind_eq_ok] at h
    obtain ⟨-, -, b, hb, a, -, b', hb', h⟩ := h
    simp only [Except.ok.injEq, Prod.mk.injEq] at h
    obtain ⟨e, x, hx, hr⟩ := hcon hb'
    refine ⟨b, subMask r.begin_ 1 r.mask, a, x, hbuf hb, ?_, hx, hr, ?_, Or.inr ?_, Or.inl ?_⟩ <;> rw [← h.1]
    rw [e]

example : (match run (α := Nat) false World.init [.pushBack 0 (.val 1)] with
    | .ok (w, _) => (match emplaceFrontStable false (w.rings 0) (.own 0) with | .ok (r, _) => r.data | _ => none)
    | _ => none) = some [.live 1, .raw, .raw, .live 1] := by decide +kernel

end Verif.Ring
