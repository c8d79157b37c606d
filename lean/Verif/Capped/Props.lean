import Verif.Capped.Lemmas

/-! Property theorems for `cc::capped_vector`: C52. -/
namespace Verif.Capped
open Verif.Mem

variable {α : Type}

/-- The state of a program agrees with the lists. With `strict`, nothing has been leaked. -/
structure Inv (triv : Bool) (strict : Prop) (N : Nat) (w : World α) (s : Spec.Lists α) : Prop where
  rel : ∀ i, Rel triv strict N (w.vecs i) (s i)
  leaked : strict → w.leaked = 0

section
variable {triv : Bool} {strict : Prop} {N : Nat} {w : World α} {s : Spec.Lists α}

theorem Inv.init (triv : Bool) (strict : Prop) (N : Nat) : Inv triv strict N (World.init N : World α) Spec.init :=
  ⟨fun _ => Rel.nil triv strict N, fun _ => rfl⟩

theorem Inv.put (I : Inv triv strict N w s) {i : Nat} {v : CV α} {l : List α} {k : Nat} (h : Rel triv strict N v l)
    (hk : strict → k = 0) : Inv triv strict N (w.put i v k) (Spec.upd s i l) where
  rel := by
    intro j
    simp only [World.put, Spec.upd]
    split
    · exact h
    · exact I.rel j
  leaked := by intro st; simp only [World.put, I.leaked st, hk st]

/-- One call. -/
def StepOK [DecidableEq α] (triv : Bool) (strict : Prop) (N : Nat) (w : World α) (op : Op α) : Option (Spec.Lists α × Obs α) → Prop
  | none => step triv N w op = .error .assert
  | some (s, o) => ∃ w', step triv N w op = .ok (w', o) ∧ Inv triv strict N w' s

theorem replace_ok (I : Inv triv strict N w s) {i : Nat} {v : CV α} {l : List α} {k : Nat} (h : Rel triv strict N v l)
    (hk : strict → k = 0) : ∃ w', w.replace triv i v k = .ok (w', .none) ∧ Inv triv strict N w' (Spec.upd s i l) := by
  unfold World.replace
  obtain ⟨k', e, hk'⟩ := dtor_ok (I.rel i)
  rw [e]
  exact ⟨_, rfl, I.put h (fun st => by rw [hk st, hk' st])⟩

theorem checkArg_ok (I : Inv triv strict N w s) (i : Nat) (arg : Arg α) :
    checkArg (w.vecs i) arg = match Spec.argVal (s i) arg with | some _ => .ok () | none => .error .assert := by
  cases arg with
  | val a => rfl
  | elem k =>
    simp only [checkArg, Spec.argVal, (I.rel i).size]
    by_cases hk : k < (s i).length
    · rw [ccAssert_true (by simpa using hk), List.getElem?_eq_getElem hk]
    · rw [ccAssert_false (by simpa using hk), List.getElem?_eq_none (by omega)]

theorem step_ok [DecidableEq α] (I : Inv triv strict N w s) (op : Op α) (hm : Spec.isMove op = true → strict → triv = true) :
    StepOK triv strict N w op (Spec.step N s op) := by
  cases op with
  | ctorRange i as =>
    simp only [Spec.step]
    split
    · rename_i hl
      obtain ⟨v, k, e, hk, h⟩ := rangeCtor_ok triv strict hl
      simp only [StepOK, step, e, R.ok_bind]
      exact replace_ok I h hk
    · rename_i hl
      simp only [StepOK, step, rangeCtor]
      rw [ccAssert_false (by simpa using hl)]; rfl
  | ctorFilled i n a =>
    simp only [Spec.step]
    split
    · rename_i hl
      obtain ⟨v, k, e, hk, h⟩ := filledCtor_ok triv strict hl a
      simp only [StepOK, step, e, R.ok_bind]
      exact replace_ok I h hk
    · rename_i hl
      simp only [StepOK, step, filledCtor]
      rw [ccAssert_false (by simpa using hl)]; rfl
  | ctorCopy i j =>
    obtain ⟨v, k, e, hk, h⟩ := copyCtor_ok (I.rel j)
    simp only [Spec.step, StepOK, step, e, R.ok_bind]
    exact replace_ok I h hk
  | ctorMove i j =>
    obtain ⟨sv, v, k, e, hk, h, h0⟩ := moveCtor_ok (I.rel j) (hm rfl)
    simp only [Spec.step, StepOK, step, e, R.ok_bind]
    exact replace_ok (I.put h0 (fun _ => rfl)) h hk
  | assignCopy i j =>
    simp only [Spec.step, StepOK, step]
    obtain ⟨v, k, e, hk, h⟩ := copyAssign_ok (I.rel i) (m := s j) (if i = j then none else some (w.vecs j))
      (by
        intro v hv
        split at hv
        · simp at hv
        · simp only [Option.some.injEq] at hv; rw [← hv]; exact I.rel j)
      (by
        intro hv
        split at hv
        · rename_i e; rw [e]
        · simp at hv)
    rw [e]
    exact ⟨_, rfl, I.put h hk⟩
  | assignMove i j =>
    simp only [Spec.step, StepOK, step]
    split
    · rename_i e
      subst e
      obtain ⟨v, e, h⟩ := selfMoveAssign_ok (I.rel i) (hm rfl)
      rw [e]
      refine ⟨_, rfl, ?_⟩
      have : Spec.upd (Spec.upd s i (s i)) i [] = Spec.upd s i [] := by
        funext j; simp only [Spec.upd]; split <;> rfl
      rw [this]
      exact I.put h (fun _ => rfl)
    · rename_i hne
      obtain ⟨sv, v, k, e, hk, h, h0⟩ := moveAssignFrom_ok (I.rel i) (I.rel j) (hm rfl)
      rw [e]
      refine ⟨_, rfl, ?_⟩
      have : Spec.upd (Spec.upd s i (s j)) j [] = Spec.upd (Spec.upd s j []) i (s j) := by
        funext x; simp only [Spec.upd]; split <;> split <;> first | rfl | omega
      rw [this]
      exact (I.put h0 (fun _ => rfl)).put h hk
  | pushBack i a =>
    simp only [Spec.step, StepOK, step]
    rw [checkArg_ok I]
    cases ha : Spec.argVal (s i) a with
    | none => rfl
    | some x =>
      simp only [Option.bind_some, R.ok_bind]
      by_cases hl : (s i).length < N
      · rw [if_pos hl]
        obtain ⟨v, k, e, hk, h⟩ := pushBack_ok (I.rel i) hl ha
        rw [e]
        exact ⟨_, rfl, I.put h hk⟩
      · rw [if_neg hl]
        simp only
        unfold pushBack cap
        rw [(I.rel i).size, (I.rel i).buf.len, ccAssert_false (by simpa using hl)]; rfl
  | popBack i =>
    simp only [Spec.step, StepOK, step]
    by_cases hl : s i = []
    · rw [if_pos hl]
      simp only
      unfold popBack
      rw [(I.rel i).size, hl]; rfl
    · rw [if_neg hl]
      simp only
      obtain ⟨v, e, h⟩ := popBack_ok (I.rel i) hl
      rw [e]
      exact ⟨_, rfl, I.put h (fun _ => rfl)⟩
  | clear i =>
    obtain ⟨v, e, h⟩ := clear_ok (I.rel i)
    simp only [Spec.step, StepOK, step, e]
    exact ⟨_, rfl, I.put h (fun _ => rfl)⟩
  | resize i n a =>
    simp only [Spec.step, StepOK, step]
    rw [checkArg_ok I]
    cases ha : Spec.argVal (s i) a with
    | none => rfl
    | some x =>
      simp only [Option.bind_some, R.ok_bind]
      by_cases hl : n ≤ N
      · rw [if_pos hl]
        obtain ⟨v, k, e, hk, h⟩ := resize_ok (I.rel i) hl ha
        rw [e]
        exact ⟨_, rfl, I.put h hk⟩
      · rw [if_neg hl]
        simp only
        unfold resize cap
        rw [(I.rel i).buf.len, ccAssert_false (by simpa using hl)]; rfl
  | removeAt i k =>
    simp only [Spec.step, StepOK, step]
    by_cases hl : k < (s i).length
    · rw [if_pos hl]
      simp only
      obtain ⟨v, e, h⟩ := removeAt_ok (I.rel i) hl
      rw [e]
      exact ⟨_, rfl, I.put h (fun _ => rfl)⟩
    · rw [if_neg hl]
      simp only
      unfold removeAt
      rw [(I.rel i).size, ccAssert_false (by simpa using hl)]; rfl
  | removeAtUnordered i k =>
    simp only [Spec.step]
    cases hz : (s i).getLast? with
    | none =>
      have : s i = [] := List.getLast?_eq_none_iff.1 hz
      simp only [StepOK, step]
      unfold removeAtUnordered
      rw [(I.rel i).size, this, ccAssert_false (by simp)]; rfl
    | some z =>
      simp only
      split
      · rename_i hl
        obtain ⟨v, e, h⟩ := removeAtUnordered_ok (I.rel i) hl hz
        simp only [StepOK, step, e]
        exact ⟨_, rfl, I.put h (fun _ => rfl)⟩
      · rename_i hl
        simp only [StepOK, step]
        unfold removeAtUnordered
        rw [(I.rel i).size, ccAssert_false (c := decide (k < (s i).length)) (by simpa using hl)]; rfl
  | set i k a =>
    simp only [Spec.step, StepOK, step]
    by_cases hl : k < (s i).length
    · rw [if_pos hl]
      simp only
      obtain ⟨v, e, h⟩ := set_ok (I.rel i) hl a
      rw [e]
      exact ⟨_, rfl, I.put h (fun _ => rfl)⟩
    · rw [if_neg hl]
      simp only
      unfold set
      rw [(I.rel i).size, ccAssert_false (by simpa using hl)]; rfl
  | front i =>
    simp only [Spec.step, StepOK, step]
    rw [front_ok (I.rel i)]
    cases (s i).head? with
    | none => rfl
    | some a => exact ⟨w, rfl, I⟩
  | back i =>
    simp only [Spec.step, StepOK, step]
    rw [back_ok (I.rel i)]
    cases (s i).getLast? with
    | none => rfl
    | some a => exact ⟨w, rfl, I⟩
  | get i k =>
    simp only [Spec.step, StepOK, step]
    rw [get_ok (I.rel i)]
    cases (s i)[k]? with
    | none => rfl
    | some a => exact ⟨w, rfl, I⟩
  | contains i a =>
    simp only [Spec.step, StepOK, step]
    rw [contains_ok (I.rel i)]
    exact ⟨w, rfl, I⟩
  | eq i j =>
    simp only [Spec.step, StepOK, step]
    rw [eq_ok (I.rel i) (I.rel j)]
    exact ⟨w, rfl, I⟩
  | size i =>
    simp only [Spec.step, StepOK, step]
    rw [(I.rel i).size]
    exact ⟨w, rfl, I⟩
  | empty i =>
    simp only [Spec.step, StepOK, step]
    rw [(I.rel i).size]
    refine ⟨w, ?_, I⟩
    cases s i <;> simp
  | full i =>
    simp only [Spec.step, StepOK, step, cap]
    rw [(I.rel i).size, (I.rel i).buf.len]
    exact ⟨w, rfl, I⟩

theorem run_ok [DecidableEq α] (ops : List (Op α)) (hm : strict → triv = true ∨ ∀ op ∈ ops, Spec.isMove op = false) :
    ∀ {w : World α} {s : Spec.Lists α}, Inv triv strict N w s →
    match Spec.run N s ops with
    | none => run triv N w ops = .error .assert
    | some (s', os) => ∃ w', run triv N w ops = .ok (w', os) ∧ Inv triv strict N w' s' := by
  induction ops with
  | nil => intro w s I; exact ⟨w, rfl, I⟩
  | cons op ops ih =>
    intro w s I
    have h := step_ok I op (by
      intro h1 st
      rcases hm st with h2 | h2
      · exact h2
      · rw [h2 op List.mem_cons_self] at h1; simp at h1)
    have ih := @ih (by
      intro st
      rcases hm st with h2 | h2
      · exact Or.inl h2
      · exact Or.inr fun o ho => h2 o (List.mem_cons_of_mem _ ho))
    simp only [Spec.run, run]
    cases hs : Spec.step N s op with
    | none =>
      rw [hs] at h
      simp only [StepOK] at h
      simp only [Option.bind_eq_bind, Option.bind_none]
      rw [h]; rfl
    | some p =>
      obtain ⟨s1, o⟩ := p
      rw [hs] at h
      obtain ⟨w1, e, I1⟩ := h
      have h2 := ih I1
      simp only [Option.bind_eq_bind, Option.bind_some]
      rw [e]
      simp only [R.ok_bind]
      cases hs2 : Spec.run N s1 ops with
      | none => rw [hs2] at h2; simp only [Option.bind_none] at h2 ⊢; rw [h2]; rfl
      | some p2 =>
        obtain ⟨s2, os⟩ := p2
        rw [hs2] at h2
        obtain ⟨w2, e2, I2⟩ := h2
        simp only [Option.bind_some]
        rw [e2]
        exact ⟨w2, rfl, I2⟩

end

/-- A history that fills vectors of capacity 4, removes, resizes, copies and moves, used in the examples. -/
def demoOps : List (Op Nat) :=
  [.ctorRange 0 [1, 2, 3], .pushBack 0 (.elem 1), .full 0, .removeAt 0 0, .assignCopy 1 0, .eq 0 1, .removeAtUnordered 1 0,
   .resize 1 4 (.elem 0), .assignCopy 0 0, .popBack 0, .contains 0 3, .set 0 0 9, .ctorCopy 2 1, .clear 1, .resize 2 1 (.val 0),
   .front 0, .back 0, .get 0 1, .size 0, .empty 1]

/-- **C52.** For every capacity `N`, every history of calls on any number of capped vectors, and element types with or without
destructors: if some call is out of contract (more than `N` elements, pop, front or back of an empty vector, index out of range),
the program ends in a contract failure. Otherwise nothing undefined happens and all results are those of lists of at most `N`
elements; whole-vector moves leave the source empty. -/
theorem C52_capped_vector_is_bounded_list [DecidableEq α] (triv : Bool) (N : Nat) (ops : List (Op α)) :
    match Spec.run N Spec.init ops with
    | none => run triv N (World.init N) ops = .error .assert
    | some (s, os) => ∃ w, run triv N (World.init N) ops = .ok (w, os) ∧
        ∀ i, (w.vecs i).size = (s i).length ∧ (s i).length ≤ N ∧ ∀ k (hk : k < (s i).length), get (w.vecs i) k = .ok (s i)[k] := by
  have h := run_ok (triv := triv) (strict := False) (N := N) ops (fun h => h.elim) (Inv.init triv False N)
  cases hs : Spec.run N Spec.init ops with
  | none => rw [hs] at h; exact h
  | some p =>
    rw [hs] at h
    obtain ⟨w, e, I⟩ := h
    refine ⟨w, e, fun i => ⟨(I.rel i).size, (I.rel i).buf.le, fun k hk => ?_⟩⟩
    rw [get_ok (I.rel i), List.getElem?_eq_getElem hk]

example : ((Spec.run 4 Spec.init demoOps).map fun p => ([p.1 0, p.1 1, p.1 2], p.2)) =
    some ([[9, 3], [], [2]], [.none, .none, .bool true, .none, .none, .bool true, .none, .none, .none, .none, .bool true, .none,
      .none, .none, .none, .elem 9, .elem 3, .elem 3, .nat 2, .bool true]) := by decide +kernel

example : run (α := Nat) false 2 (World.init 2) [.ctorRange 0 [1, 2], .pushBack 0 (.val 3)] = .error .assert :=
  C52_capped_vector_is_bounded_list (α := Nat) false 2 [.ctorRange 0 [1, 2], .pushBack 0 (.val 3)]

/-- **C52 (partial)**, lifetimes: in every history without whole-vector moves (or with trivially destructible elements), every
element that was constructed has been destroyed or is still in a vector, and the destructors of the vectors destroy the latter.
Missing: histories that move whole vectors of elements with a destructor, where it is false (next theorems). -/
theorem C52_capped_vector_lifetimes_partial [DecidableEq α] (triv : Bool) (N : Nat) (ops : List (Op α))
    (hm : triv = true ∨ ∀ op ∈ ops, Spec.isMove op = false) {w : World α} {os : List (Obs α)}
    (h : run triv N (World.init N) ops = .ok (w, os)) : w.leaked = 0 ∧ ∀ i, dtor triv (w.vecs i) = .ok 0 := by
  have hr := run_ok (triv := triv) (strict := True) (N := N) ops (fun _ => hm) (Inv.init triv True N)
  cases hs : Spec.run N Spec.init ops with
  | none => rw [hs] at hr; simp only at hr; rw [hr] at h; simp at h
  | some p =>
    rw [hs] at hr
    obtain ⟨w', e, I⟩ := hr
    rw [e] at h
    simp only [Except.ok.injEq, Prod.mk.injEq] at h
    rw [← h.1]
    refine ⟨I.leaked trivial, fun i => ?_⟩
    obtain ⟨k, e, hk⟩ := dtor_ok (I.rel i)
    rw [e, hk trivial]

example : (∀ op ∈ demoOps, Spec.isMove op = false) ∧ (match run false 4 (World.init 4) demoOps with
    | .ok (w, _) => (w.leaked, (w.vecs 0).size, dtor false (w.vecs 0)) | _ => (1, 0, .error .ub)) = (0, 2, .ok 0) := by
  decide +kernel

/-- **C52**, the defect: the moved-from elements of a move-constructed-from vector are never destroyed, neither by the vector's
destructor ... -/
theorem C52_move_construction_leaks :
    (match run (α := Nat) false 4 (World.init 4) [.ctorRange 0 [1, 2, 3], .ctorMove 1 0] with
      | .ok (w, _) => (w.leaked, (w.vecs 0).size, dtor false (w.vecs 0), dtor false (w.vecs 1))
      | _ => (0, 0, .error .ub, .error .ub)) = (0, 0, .ok 3, .ok 0) := by decide +kernel

/-- ... nor when new elements take their place. -/
theorem C52_reuse_after_move_leaks :
    (match run (α := Nat) false 4 (World.init 4) [.ctorRange 0 [1, 2, 3], .assignMove 1 0, .pushBack 0 (.val 7)] with
      | .ok (w, _) => (w.leaked, (w.vecs 0).size, dtor false (w.vecs 0)) | _ => (0, 0, .error .ub)) = (1, 1, .ok 2) := by
  decide +kernel

/-- In general: a vector of `n` elements that is moved from leaves exactly `n` objects behind that its destructor does not
destroy. -/
theorem C52_move_leak_size (N : Nat) (as : List α) (hl : as.length ≤ N) :
    ∃ v s t, rangeCtor false N as = .ok (v, 0) ∧ moveCtor false v = .ok (s, t, 0) ∧ dtor false s = .ok as.length := by
  obtain ⟨v, k, e, hk, h⟩ := rangeCtor_ok (N := N) false True hl
  have hv : v.buf = as.map .live ++ List.replicate (N - as.length) .raw := by
    apply List.ext_getElem?
    intro j
    rcases Nat.lt_or_ge j as.length with hj | hj
    · rw [h.buf.live j hj, List.getElem?_append_left (by simpa using hj)]; simp [hj]
    · rcases Nat.lt_or_ge j N with hjN | hjN
      · rw [List.getElem?_append_right (by simpa using hj), List.getElem?_replicate, if_pos (by simp; omega)]
        have hlt : j < v.buf.length := by rw [h.buf.len]; exact hjN
        rcases h.buf.rest trivial j _ hj (List.getElem?_eq_getElem hlt) with h1 | h1
        · rw [List.getElem?_eq_getElem hlt, h1]
        · simp at h1
      · rw [List.getElem?_eq_none (by rw [h.buf.len]; exact hjN), List.getElem?_eq_none (by simp; omega)]
  have hmove : ∀ (n : Nat) (i : Nat) (dst : Buf α), i + n = as.length → RelB false True N dst (as.take i) →
      ∃ dst', moveLoop false (List.replicate i Slot.moved ++ ((as.drop i).map .live ++ List.replicate (N - as.length) .raw)) dst i n =
        .ok (List.replicate as.length Slot.moved ++ List.replicate (N - as.length) .raw, dst', 0) := by
    intro n
    induction n with
    | zero =>
      intro i dst hi _
      have : i = as.length := by omega
      subst this
      exact ⟨dst, by rw [List.drop_length, List.map_nil, List.nil_append]; rfl⟩
    | succ n ih =>
      intro i dst hi hd
      have hlen : (as.take i).length = i := by simp; omega
      obtain ⟨k, e1, hk1, h1⟩ := hd.construct (by omega) as[i]
      rw [hlen] at e1 h1
      rw [← take_concat_of_lt (by omega)] at h1
      rw [hk1 trivial] at e1
      have hx : (List.replicate i Slot.moved ++ ((as.drop i).map Slot.live ++ List.replicate (N - as.length) Slot.raw))[i]? =
          some (.live as[i]) := by
        rw [List.getElem?_append_right (by simp), List.drop_eq_getElem_cons (show i < as.length by omega)]
        simp only [List.length_replicate, Nat.sub_self, List.map_cons, List.cons_append, List.getElem?_cons_zero]
      obtain ⟨d, e2⟩ := ih (i + 1) _ (by omega) h1
      refine ⟨d, ?_⟩
      rw [moveLoop, Buf.take_ok hx]
      simp only [R.ok_bind, Bool.false_eq_true, if_false]
      rw [e1]
      simp only [R.ok_bind]
      have hset : (List.replicate i Slot.moved ++ ((as.drop i).map Slot.live ++ List.replicate (N - as.length) Slot.raw)).set i
          Slot.moved =
          List.replicate (i + 1) Slot.moved ++ ((as.drop (i + 1)).map Slot.live ++ List.replicate (N - as.length) Slot.raw) := by
        rw [List.set_append_right _ _ (by simp), List.drop_eq_getElem_cons (show i < as.length by omega)]
        simp only [List.length_replicate, Nat.sub_self, List.map_cons, List.cons_append, List.set_cons_zero]
        rw [List.replicate_succ', List.append_assoc]
        rfl
      rw [hset, e2]
      rfl
  obtain ⟨d, em⟩ := hmove as.length 0 (Buf.mk N) (by omega) (by simpa using RelB.nil false True N)
  simp only [List.replicate_zero, List.nil_append, List.drop_zero] at em
  refine ⟨v, { size := 0, buf := List.replicate as.length Slot.moved ++ List.replicate (N - as.length) .raw },
    { size := as.length, buf := d }, by rw [e, hk trivial], ?_, ?_⟩
  · unfold moveCtor cap
    rw [h.buf.len, h.size, hv, em]
    rfl
  · unfold dtor
    simp only [Bool.false_eq_true, if_false, destroyDown, R.ok_bind]
    congr 1
    unfold Buf.leak
    simp only [Bool.false_eq_true, if_false]
    rw [List.countP_append, List.countP_replicate, List.countP_replicate]
    simp [Slot.alive]

example : ∃ v s t, rangeCtor false 4 [1, 2, 3] = .ok (v, 0) ∧ moveCtor false v = .ok (s, t, 0) ∧ dtor false s = .ok 3 :=
  C52_move_leak_size 4 [1, 2, 3] (by decide)

end Verif.Capped
