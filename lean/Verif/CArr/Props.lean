import Verif.CArr.Lemmas
import Verif.Capped.Props

/-! Property theorems for `cc::capped_array`: C89. -/
namespace Verif.CArr
open Verif.Mem
open Verif.Capped (CV World Arg Rel RelB)

variable {α : Type}

/-- The state of a program agrees with the lists. With `strict`, nothing has been leaked. -/
structure Inv (t : Ty) (strict : Prop) (w : World α) (s : Spec.Lists α) : Prop where
  rel : ∀ i, Rel t.triv strict t.N (w.vecs i) (s i)
  leaked : strict → w.leaked = 0

section
variable {t : Ty} {strict : Prop} {w : World α} {s : Spec.Lists α}

theorem Inv.init (t : Ty) (strict : Prop) : Inv t strict (CArr.init t : World α) Spec.init :=
  ⟨fun _ => Rel.nil t.triv strict t.N, fun _ => rfl⟩

theorem Inv.put (I : Inv t strict w s) {i : Nat} {v : CV α} {l : List α} {k : Nat} (h : Rel t.triv strict t.N v l)
    (hk : strict → k = 0) : Inv t strict (w.put i v k) (Spec.upd s i l) where
  rel := by
    intro j
    simp only [World.put, Spec.upd]
    split
    · exact h
    · exact I.rel j
  leaked := by intro st; simp only [World.put, I.leaked st, hk st]

/-- One call. -/
def StepOK (t : Ty) (strict : Prop) (d : α) (w : World α) (op : Op α) : Option (Spec.Lists α × Obs α) → Prop
  | none => step t d w op = .error .assert
  | some (s, o) => ∃ w', step t d w op = .ok (w', o) ∧ Inv t strict w' s

theorem replace_ok (I : Inv t strict w s) {i : Nat} {v : CV α} {l : List α} {k : Nat} (h : Rel t.triv strict t.N v l)
    (hk : strict → k = 0) : ∃ w', replace t w i v k = .ok (w', .none) ∧ Inv t strict w' (Spec.upd s i l) := by
  unfold replace
  obtain ⟨k', e, hk'⟩ := dtor_ok (I.rel i)
  rw [e]
  exact ⟨_, rfl, I.put h (fun st => by rw [hk st, hk' st])⟩

theorem step_ok (hN : t.N < 2 ^ 64) (I : Inv t strict w s) (d : α) (op : Op α) (hm : Spec.isMove op = true → strict → t.triv = true)
    (ho : Spec.ownArg op = true → t.triv = true) : StepOK t strict d w op (Spec.step t.N d s op) := by
  cases op with
  | new i =>
    simp only [Spec.step, StepOK, step]
    exact replace_ok I (Rel.nil t.triv strict t.N) (fun _ => rfl)
  | sized i n =>
    simp only [Spec.step]
    by_cases hl : n ≤ t.N
    · rw [if_pos hl]
      obtain ⟨v, k, e, hk, h⟩ := sized_ok t strict hN hl d
      simp only [StepOK, step, e, R.ok_bind]
      exact replace_ok I h hk
    · rw [if_neg hl]
      simp only [StepOK, step, sized]
      rw [ccAssert_false (by simpa using hl)]; rfl
  | ofList i as =>
    simp only [Spec.step]
    by_cases hl : as.length ≤ t.N
    · rw [if_pos hl]
      obtain ⟨v, k, e, hk, h⟩ := ofList_ok t strict hN hl
      simp only [StepOK, step, e, R.ok_bind]
      exact replace_ok I h hk
    · rw [if_neg hl]
      simp only [StepOK, step, ofList]
      rw [ccAssert_false (by simpa using hl)]; rfl
  | filled i n a =>
    simp only [Spec.step]
    by_cases hl : n ≤ t.N
    · rw [if_pos hl]
      obtain ⟨v, k, e, hk, h⟩ := filled_ok t strict hN hl a
      simp only [StepOK, step, e, R.ok_bind]
      exact replace_ok I h hk
    · rw [if_neg hl]
      simp only [StepOK, step, filled]
      rw [ccAssert_false (by simpa using hl)]; rfl
  | copy i j =>
    obtain ⟨v, k, e, hk, h⟩ := copyCtor_ok (I.rel j)
    simp only [Spec.step, StepOK, step, e, R.ok_bind]
    exact replace_ok I h hk
  | move i j =>
    obtain ⟨sv, v, k, e, hk, h, h0⟩ := moveCtor_ok (I.rel j) (hm rfl)
    simp only [Spec.step, StepOK, step, e, R.ok_bind]
    exact replace_ok (I.put h0 (fun _ => rfl)) h hk
  | assign i j =>
    simp only [Spec.step, StepOK, step]
    obtain ⟨v, k, e, hk, h⟩ := copyAssign_ok (I.rel i) (m := s j) (if i = j then none else some (w.vecs j))
      (by
        intro v hv
        split at hv
        · simp at hv
        · simp only [Option.some.injEq] at hv; rw [← hv]; exact I.rel j)
      (by
        intro hv
        split at hv
        · rename_i e; rw [e]
        · simp at hv)
    rw [e]
    exact ⟨_, rfl, I.put h hk⟩
  | moveAssign i j =>
    simp only [Spec.step, StepOK, step]
    split
    · rename_i e
      subst e
      obtain ⟨v, e, h⟩ := selfMove_ok (I.rel i) (hm rfl)
      rw [e]
      refine ⟨_, rfl, ?_⟩
      have : Spec.upd (Spec.upd s i (s i)) i [] = Spec.upd s i [] := by
        funext j; simp only [Spec.upd]; split <;> rfl
      rw [this]
      exact I.put h (fun _ => rfl)
    · rename_i hne
      obtain ⟨sv, v, k, e, hk, h, h0⟩ := moveAssign_ok (I.rel i) (I.rel j) (hm rfl)
      rw [e]
      refine ⟨_, rfl, ?_⟩
      have : Spec.upd (Spec.upd s i (s j)) j [] = Spec.upd (Spec.upd s j []) i (s j) := by
        funext x; simp only [Spec.upd]; split <;> split <;> first | rfl | omega
      rw [this]
      exact (I.put h0 (fun _ => rfl)).put h hk
  | emplace i n a =>
    cases a with
    | val a =>
      simp only [Spec.step]
      by_cases hl : n ≤ t.N
      · rw [if_pos hl]
        obtain ⟨v, k, e, hk, h⟩ := emplace_val_ok hN (I.rel i) hl a
        simp only [StepOK, step, checkArg, e, R.ok_bind]
        exact ⟨_, rfl, I.put h hk⟩
      · rw [if_neg hl]
        simp only [StepOK, step, checkArg, emplace]
        rw [ccAssert_false (by simpa using hl)]; rfl
    | elem k =>
      simp only [Spec.step]
      cases ha : (s i)[k]? with
      | none =>
        have hk : ¬ k < (w.vecs i).size := by
          rw [(I.rel i).size]; intro h; rw [List.getElem?_eq_getElem h] at ha; simp at ha
        simp only [StepOK, step, checkArg]
        rw [ccAssert_false (by simpa using hk)]; rfl
      | some a =>
        have hk : k < (w.vecs i).size := by
          rw [(I.rel i).size]
          rcases Nat.lt_or_ge k (s i).length with h1 | h1
          · exact h1
          · rw [List.getElem?_eq_none h1] at ha; simp at ha
        have hc : checkArg (w.vecs i) (.elem k) = .ok () := by
          simp only [checkArg]; rw [ccAssert_true (by simpa using hk)]
        dsimp only
        by_cases hl : n ≤ t.N
        · rw [if_pos hl]
          obtain ⟨v, e, h⟩ := emplace_elem_ok hN (ho rfl) (I.rel i) hl ha
          simp only [StepOK, step, hc, e, R.ok_bind]
          exact ⟨_, rfl, I.put h (fun _ => rfl)⟩
        · rw [if_neg hl]
          simp only [StepOK, step, hc, R.ok_bind, emplace]
          rw [ccAssert_false (by simpa using hl)]; rfl
  | set i k a =>
    simp only [Spec.step]
    by_cases hl : k < (s i).length
    · rw [if_pos hl]
      obtain ⟨v, e, h⟩ := Capped.set_ok (I.rel i) hl a
      have e' : CArr.set (w.vecs i) k a = .ok v := e
      simp only [StepOK, step, e', R.ok_bind]
      exact ⟨_, rfl, I.put h (fun _ => rfl)⟩
    · rw [if_neg hl]
      simp only [StepOK, step, CArr.set]
      rw [(I.rel i).size, ccAssert_false (by simpa using hl)]; rfl
  | get i k =>
    simp only [Spec.step, StepOK, step]
    have e : CArr.get (w.vecs i) k = _ := Capped.get_ok (I.rel i) k
    rw [e]
    cases (s i)[k]? with
    | none => rfl
    | some a => exact ⟨w, rfl, I⟩
  | each i =>
    simp only [Spec.step, StepOK, step]
    rw [(I.rel i).size, readFrom_ok (I.rel i).buf _ 0 (by omega)]
    exact ⟨w, rfl, I⟩
  | size i =>
    simp only [Spec.step, StepOK, step]
    rw [(I.rel i).size]
    exact ⟨w, rfl, I⟩
  | empty i =>
    simp only [Spec.step, StepOK, step]
    rw [(I.rel i).size]
    refine ⟨w, ?_, I⟩
    cases s i <;> simp
  | maxSize i => exact ⟨w, rfl, I⟩

theorem run_ok (hN : t.N < 2 ^ 64) (d : α) (ops : List (Op α)) (hm : strict → t.triv = true ∨ ∀ op ∈ ops, Spec.isMove op = false)
    (ho : t.triv = true ∨ ∀ op ∈ ops, Spec.ownArg op = false) :
    ∀ {w : World α} {s : Spec.Lists α}, Inv t strict w s →
    match Spec.run t.N d s ops with
    | none => run t d w ops = .error .assert
    | some (s', os) => ∃ w', run t d w ops = .ok (w', os) ∧ Inv t strict w' s' := by
  induction ops with
  | nil => intro w s I; exact ⟨w, rfl, I⟩
  | cons op ops ih =>
    intro w s I
    have h := step_ok hN I d op
      (by
        intro h1 st
        rcases hm st with h2 | h2
        · exact h2
        · rw [h2 op List.mem_cons_self] at h1; simp at h1)
      (by
        intro h1
        rcases ho with h2 | h2
        · exact h2
        · rw [h2 op List.mem_cons_self] at h1; simp at h1)
    have ih := @ih
      (by
        intro st
        rcases hm st with h2 | h2
        · exact Or.inl h2
        · exact Or.inr fun o ho => h2 o (List.mem_cons_of_mem _ ho))
      (ho.imp id fun h2 o ho => h2 o (List.mem_cons_of_mem _ ho))
    simp only [Spec.run, run]
    cases hs : Spec.step t.N d s op with
    | none =>
      rw [hs] at h
      simp only [StepOK] at h
      simp only [Option.bind_eq_bind, Option.bind_none]
      rw [h]; rfl
    | some p =>
      obtain ⟨s1, o⟩ := p
      rw [hs] at h
      obtain ⟨w1, e, I1⟩ := h
      have h2 := ih I1
      simp only [Option.bind_eq_bind, Option.bind_some]
      rw [e]
      simp only [R.ok_bind]
      cases hs2 : Spec.run t.N d s1 ops with
      | none => rw [hs2] at h2; simp only [Option.bind_none] at h2 ⊢; rw [h2]; rfl
      | some p2 =>
        obtain ⟨s2, os⟩ := p2
        rw [hs2] at h2
        obtain ⟨w2, e2, I2⟩ := h2
        simp only [Option.bind_some]
        rw [e2]
        exact ⟨w2, rfl, I2⟩

end

/-- A history on arrays of capacity 4, used in the examples. -/
def demoOps : List (Op Nat) :=
  [.ofList 0 [1, 2, 3], .each 0, .emplace 0 4 (.val 7), .each 0, .sized 1 2, .set 1 1 5, .assign 0 1, .each 0, .assign 1 1, .filled 2 3 9,
   .assign 1 2, .copy 3 1, .get 3 2, .new 2, .empty 2, .size 1, .maxSize 1]

/-- **C89 (partial).** For every capacity below 2^64, every alignment of the element type (which chooses the type of the size member), element
types with or without destructors, and every history of calls on any number of capped arrays: if some call is out of contract (more than `N`
elements, index out of range), the program ends in a contract failure; otherwise nothing undefined happens, and all results, also
those of whole-array moves, are those of lists of at most `N` elements. Missing: `emplace` from an own element of a type with a destructor,
where it is false (`C89_emplace_own_element`). -/
theorem C89_capped_array_is_list_partial (t : Ty) (hN : t.N < 2 ^ 64) (d : α) (ops : List (Op α))
    (ho : t.triv = true ∨ ∀ op ∈ ops, Spec.ownArg op = false) :
    match Spec.run t.N d Spec.init ops with
    | none => run t d (init t) ops = .error .assert
    | some (s, os) => ∃ w, run t d (init t) ops = .ok (w, os) ∧
        ∀ i, (w.vecs i).size = (s i).length ∧ (s i).length ≤ t.N ∧ ∀ k (hk : k < (s i).length), get (w.vecs i) k = .ok (s i)[k] := by
  have h := run_ok (strict := False) hN d ops (fun h => h.elim) ho (Inv.init t False)
  cases hs : Spec.run t.N d Spec.init ops with
  | none => rw [hs] at h; exact h
  | some p =>
    rw [hs] at h
    obtain ⟨w, e, I⟩ := h
    refine ⟨w, e, fun i => ⟨(I.rel i).size, (I.rel i).buf.le, fun k hk => ?_⟩⟩
    have e : CArr.get (w.vecs i) k = _ := Capped.get_ok (I.rel i) k
    rw [e, List.getElem?_eq_getElem hk]

example : (∀ op ∈ demoOps, Spec.ownArg op = false) ∧
    ((Spec.run 4 0 Spec.init demoOps).map fun p => ([p.1 0, p.1 1, p.1 2, p.1 3], p.2)) =
    some ([[0, 5], [9, 9, 9], [], [9, 9, 9]], [.none, .list [1, 2, 3], .none, .list [7, 7, 7, 7], .none, .none, .none, .list [0, 5], .none,
      .none, .none, .none, .elem 9, .none, .bool true, .nat 3, .nat 4]) := by decide +kernel

example : run (α := Nat) ⟨8, false, 2⟩ 0 (init ⟨8, false, 2⟩) [.ofList 0 [1, 2], .emplace 0 3 (.val 3)] = .error .assert :=
  C89_capped_array_is_list_partial (α := Nat) ⟨8, false, 2⟩ (by decide) 0 [.ofList 0 [1, 2], .emplace 0 3 (.val 3)] (Or.inr (by decide))

/-- **C89 (partial)**, lifetimes: without whole-array moves (or for trivially destructible elements), every element that was constructed
has been destroyed exactly once or is still in an array, and the destructors of the arrays destroy the latter. Missing: whole-array moves of
elements with a destructor, where it is false (`C89_move_leak_size`). -/
theorem C89_lifetimes_partial (t : Ty) (hN : t.N < 2 ^ 64) (d : α) (ops : List (Op α))
    (ho : t.triv = true ∨ ∀ op ∈ ops, Spec.ownArg op = false) (hm : t.triv = true ∨ ∀ op ∈ ops, Spec.isMove op = false)
    {w : World α} {os : List (Obs α)} (h : run t d (init t) ops = .ok (w, os)) : w.leaked = 0 ∧ ∀ i, dtor t (w.vecs i) = .ok 0 := by
  have hr := run_ok (strict := True) hN d ops (fun _ => hm) ho (Inv.init t True)
  cases hs : Spec.run t.N d Spec.init ops with
  | none => rw [hs] at hr; simp only at hr; rw [hr] at h; simp at h
  | some p =>
    rw [hs] at hr
    obtain ⟨w', e, I⟩ := hr
    rw [e] at h
    simp only [Except.ok.injEq, Prod.mk.injEq] at h
    rw [← h.1]
    refine ⟨I.leaked trivial, fun i => ?_⟩
    obtain ⟨k, e, hk⟩ := dtor_ok (I.rel i)
    rw [e, hk trivial]

example : (∀ op ∈ demoOps, Spec.isMove op = false) ∧ (match run ⟨8, false, 4⟩ 0 (init ⟨8, false, 4⟩) demoOps with
    | .ok (w, _) => (w.leaked, (w.vecs 0).size, dtor ⟨8, false, 4⟩ (w.vecs 0)) | _ => (1, 0, .error .ub)) = (0, 2, .ok 0) := by
  decide +kernel

/-- **C89**, the size member: the type chosen for it can hold every size up to the capacity (so no size and no loop counter wraps around), and
a smaller one is never chosen beyond its range. -/
theorem C89_size_type (N al : Nat) (hN : N < 2 ^ 64) : ∀ n, n ≤ N → n % 2 ^ sizeBits N al = n :=
  fun _ hn => Nat.mod_eq_of_lt (Nat.lt_of_le_of_lt hn (lt_sizeBits hN al))

/-- **C89**, the size member is as wide as the alignment of the elements (up to 8 bytes), so that no padding lies behind it, and no wider than needed for that. -/
theorem C89_size_type_least (N al : Nat) : (al ≤ 8 → 8 * al ≤ sizeBits N al) ∧ ∀ w, w = 8 ∨ w = 16 ∨ w = 32 ∨ w = 64 → N < 2 ^ w → 8 * al ≤ w → sizeBits N al ≤ w := by
  unfold sizeBits
  constructor
  · intro h
    repeat' split
    all_goals omega
  · rintro w (rfl | rfl | rfl | rfl) hw ha
    · rw [if_pos ⟨hw, by omega⟩]; omega
    · split
      · omega
      · rw [if_pos ⟨hw, by omega⟩]; omega
    · split
      · omega
      · split
        · omega
        · rw [if_pos ⟨hw, by omega⟩]; omega
    · repeat' split
      all_goals omega

example : sizeBits 255 1 = 8 ∧ sizeBits 256 1 = 16 ∧ sizeBits 65535 2 = 16 ∧ sizeBits 65536 1 = 32 ∧ sizeBits 3 8 = 64 := by decide

/-- **C89**, the defect of `emplace`: for a type with a destructor, `a.emplace(n, a[k])` reads the element after it has been destroyed,
whatever the array, for every `n > 0` and every valid index. -/
theorem C89_emplace_own_element (t : Ty) (ht : t.triv = false) (hN : t.N < 2 ^ 64) (d : α) (as : List α) (has : as.length ≤ t.N) (n k : Nat)
    (hn : n ≤ t.N) (h0 : 0 < n) (hk : k < as.length) : run t d (init t) [.ofList 0 as, .emplace 0 n (.elem k)] = .error .ub := by
  obtain ⟨v, l, e, hl, h⟩ := ofList_ok t True hN has
  obtain ⟨w, ew, I⟩ := replace_ok (Inv.init t True) (i := 0) h hl
  have hr := I.rel 0
  simp only [Spec.upd, if_true] at hr
  have hc : checkArg (w.vecs 0) (.elem k) = .ok () := by
    simp only [checkArg]; rw [hr.size, ccAssert_true (by simpa using hk)]
  simp only [run, step, e, R.ok_bind, ew, hc, emplace_own_ub ht hN hr hn h0 hk, R.error_bind]

example : run (α := Nat) ⟨8, false, 4⟩ 0 (init ⟨8, false, 4⟩) [.ofList 0 [1, 2, 3], .emplace 0 2 (.elem 1)] = .error .ub :=
  C89_emplace_own_element (α := Nat) ⟨8, false, 4⟩ rfl (by decide) 0 [1, 2, 3] (by decide) 2 1 (by decide) (by decide) (by decide)

/-- **C89**, the defect of the moves: an array of `n` elements with a destructor that is moved from leaves exactly `n` objects behind that
its destructor does not destroy. -/
theorem C89_move_leak_size (t : Ty) (ht : t.triv = false) (hN : t.N < 2 ^ 64) (as : List α) (hl : as.length ≤ t.N) :
    ∃ v s u, ofList t as = .ok (v, 0) ∧ moveCtor t v = .ok (s, u, 0) ∧ dtor t s = .ok as.length := by
  obtain ⟨v, s, u, e1, e2, e3⟩ := Capped.C52_move_leak_size t.N as hl
  obtain ⟨v', k, e1', _, h⟩ := ofList_ok t True hN hl
  have e : ofList t as = Capped.rangeCtor false t.N as := by
    unfold ofList Capped.rangeCtor
    dsimp only
    rw [cast_of_le hN hl, ht]
  rw [e, e1] at e1'
  simp only [Except.ok.injEq, Prod.mk.injEq] at e1'
  refine ⟨v, s, u, by rw [e, e1], ?_, ?_⟩
  · rw [← e2]
    unfold moveCtor Capped.moveCtor Capped.cap
    rw [e1'.1, h.buf.len, ht]
  · rw [← e3]
    unfold dtor Capped.dtor destroyReverse
    rw [ht]
    rfl

example : ∃ v s u, ofList ⟨8, false, 4⟩ [1, 2, 3] = .ok (v, 0) ∧ moveCtor ⟨8, false, 4⟩ v = .ok (s, u, 0) ∧
    dtor ⟨8, false, 4⟩ s = .ok 3 := C89_move_leak_size ⟨8, false, 4⟩ rfl (by decide) [1, 2, 3] (by decide)

/-- The same when the moved-from array gets new elements (here 2 in place of 3, one old object stays behind), and when an array is moved to
itself, which loses its elements. -/
theorem C89_reuse_and_self_move :
    (match run (α := Nat) ⟨8, false, 4⟩ 0 (init ⟨8, false, 4⟩) [.ofList 0 [1, 2, 3], .moveAssign 1 0, .emplace 0 2 (.val 7), .each 1] with
      | .ok (w, os) => (w.leaked, dtor ⟨8, false, 4⟩ (w.vecs 0), os.getLast?) | _ => (0, .error .ub, none)) =
        (2, .ok 1, some (.list [1, 2, 3])) ∧
    (match run (α := Nat) ⟨8, false, 4⟩ 0 (init ⟨8, false, 4⟩) [.ofList 0 [1, 2, 3], .moveAssign 0 0, .each 0] with
      | .ok (w, os) => (w.leaked, dtor ⟨8, false, 4⟩ (w.vecs 0), os.getLast?) | _ => (0, .error .ub, none)) =
        (0, .ok 3, some (.list [])) := by decide +kernel

end Verif.CArr
