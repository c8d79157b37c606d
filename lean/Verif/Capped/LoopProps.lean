import Verif.Capped.Loop

/-! Property C147: a loop over a `capped_vector` whose body changes vectors, the one it goes over among them. -/
namespace Verif.Capped
open Verif.Mem

variable {α : Type}

/-- The state after a history, in terms of the specification. -/
theorem reach [DecidableEq α] {triv : Bool} {strict : Prop} {N : Nat} {ops : List (Op α)}
    (hm : strict → triv = true ∨ ∀ op ∈ ops, Spec.isMove op = false) {w : World α} {os : List (Obs α)}
    (h : run triv N (World.init N) ops = .ok (w, os)) :
    ∃ s, Spec.run N Spec.init ops = some (s, os) ∧ Inv triv strict N w s := by
  have hr := run_ok (triv := triv) (strict := strict) (N := N) ops hm (Inv.init triv strict N)
  cases hs : Spec.run N Spec.init ops with
  | none => rw [hs] at hr; simp only at hr; rw [hr] at h; cases h
  | some p =>
    obtain ⟨s, os'⟩ := p
    rw [hs] at hr
    obtain ⟨w', e, I⟩ := hr
    rw [e] at h
    simp only [Except.ok.injEq, Prod.mk.injEq] at h
    obtain ⟨rfl, rfl⟩ := h
    exact ⟨s, rfl, I⟩

/-- **C147.** After any history a loop over vector `i` does what the specification says, whatever its body calls: if the
specification lets the loop come to its end, it does so and shows these elements; if the body makes a call out of contract, the
program ends there. -/
theorem C147_loop [DecidableEq α] (triv : Bool) (N : Nat) (ops : List (Op α)) {w : World α} {os : List (Obs α)}
    (h : run triv N (World.init N) ops = .ok (w, os)) (i : Nat) (body : Body α) :
    ∃ s, Spec.run N Spec.init ops = some (s, os) ∧
      Match False (loop triv N w i body) (Spec.loopFrom N body i true s 0 [] (s i).length) := by
  obtain ⟨s, g, I⟩ := reach (strict := False) (fun h => h.elim) h
  refine ⟨s, g, ?_⟩
  unfold loop
  rw [(I.rel i).size]
  exact loopFrom_ok (fun h => h.elim) _ I

/-- **C147.** If no whole vectors are moved, and elements have a destructor, the loop is undefined behaviour in all other cases:
a round comes to a position that is no more, or comes after the vector was destroyed. -/
theorem C147_loop_exact [DecidableEq α] (N : Nat) (ops : List (Op α)) (hm : ∀ op ∈ ops, Spec.isMove op = false)
    {w : World α} {os : List (Obs α)} (h : run false N (World.init N) ops = .ok (w, os)) (i : Nat) (body : Body α)
    (hb : ∀ shown, ∀ op ∈ body shown, Spec.isMove op = false) :
    ∃ s, Spec.run N Spec.init ops = some (s, os) ∧
      Match True (loop false N w i body) (Spec.loopFrom N body i true s 0 [] (s i).length) := by
  obtain ⟨s, g, I⟩ := reach (strict := True) (fun _ => .inr hm) h
  refine ⟨s, g, ?_⟩
  unfold loop
  rw [(I.rel i).size]
  exact loopFrom_ok (fun _ => ⟨rfl, hb⟩) _ I

/-- The elements a loop over vector 0 with the elements 5, 6, 7 and room for four shows. -/
def loopDemo (body : Body Nat) : R (List Nat) := do
  let (w, _) ← run false 4 (World.init 4) [.ctorRange 0 [5, 6, 7]]
  let (_, shown) ← loop false 4 w 0 body
  .ok shown

/-- The body removes the first element in the first round and appends one in the second; it assigns other elements; it clears
the vector, puts a new one in its place, or appends too many elements. -/
example : loopDemo (fun shown => if shown.length = 1 then [.removeAt 0 0] else if shown.length = 2 then [.pushBack 0 (.elem 0)]
      else []) = .ok [5, 7, 6] ∧
    loopDemo (fun _ => [.ctorRange 1 [1, 2, 3, 4], .assignCopy 0 1]) = .ok [5, 2, 3] ∧
    loopDemo (fun _ => [.clear 0]) = .error .ub ∧
    loopDemo (fun _ => [.ctorRange 0 [5, 6, 7]]) = .error .ub ∧
    loopDemo (fun _ => [.pushBack 0 (.val 1)]) = .error .assert := by
  decide +kernel

/-- The same in the specification. -/
example : (Spec.loopFrom (α := Nat) 4 (fun shown => if shown.length = 1 then [.removeAt 0 0] else
      if shown.length = 2 then [.pushBack 0 (.elem 0)] else []) 0 true (fun i => if i = 0 then [5, 6, 7] else []) 0 [] 3).map
      (fun r => (r.1 0, r.2)) = .ok ([6, 7, 6], [5, 7, 6]) ∧
    (Spec.loopFrom (α := Nat) 4 (fun _ => [.clear 0]) 0 true (fun i => if i = 0 then [5, 6, 7] else []) 0 [] 3).map
      (fun r => r.2) = .error .ub := by
  decide +kernel

/-! ### appending what is already there -/

/-- `for (auto const& x : v) v.push_back(x)`. -/
def selfAppend (i : Nat) : Body α := fun shown => [.pushBack i (.elem (shown.length - 1))]

theorem selfAppend_spec [DecidableEq α] {N i : Nat} (n : Nat) : ∀ {s : Spec.Lists α} {k : Nat} {shown l : List α},
    k + n = l.length → s i = l ++ l.take k → shown = l.take k → (s i).length ≤ N →
    if 2 * l.length ≤ N then
      ∃ s', Spec.loopFrom N (selfAppend i) i true s k shown n = .ok (s', l) ∧ s' i = l ++ l
    else Spec.loopFrom N (selfAppend i) i true s k shown n = .error .assert := by
  induction n with
  | zero =>
    intro s k shown l hk hs hsh hc
    have hl : l.take k = l := List.take_of_length_le (by omega)
    rw [hs, List.length_append, hl] at hc
    rw [if_pos (by omega)]
    refine ⟨s, ?_, by rw [hs, hl]⟩
    unfold Spec.loopFrom
    rw [hsh, hl]
  | succ n ih =>
    intro s k shown l hk hs hsh hc
    have hlt : k < l.length := by omega
    have hget : (s i)[k]? = some l[k] := by
      rw [hs, List.getElem?_append_left hlt, List.getElem?_eq_getElem hlt]
    have hlen : shown.length = k := by rw [hsh, List.length_take]; omega
    have hslen : (s i).length = l.length + k := by rw [hs, List.length_append, List.length_take]; omega
    unfold Spec.loopFrom
    simp only [hget]
    have hbody : selfAppend i (shown ++ [l[k]]) = [.pushBack i (.elem k)] := by
      unfold selfAppend
      rw [List.length_append, hlen]
      rfl
    rw [hbody]
    by_cases hfull : (s i).length < N
    · have hrun : Spec.run N s [.pushBack i (.elem k)] = some (Spec.upd s i (s i ++ [l[k]]), [.none]) := by
        simp only [Spec.run, Spec.step, Spec.argVal, hget, Option.bind_eq_bind, Option.bind_some, if_pos hfull]
      rw [hrun]
      have hs' : Spec.upd s i (s i ++ [l[k]]) i = l ++ l.take (k + 1) := by
        simp only [Spec.upd, if_true]
        rw [hs, List.append_assoc, List.take_succ_eq_append_getElem hlt]
      have hsh' : shown ++ [l[k]] = l.take (k + 1) := by rw [hsh, List.take_succ_eq_append_getElem hlt]
      exact ih (s := Spec.upd s i (s i ++ [l[k]])) (k := k + 1) (shown := shown ++ [l[k]]) (l := l) (by omega) hs' hsh' (by
        rw [hs', List.length_append, List.length_take]; omega)
    · have hrun : Spec.run N s [.pushBack i (.elem k)] = none := by
        simp only [Spec.run, Spec.step, Spec.argVal, hget, Option.bind_eq_bind, Option.bind_some, if_neg hfull,
          Option.bind_none]
      rw [hrun, if_neg (by omega)]

/-- **C147.** `for (auto const& x : v) v.push_back(x)` makes `v` twice as long if there is room; otherwise the contract of
`push_back` fails. Other than for a `cc::vector` (C134) it is never undefined behaviour. -/
theorem C147_self_append [DecidableEq α] (triv : Bool) (N : Nat) (ops : List (Op α)) {w : World α} {os : List (Obs α)}
    (h : run triv N (World.init N) ops = .ok (w, os)) (i : Nat) :
    ∃ s, Spec.run N Spec.init ops = some (s, os) ∧
      (2 * (s i).length ≤ N → ∃ w', loop triv N w i (selfAppend i) = .ok (w', s i) ∧
        (w'.vecs i).size = 2 * (s i).length ∧ ∀ k a, (s i ++ s i)[k]? = some a → get (w'.vecs i) k = .ok a) ∧
      (N < 2 * (s i).length → loop triv N w i (selfAppend i) = .error .assert) := by
  obtain ⟨s, g, I⟩ := reach (strict := False) (fun h => h.elim) h
  obtain ⟨s2, g2, hm⟩ := C147_loop triv N ops h i (selfAppend i)
  rw [g] at g2
  cases g2
  refine ⟨s, g, ?_⟩
  have key := selfAppend_spec (i := i) (s i).length (N := N) (s := s) (k := 0) (shown := []) (l := s i) (by omega) (by simp) rfl
    (I.rel i).buf.le
  constructor
  · intro hcap
    rw [if_pos hcap] at key
    obtain ⟨s', e, es⟩ := key
    rw [e] at hm
    obtain ⟨w', e', hh⟩ := hm
    refine ⟨w', e', ?_, ?_⟩
    · rw [(hh i).1, es, List.length_append]; omega
    · rw [← es]; exact (hh i).2
  · intro hcap
    rw [if_neg (by omega)] at key
    rw [key] at hm
    exact hm

/-- Both cases happen. -/
example : (do
    let (w, _) ← run false 6 (World.init 6) [.ctorRange 0 [5, 6, 7]]
    let (w, _) ← loop false 6 w 0 (selfAppend 0)
    .ok ((w.vecs 0).size, get (w.vecs 0) 5) : R (Nat × R Nat)) = .ok (6, .ok 7) ∧
    loopDemo (selfAppend 0) = .error .assert := by
  decide +kernel

end Verif.Capped
