import Verif.Set.Lemmas

/-!
Property theorems for `cc::set`: C06, C07, and the set parts of C63 – C65.

`implRun H empty ops` is the modelled `cc::set` (Model.lean) driven by a history of user calls;
`specRun H [] ops` is the abstract finite set (Spec.lean) driven by the same history.
-/
namespace Verif.Set

open Verif.Map (HashEq)

variable {T : Type _}

/-- A concrete hash with collisions for the examples. -/
def natHash : HashEq Nat where
  hash k := BitVec.ofNat 64 (k % 3)
  eq a b := a == b

theorem natHash_lawful : natHash.Lawful where
  refl := by simp [natHash]
  symm := by intro a b; simp [natHash]; exact Eq.symm
  trans := by intro a b c; simp [natHash]; exact Eq.trans
  hash_eq := by intro a b; simp [natHash]; intro h; rw [h]

/-- A history with collisions, growth, duplicates, removal, shrinking reserve and a copy. -/
def demoOps : List (Op Nat) :=
  [.add 1, .add 4, .add 7, .add 4, .add 2, .add 10, .remove 4, .remove 4, .reserve 2, .add 11,
   .addAll [1, 20, 21], .copySelf, .contains 7, .contains 4, .size]

theorem noReserveZero {H : HashEq T} {ops : List (Op T)} {s : List T}
    (h : ∀ n, Op.reserve n ∈ ops → 0 < n) : ¬ BadRun H s ops := by
  induction ops generalizing s with
  | nil => exact id
  | cons op ops ih =>
    rintro (hb | hb)
    · cases op <;> simp only [Bad] at hb
      have := h _ (List.mem_cons_self ..)
      omega
    · exact ih (fun n hn => h n (by simp [hn])) hb

/-- **C06.** For every history without `reserve(0)` the modelled set runs without any failure and
gives exactly the observations of the abstract finite set. -/
theorem C06_set_refines_finite_set (H : HashEq T) (L : H.Lawful) (ops : List (Op T))
    (hr : ∀ n, Op.reserve n ∈ ops → 0 < n) :
    ∃ m, implRun H empty ops = .ok (m, (specRun H [] ops).2) := by
  rcases run_ok L ops (empty_rel H) with ⟨-, m, e, -⟩ | ⟨hb, -⟩
  · exact ⟨m, e⟩
  · exact absurd hb (noReserveZero hr)

example : (∀ n, Op.reserve n ∈ demoOps → 0 < n) ∧
    (specRun natHash [] demoOps).2.length = 15 := by
  constructor
  · intro n hn; simp [demoOps] at hn; omega
  · decide

/-- **C06**, iteration: visits each member of the abstract set exactly once and nothing else; the
members are pairwise different and `size()` many. -/
theorem C06_set_iteration (H : HashEq T) (L : H.Lawful) (ops : List (Op T)) {m : SetSt T}
    {os : List Out} (h : implRun H empty ops = .ok (m, os)) :
    ∃ ns, iterAll m = .ok ns ∧ (ns.map Node.val).Perm (specRun H [] ops).1 ∧
      (ns.map Node.val).Pairwise (fun a b => H.eq a b = false) ∧ ns.length = m.size := by
  rcases run_ok L ops (empty_rel H) with ⟨-, m', e, R⟩ | ⟨-, e⟩
  · rw [e] at h; simp only [Except.ok.injEq, Prod.mk.injEq] at h
    obtain ⟨rfl, -⟩ := h
    exact ⟨m'.nodes, iterAll_ok m', R.perm, R.distinct.perm L R.perm.symm, R.size_eq.symm⟩
  · rw [e] at h; simp at h

/-- **C06**, equality: `operator==` on two reachable sets never fails and is true iff the two
abstract sets have the same members. -/
theorem C06_set_equality (H : HashEq T) (L : H.Lawful) (ops1 ops2 : List (Op T)) {m1 m2 : SetSt T}
    {os1 os2 : List Out} (h1 : implRun H empty ops1 = .ok (m1, os1))
    (h2 : implRun H empty ops2 = .ok (m2, os2)) :
    ∃ b, setEq H m1 m2 = .ok b ∧
      (b = true ↔ ∀ v, mem H v (specRun H [] ops1).1 = mem H v (specRun H [] ops2).1) := by
  rcases run_ok L ops1 (empty_rel H) with ⟨-, m1', e1, R1⟩ | ⟨-, e1⟩
  · rcases run_ok L ops2 (empty_rel H) with ⟨-, m2', e2, R2⟩ | ⟨-, e2⟩
    · rw [e1] at h1; rw [e2] at h2
      simp only [Except.ok.injEq, Prod.mk.injEq] at h1 h2
      obtain ⟨rfl, -⟩ := h1
      obtain ⟨rfl, -⟩ := h2
      exact setEq_ok L R1 R2
    · rw [e2] at h2; simp at h2
  · rw [e1] at h1; simp at h1

theorem mem_insert {H : HashEq T} (L : H.Lawful) (v w : T) (s : List T) :
    mem H v (insert H w s) = (mem H v s || H.eq w v) := by
  unfold insert
  split
  · rename_i hw
    rw [Bool.eq_iff_iff, Bool.or_eq_true]
    exact ⟨.inl, fun h => h.elim id (fun he => mem_congr L he hw)⟩
  · simp [mem, Bool.or_comm]

theorem mem_addAll {H : HashEq T} (L : H.Lawful) (v : T) (vs : List T) (s : List T) :
    mem H v (vs.foldl (fun s w => insert H w s) s) = (mem H v s || mem H v vs) := by
  induction vs generalizing s with
  | nil => simp [mem]
  | cons w vs ih =>
    simp only [List.foldl_cons, ih, mem_insert L]
    simp only [mem, List.any_cons, Bool.or_assoc]

/-- **C06**, unions: `s | range` does not fail and has exactly the members of both; `s` itself is
not changed (the model's `union` is a function of `s`). -/
theorem C06_set_union (H : HashEq T) (L : H.Lawful) (ops : List (Op T)) {m : SetSt T}
    {os : List Out} (h : implRun H empty ops = .ok (m, os)) (vs : List T) :
    ∃ m', union H m vs = .ok m' ∧
      ∀ v, contains H m' v = .ok (mem H v (specRun H [] ops).1 || mem H v vs) := by
  rcases run_ok L ops (empty_rel H) with ⟨-, m1, e, R⟩ | ⟨-, e⟩
  · rw [e] at h; simp only [Except.ok.injEq, Prod.mk.injEq] at h
    obtain ⟨rfl, -⟩ := h
    obtain ⟨m2, e2, R2⟩ := addAll_ok L vs (copy_rel R m1.next).1
    exact ⟨m2, e2, fun v => by rw [contains_ok L R2, mem_addAll L]⟩
  · rw [e] at h; simp at h

/-- The demo history runs: 7 elements in 8 buckets. -/
example : ((implRun natHash empty demoOps).toOption.map (fun r => (r.1.size, r.1.entries.length)))
    = some (7, 8) := by decide +kernel

/-- **C07 is false of the code.** `reserve(0)` on a non-empty set trips the assertion in
`_get_location` (set.hh:236), for every reachable non-empty set. -/
theorem C07_set_reserve_zero_asserts (H : HashEq T) (L : H.Lawful) (ops : List (Op T)) {m : SetSt T}
    {os : List Out} (h : implRun H empty ops = .ok (m, os)) (hne : (specRun H [] ops).1 ≠ []) :
    reserve H m 0 = .error .assert := by
  rcases run_ok L ops (empty_rel H) with ⟨-, m1, e, R⟩ | ⟨-, e⟩
  · rw [e] at h; simp only [Except.ok.injEq, Prod.mk.injEq] at h
    obtain ⟨rfl, -⟩ := h
    apply reserve_zero
    intro hc
    have h1 := R.perm
    simp [vals, hc] at h1
    exact hne h1
  · rw [e] at h; simp at h

example : (specRun natHash [] [.add 1]).1 ≠ [] := by decide

/-- **C07**, what holds (partial: `n > 0` only): `reserve(n)` with any positive `n` — larger or
smaller than the current size — does not fail, gives exactly `n` buckets and keeps the members. -/
theorem C07_set_reserve_partial (H : HashEq T) (L : H.Lawful) (ops : List (Op T)) {m : SetSt T}
    {os : List Out} (h : implRun H empty ops = .ok (m, os)) (n : Nat) (hn : 0 < n) :
    ∃ m', reserve H m n = .ok m' ∧ m'.entries.length = n ∧ m'.size = m.size ∧
      ∀ v, contains H m' v = contains H m v := by
  rcases run_ok L ops (empty_rel H) with ⟨-, m1, e, R⟩ | ⟨-, e⟩
  · rw [e] at h; simp only [Except.ok.injEq, Prod.mk.injEq] at h
    obtain ⟨rfl, -⟩ := h
    obtain ⟨m2, e2, R2, l2, s2⟩ := reserve_ok R hn
    exact ⟨m2, e2, l2, s2, fun v => by rw [contains_ok L R2, contains_ok L R]⟩
  · rw [e] at h; simp at h

/-- **C63 is false of the code** (set part): lookups in a moved-from non-empty set assert. -/
theorem C63_set_moved_from_not_usable (H : HashEq T) (L : H.Lawful) (ops : List (Op T))
    {m : SetSt T} {os : List Out} (h : implRun H empty ops = .ok (m, os))
    (hne : (specRun H [] ops).1 ≠ []) (v : T) :
    contains H (movedFrom m) v = .error .assert := by
  rcases run_ok L ops (empty_rel H) with ⟨-, m1, e, R⟩ | ⟨-, e⟩
  · rw [e] at h; simp only [Except.ok.injEq, Prod.mk.injEq] at h
    obtain ⟨rfl, -⟩ := h
    have hs : m1.size ≠ 0 := by
      intro hc
      rw [R.size_len] at hc
      exact hne (List.length_eq_zero_iff.1 hc)
    simp [contains, movedFrom, hs, location_zero]
  · rw [e] at h; simp at h

/-- **C63**, what holds (partial): after `clear()` a moved-from set is a correct empty set. -/
theorem C63_set_moved_from_clear_partial (H : HashEq T) (L : H.Lawful) (m : SetSt T)
    (ops : List (Op T)) (hr : ∀ n, Op.reserve n ∈ ops → 0 < n) :
    ∃ m', implRun H (clear (movedFrom m)) ops = .ok (m', (specRun H [] ops).2) := by
  rcases run_ok L ops (clear_rel (H := H) (m := movedFrom m)) with ⟨-, m, e, -⟩ | ⟨hb, -⟩
  · exact ⟨m, e⟩
  · exact absurd hb (noReserveZero hr)

/-- **C64 is false of the code.** Adding a reference to an element of the set itself
(`s.add(*s.begin())`, or `s |= s`) reads freed memory when the call rehashes: here a set with four
elements in four buckets. -/
theorem C64_set_add_own_element_dangles :
    ∃ (ops : List (Op Nat)) (m : SetSt Nat) (os : List Out) (n : Node Nat),
      implRun natHash empty ops = .ok (m, os) ∧ n ∈ m.entries.flatten ∧
      addRef natHash m n.addr = .error .ub := by
  have h : ((implRun natHash empty [.add 0, .add 1, .add 2, .add 3]).toOption.map (fun r =>
      match r.1.entries.flatten with
      | [] => false
      | n :: _ => match addRef natHash r.1 n.addr with | .error .ub => true | _ => false))
      = some true := by decide +kernel
  cases h0 : implRun natHash empty [.add 0, .add 1, .add 2, .add 3] with
  | error e => rw [h0] at h; simp [Except.toOption] at h
  | ok r =>
    rw [h0] at h
    simp only [Except.toOption, Option.map_some, Option.some.injEq] at h
    cases hn : r.1.entries.flatten with
    | nil => rw [hn] at h; simp at h
    | cons n ns =>
      rw [hn] at h
      refine ⟨_, r.1, r.2, n, h0, by rw [hn]; simp, ?_⟩
      simp only at h
      split at h <;> simp_all

/-- **C64**, what holds (partial): as long as the set has fewer elements than buckets the call is
safe: it returns false and changes nothing. -/
theorem C64_set_add_own_element_partial (H : HashEq T) (L : H.Lawful) (ops : List (Op T))
    {m : SetSt T} {os : List Out} (h : implRun H empty ops = .ok (m, os))
    (hroom : m.size < m.entries.length) {n : Node T} (hn : n ∈ m.entries.flatten) :
    addRef H m n.addr = .ok (m, false) := by
  rcases run_ok L ops (empty_rel H) with ⟨-, m1, e, R⟩ | ⟨-, e⟩
  · rw [e] at h; simp only [Except.ok.injEq, Prod.mk.injEq] at h
    obtain ⟨rfl, -⟩ := h
    have h1 : ensure H m1 = .ok m1 := by
      unfold ensure; simp [Nat.not_le.2 hroom]
    obtain ⟨x, hx, hxm⟩ : ∃ x, readRef m1 n.addr = .ok x ∧ mem H x (specRun H [] ops).1 = true := by
      unfold readRef
      cases hf : m1.entries.flatten.find? (fun y => y.addr == n.addr) with
      | none => have := List.find?_eq_none.1 hf n hn; simp at this
      | some y =>
        refine ⟨y.val, rfl, mem_iff.2 ⟨y.val, R.perm.mem_iff.1 ?_, L.refl _⟩⟩
        exact List.mem_map.2 ⟨y, List.mem_of_find?_eq_some hf, rfl⟩
    have hc : 0 < m1.entries.length := by omega
    simp only [addRef, h1, Verif.R.ok_bind, hx, addTail, location_eq H hc, bucket_eq (loc_lt H hc x),
      chain_spec L R.placed hc]
    have : mem H x (m1.entries.flatten.map Node.val) = true := by
      rw [← hxm]; exact mem_perm R.perm
    rw [this]; rfl
  · rw [e] at h; simp at h

/-- The hypotheses of `C64_set_add_own_element_partial` are met by a set of three elements. -/
example : ((implRun natHash empty [.add 0, .add 1, .add 2]).toOption.map (fun r =>
    (decide (r.1.size < r.1.entries.length), r.1.entries.flatten.length))) = some (true, 3) := by
  decide +kernel

/-- **C65 is false of the code.** After `reserve(n)` a set that never holds more than `n` elements
can still be rebuilt: adding an element that is already contained while holding `n` elements
doubles the table. -/
theorem C65_set_reserve_rehashes :
    ∃ (m1 m2 m3 : SetSt Nat) (o : List Out), reserve natHash empty 2 = .ok m1 ∧
      implRun natHash m1 [.add 0, .add 1] = .ok (m2, o) ∧ m2.entries.length = 2 ∧
      add natHash m2 0 = .ok (m3, false) ∧ m3.size = 2 ∧ m3.entries.length = 4 := by
  have h : ((reserve natHash empty 2).toOption.bind (fun m1 =>
      (implRun natHash m1 [.add 0, .add 1]).toOption.bind (fun r =>
        (add natHash r.1 0).toOption.map (fun q =>
          (r.1.entries.length, q.2, q.1.size, q.1.entries.length)))))
      = some (2, false, 2, 4) := by decide +kernel
  cases h1 : reserve natHash empty 2 with
  | error e => rw [h1] at h; simp [Except.toOption] at h
  | ok m1 =>
    cases h2 : implRun natHash m1 [.add 0, .add 1] with
    | error e => simp [h1, h2, Except.toOption] at h
    | ok r =>
      cases h3 : add natHash r.1 0 with
      | error e => simp [h1, h2, h3, Except.toOption] at h
      | ok q =>
        simp only [h1, h2, h3, Except.toOption, Option.bind_some, Option.map_some,
          Option.some.injEq, Prod.mk.injEq] at h
        refine ⟨m1, r.1, q.1, r.2, rfl, h2, h.1, ?_, h.2.2.1, h.2.2.2⟩
        rw [h3, ← h.2.1]

/-- **C65**, what holds (partial): after `reserve(n)` the table keeps its `n` buckets through every
history of adds, removes, queries, clears and copies in which each `add` happens while the set has
fewer than `n` elements. -/
theorem C65_set_reserve_partial (H : HashEq T) (L : H.Lawful) (ops0 ops : List (Op T))
    {m0 m1 m2 : SetSt T} {os0 os : List Out} {n : Nat} (hn : 0 < n)
    (h0 : implRun H empty ops0 = .ok (m0, os0)) (h1 : reserve H m0 n = .ok m1)
    (hop : ∀ op ∈ ops, (∀ k, op ≠ .reserve k) ∧ (∀ vs, op ≠ .addAll vs))
    (hroom : ∀ pre v, pre ++ [Op.add v] <+: ops →
      (specRun H (specRun H [] ops0).1 pre).1.length < n)
    (h2 : implRun H m1 ops = .ok (m2, os)) : m2.entries.length = n := by
  rcases run_ok L ops0 (empty_rel H) with ⟨-, m0', e, R0⟩ | ⟨-, e⟩
  · rw [e] at h0; simp only [Except.ok.injEq, Prod.mk.injEq] at h0
    obtain ⟨rfl, -⟩ := h0
    generalize (specRun H [] ops0).1 = s0 at R0 hroom
    obtain ⟨m1', e1, R1, l1, -⟩ := reserve_ok R0 hn
    rw [e1] at h1; simp only [Except.ok.injEq] at h1; subst h1
    clear e1 R0
    induction ops generalizing m1' s0 os with
    | nil =>
      simp only [implRun, Except.ok.injEq, Prod.mk.injEq] at h2
      rw [← h2.1]; exact l1
    | cons op ops ih =>
      simp only [implRun] at h2
      obtain ⟨⟨m3, o⟩, e3, e4⟩ := Verif.R.bind_eq_ok.1 h2
      obtain ⟨⟨m4, os4⟩, e5, e6⟩ := Verif.R.bind_eq_ok.1 e4
      simp only [Verif.R.pure_eq, Except.ok.injEq, Prod.mk.injEq] at e6
      have hstep : m3.entries.length = n := by
        cases op with
        | add v =>
          obtain ⟨m5, e7, -, l5⟩ := add_ok L R1 v
          have := hroom [] v (by simp)
          simp only [specRun] at this
          simp only [implStep, e7, Verif.R.ok_bind, Verif.R.pure_eq, Except.ok.injEq, Prod.mk.injEq] at e3
          rw [← e3.1, l5 (by rw [R1.size_len, l1]; exact this), l1]
        | remove v =>
          obtain ⟨m5, e7, -, l5⟩ := remove_ok L R1 v
          simp only [implStep, e7, Verif.R.ok_bind, Verif.R.pure_eq, Except.ok.injEq, Prod.mk.injEq] at e3
          rw [← e3.1, l5, l1]
        | addAll vs => exact absurd rfl ((hop _ (List.mem_cons_self ..)).2 vs)
        | reserve k => exact absurd rfl ((hop _ (List.mem_cons_self ..)).1 k)
        | clear =>
          simp only [implStep, Except.ok.injEq, Prod.mk.injEq] at e3
          rw [← e3.1]; simpa [clear] using l1
        | copySelf =>
          simp only [implStep, Except.ok.injEq, Prod.mk.injEq] at e3
          rw [← e3.1, (copy_rel R1 _).2, l1]
        | contains v =>
          simp only [implStep, contains_ok L R1, Verif.R.ok_bind, Verif.R.pure_eq, Except.ok.injEq, Prod.mk.injEq] at e3
          rw [← e3.1, l1]
        | size =>
          simp only [implStep, Except.ok.injEq, Prod.mk.injEq] at e3
          rw [← e3.1, l1]
      rcases step_ok L R1 op with ⟨-, m5, e7, R5⟩ | ⟨-, e7⟩
      · rw [e7] at e3; simp only [Except.ok.injEq, Prod.mk.injEq] at e3
        obtain ⟨rfl, rfl⟩ := e3
        refine ih (os := os4) (fun op' hop' => hop op' (by simp [hop'])) _ ?_ _ R5 hstep
          (by rw [← e6.1]; exact e5)
        intro pre v hpre
        have := hroom (op :: pre) v (by simpa using hpre)
        simpa [specRun] using this
      · rw [e7] at e3; simp at e3
  · rw [e] at h0; simp at h0

end Verif.Set
