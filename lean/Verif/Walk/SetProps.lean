import Verif.Walk.SetLemmas
import Verif.Set.Props

/-! Property theorems for loops over `cc::set` that change the set: C132. -/
namespace Verif.Walk

open Verif.Map (HashEq)
open Verif.Set (SetSt Node Rel Fresh)

variable {T : Type _}

/-- The set after some rounds is the abstract set after the calls made so far. -/
theorem set_rounds_rel {H : HashEq T} (L : H.Lawful) {m0 : SetSt T} {s0 : List T} (Q0 : Rel H m0 s0) (F0 : Fresh m0) {prog : List T → List (Set.Op T)}
    {a : Nat} {i j : Live} {k : Nat} {vis : List (Node T)} {w : SetW T}
    (h : rounds setTable (setBody H prog) k ([], ⟨m0, a⟩, i) = .ok (vis, w, j)) :
    (Rel H w.m (Set.specRun H s0 (calls prog (vis.map Node.val))).1 ∧ Fresh w.m) ∧ j.last = i.last ∧ j.arr = i.arr := by
  refine rounds_inv (P := fun vis w => Rel H w.m (Set.specRun H s0 (calls prog (vis.map Node.val))).1 ∧ Fresh w.m) ?_ k ⟨Q0, F0⟩ h
  rintro vis n w w' ⟨Q, F⟩ hb
  obtain ⟨Q', F'⟩ := runs_rel L _ Q F hb
  refine ⟨?_, F'⟩
  rw [List.map_append, List.map_singleton] at Q' ⊢
  rw [calls_snoc, set_specRun_append]
  exact Q'

theorem set_reach {H : HashEq T} (L : H.Lawful) {ops0 : List (Set.Op T)} {m0 : SetSt T} {os0 : List Set.Out}
    (h0 : Set.implRun H Set.empty ops0 = .ok (m0, os0)) : Rel H m0 (Set.specRun H [] ops0).1 ∧ Fresh m0 := by
  refine ⟨?_, Set.fresh_run ops0 Set.fresh_empty h0⟩
  rcases Set.run_ok L ops0 (Set.empty_rel H) with ⟨_, m', h2, Q⟩ | ⟨_, h2⟩
  · rw [h2] at h0; cases h0; exact Q
  · rw [h2] at h0; cases h0

theorem first_last {S N : Type _} {T : Table S N} {s : S} {i : Live} (h : first T s = .ok i) : i.last = (T.entries s).length ∧ i.arr = T.arr s := by
  unfold first at h
  obtain ⟨p, _, h⟩ := R.bind_eq_ok.1 h
  cases h; exact ⟨rfl, rfl⟩

/-- A loop can be begun over every set. -/
theorem C132_set_begin (H : HashEq T) (L : H.Lawful) (ops0 : List (Set.Op T)) {m0 : SetSt T} {os0 : List Set.Out}
    (h0 : Set.implRun H Set.empty ops0 = .ok (m0, os0)) (a : Nat) : ∃ i, first setTable ⟨m0, a⟩ = .ok i := by
  obtain ⟨Q, F⟩ := set_reach L h0
  obtain ⟨i, e, _⟩ := loop_ok (T := setTable) (W := fun _ => False) (gone := fun _ _ => False) (body := setBody H (fun _ => []))
    (sameVal_equiv L _) ⟨m0, a⟩ (set_good L Q F) (fun _ h => h.elim)
  exact ⟨i, e⟩

/-- **C132 (partial)**, sets: the body of a loop over any reachable set may make any calls on that set, as long as they neither remove the
current element nor make the set replace its array. Then the loop ends, shows no element twice and every element that was in the set at the
beginning unless a call of the body removed it, and the set in the end is what the calls make of it. Missing: bodies that add elements which are
already there to a full set (false, see `C132_set_self_breaks`). -/
theorem C132_set_partial (H : HashEq T) (L : H.Lawful) (ops0 : List (Set.Op T)) {m0 : SetSt T} {os0 : List Set.Out}
    (h0 : Set.implRun H Set.empty ops0 = .ok (m0, os0)) (prog : List T → List (Set.Op T)) (a : Nat) {i : Live}
    (hi : first setTable ⟨m0, a⟩ = .ok i)
    (hcalm : ∀ k vis w j n, rounds setTable (setBody H prog) k ([], ⟨m0, a⟩, i) = .ok (vis, w, j) → j.more = true →
      deref setTable w j = .ok n →
      (∀ op ∈ prog ((vis ++ [n]).map Node.val), ¬ op.ends H n.val) ∧
      ∃ w', runSet H w (prog ((vis ++ [n]).map Node.val)) = .ok w' ∧ w'.arr = w.arr) :
    ∃ k vis w j, rounds setTable (setBody H prog) k ([], ⟨m0, a⟩, i) = .ok (vis, w, j) ∧ j.more = false ∧
      vis.Pairwise (fun x y => H.eq x.val y.val = false) ∧
      (∀ x, Set.mem H x (Set.specRun H [] ops0).1 = true → (∀ op ∈ calls prog (vis.map Node.val), ¬ op.ends H x) → ∃ n ∈ vis, H.eq n.val x = true) ∧
      ∃ ns, Set.iterAll w.m = .ok ns ∧ (ns.map Node.val).Perm (Set.specRun H (Set.specRun H [] ops0).1 (calls prog (vis.map Node.val))).1 := by
  obtain ⟨Q0, F0⟩ := set_reach L h0
  have hlast := (first_last hi).1
  obtain ⟨k, vis, w, j, hr, hm, hp, hcov⟩ := loop_total (T := setTable) (body := setBody H prog)
    (gone := fun v n => ∃ op ∈ prog (v.map Node.val), op.ends H n.val) (sameVal_equiv L m0.entries.length) ⟨m0, a⟩ (set_good L Q0 F0) hi (by
      intro k vis w j n h1 h2 h3 _ h5
      obtain ⟨c1, w', c2, c3⟩ := hcalm k vis w j n h1 h2 h3
      obtain ⟨⟨Q, F⟩, hl, _⟩ := set_rounds_rel L Q0 F0 h1
      obtain ⟨Q', F'⟩ := runs_rel L _ Q F c2
      have ev := evs_run L _ Q F c2 c3
      refine ⟨fun _ h => h.elim, fun ⟨op, hm, hk⟩ => c1 op hm hk, w', c2, ?_, c3, ev⟩
      have hlen : w'.m.entries.length = m0.entries.length := by
        rw [ev.length]
        exact h5.symm.trans (hl.trans hlast)
      have := set_good L Q' F'
      rw [hlen] at this
      exact this)
  obtain ⟨⟨Q, _⟩, _⟩ := set_rounds_rel L Q0 F0 hr
  refine ⟨k, vis, w, j, hr, hm, ?_, ?_, _, Set.iterAll_ok w.m, Q.perm⟩
  · refine hp.imp ?_
    intro x y h
    cases e : H.eq x.val y.val with
    | false => rfl
    | true => exact absurd e h
  · intro x hx hno
    obtain ⟨p, hp, he⟩ := Set.mem_iff.1 hx
    obtain ⟨n, hn, rfl⟩ := List.mem_map.1 (Q0.perm.mem_iff.2 hp)
    obtain ⟨v, hv, hs⟩ := hcov n ⟨n, hn, L.refl _⟩ (by
      rintro v hv hpre x hx ⟨op, ho, hk⟩
      refine hno op ?_ (ends_congr L (L.symm _ _ (L.trans _ _ _ hx he)) hk)
      obtain ⟨t, rfl⟩ := hpre
      refine mem_calls (v := v.map Node.val) ?_ ?_ ho
      · rw [List.map_append]; exact List.prefix_append _ _
      · intro c; exact hv (List.map_eq_nil_iff.1 c))
    exact ⟨v, hv, L.trans _ _ _ hs he⟩

theorem deref_mem {S N : Type _} {T : Table S N} {s : S} {j : Live} {n : N} (hd : deref T s j = .ok n) :
    n ∈ (T.entries s).flatten ∧ j.it = some (T.addr n) := by
  unfold deref at hd
  split at hd
  · cases hd
  · rename_i b hit
    unfold nodeAt at hd
    split at hd
    · rename_i h
      cases hd
      have := List.find?_some h
      rw [beq_iff_eq] at this
      exact ⟨List.mem_of_find?_eq_some h, by rw [hit]; exact congrArg some this.symm⟩
    · cases hd

/-- **C132**, sets: whatever the loop has done so far, what it shows next is an element of the set as it is now. -/
theorem C132_set_current (H : HashEq T) (L : H.Lawful) (ops0 : List (Set.Op T)) {m0 : SetSt T} {os0 : List Set.Out}
    (h0 : Set.implRun H Set.empty ops0 = .ok (m0, os0)) (prog : List T → List (Set.Op T)) (a : Nat) (i : Live) {k : Nat} {vis : List (Node T)}
    {w : SetW T} {j : Live} {n : Node T} (hr : rounds setTable (setBody H prog) k ([], ⟨m0, a⟩, i) = .ok (vis, w, j))
    (hd : deref setTable w j = .ok n) :
    n.val ∈ (Set.specRun H (Set.specRun H [] ops0).1 (calls prog (vis.map Node.val))).1 := by
  obtain ⟨Q0, F0⟩ := set_reach L h0
  obtain ⟨⟨Q, _⟩, _⟩ := set_rounds_rel L Q0 F0 hr
  exact Q.perm.mem_iff.1 (List.mem_map_of_mem (deref_mem hd).1)

/-- **C132**, sets: if the body removes the element that the loop is at, or makes the set replace its array, stepping on is undefined behaviour,
whatever else the body does. -/
theorem C132_set_removed (H : HashEq T) (L : H.Lawful) (ops0 : List (Set.Op T)) {m0 : SetSt T} {os0 : List Set.Out}
    (h0 : Set.implRun H Set.empty ops0 = .ok (m0, os0)) (prog : List T → List (Set.Op T)) (a : Nat) (i : Live) {k : Nat} {vis : List (Node T)}
    {w w' : SetW T} {j : Live} {n : Node T} (hr : rounds setTable (setBody H prog) k ([], ⟨m0, a⟩, i) = .ok (vis, w, j))
    (hd : deref setTable w j = .ok n) (hb : runSet H w (prog ((vis ++ [n]).map Node.val)) = .ok w')
    (hk : (∃ op ∈ prog ((vis ++ [n]).map Node.val), op.ends H n.val) ∨ w'.arr ≠ w.arr) :
    round setTable (setBody H prog) (vis, w, j) = .error .ub := by
  obtain ⟨Q0, F0⟩ := set_reach L h0
  obtain ⟨⟨Q, F⟩, _⟩ := set_rounds_rel L Q0 F0 hr
  obtain ⟨hn, hit⟩ := deref_mem hd
  have d := runs_kill L _ Q F hn hb hk
  unfold round
  dsimp only
  rw [hd, R.ok_bind, show setBody H prog (vis ++ [n]) w = .ok w' from hb, R.ok_bind]
  unfold inc
  rw [hit]
  dsimp only
  rw [nextOf_gone (a := setTable.addr n) ?_]
  · rfl
  · intro hm
    obtain ⟨x, hx, e⟩ := List.mem_map.1 hm
    exact d.2 x hx e

theorem self_rounds {H : HashEq T} (L : H.Lawful) {ops0 : List (Set.Op T)} {m0 : SetSt T} {os0 : List Set.Out}
    (h0 : Set.implRun H Set.empty ops0 = .ok (m0, os0)) (hroom : m0.size < m0.entries.length) {a : Nat} {i j : Live} {k : Nat} {vis : List (Node T)}
    {w : SetW T} (h : rounds setTable (selfBody H) k ([], ⟨m0, a⟩, i) = .ok (vis, w, j)) : w = ⟨m0, a⟩ := by
  refine (rounds_inv (P := fun _ w => w = ⟨m0, a⟩) ?_ k rfl h).1
  rintro vis n w w' rfl hb
  unfold selfBody at hb
  rw [List.getLast?_concat] at hb
  obtain ⟨⟨m', b⟩, e, hb⟩ := R.bind_eq_ok.1 hb
  by_cases hn : n.addr ∈ m0.nodes.map Node.addr
  · obtain ⟨x, hx, ex⟩ := List.mem_map.1 hn
    rw [← ex, Set.C64_set_add_own_element_partial H L ops0 h0 hroom hx] at e
    cases e
    cases hb
    rw [if_neg (Nat.not_le.2 hroom)]
  · unfold Set.addRef Set.ensure at e
    rw [if_neg (Nat.not_le.2 hroom), R.ok_bind, Set.readRef_of_not (a := n.addr) (fun x hx c => hn (by rw [← c]; exact List.mem_map_of_mem hx))] at e
    cases e

/-- **C132 (partial)**: `s |= s` leaves the set as it is, if the set has fewer elements than buckets. -/
theorem C132_set_self_partial (H : HashEq T) (L : H.Lawful) (ops0 : List (Set.Op T)) {m0 : SetSt T} {os0 : List Set.Out}
    (h0 : Set.implRun H Set.empty ops0 = .ok (m0, os0)) (hroom : m0.size < m0.entries.length) (a : Nat) :
    ∃ i k vis j, first setTable ⟨m0, a⟩ = .ok i ∧ rounds setTable (selfBody H) k ([], ⟨m0, a⟩, i) = .ok (vis, ⟨m0, a⟩, j) ∧ j.more = false := by
  obtain ⟨Q0, F0⟩ := set_reach L h0
  obtain ⟨i, hi⟩ := C132_set_begin H L ops0 h0 a
  have E := sameVal_equiv L m0.entries.length
  obtain ⟨k, vis, w, j, hr, hm, _⟩ := loop_total (T := setTable) (body := selfBody H) (gone := fun _ _ => False) E ⟨m0, a⟩ (set_good L Q0 F0) hi (by
      intro k vis w j n h1 h2 h3 _ h5
      have hw := self_rounds L h0 hroom h1
      subst hw
      refine ⟨fun _ h => h.elim, id, ⟨m0, a⟩, ?_, set_good L Q0 F0, rfl, Evolves.refl E _⟩
      unfold selfBody
      rw [List.getLast?_concat]
      dsimp only
      rw [Set.C64_set_add_own_element_partial H L ops0 h0 hroom (deref_mem h3).1, R.ok_bind]
      dsimp only
      rw [if_neg (by omega)])
  have hw := self_rounds L h0 hroom hr
  subst hw
  exact ⟨i, k, vis, j, hi, hr, hm⟩

/-- **C132** is false of the code: `s |= s` reads freed memory in its first round for every set that has as many elements as buckets (or more):
`add` makes room before it looks for the element, and frees the element that it was asked to add. -/
theorem C132_set_self_breaks (H : HashEq T) (L : H.Lawful) (ops0 : List (Set.Op T)) {m0 : SetSt T} {os0 : List Set.Out}
    (h0 : Set.implRun H Set.empty ops0 = .ok (m0, os0)) (hfull : m0.size ≥ m0.entries.length) (hne : 0 < m0.size) (a : Nat) :
    ∃ i, first setTable ⟨m0, a⟩ = .ok i ∧ i.more = true ∧ round setTable (selfBody H) ([], ⟨m0, a⟩, i) = .error .ub := by
  obtain ⟨Q0, F0⟩ := set_reach L h0
  obtain ⟨i, hi, hrest⟩ := loop_ok (T := setTable) (W := fun n => n ∈ m0.nodes) (gone := fun _ _ => False) (body := fun _ w => .ok w)
    (sameVal_equiv L m0.entries.length) ⟨m0, a⟩ (set_good L Q0 F0) (fun n hn => ⟨n, hn, L.refl _⟩)
  refine ⟨i, hi, ?_⟩
  have hcalm : Calm setTable (fun n => Set.loc H m0.entries.length n.val) (sameVal H) (fun _ _ => False) (fun n => n ∈ m0.nodes) (fun _ w => .ok w)
      ([], (⟨m0, a⟩ : SetW T), i) := by
    intro k vis w j n h1 _ _ _ _
    have hw : w = ⟨m0, a⟩ := (rounds_inv (P := fun _ w => w = (⟨m0, a⟩ : SetW T)) (by rintro vis n w w' rfl hb; cases hb; rfl) k rfl h1).1
    subst hw
    exact ⟨fun _ _ _ _ h => h, id, ⟨m0, a⟩, rfl, set_good L Q0 F0, rfl, Evolves.refl (sameVal_equiv L m0.entries.length) _⟩
  obtain ⟨k, vis, w, j, hr, hE, _⟩ := hrest hcalm
  have hvis : vis ≠ [] := by
    intro c
    subst c
    have h1 := Q0.size_eq
    cases hn : m0.nodes with
    | nil => rw [hn] at h1; rw [h1] at hne; cases hne
    | cons x xs =>
      obtain ⟨v, hv, _⟩ := hE.cover x (by rw [hn]; simp)
      cases hv
  have hmore : i.more = true := by
    cases h : i.more with
    | true => rfl
    | false => rw [rounds_ended (c := ([], (⟨m0, a⟩ : SetW T), i)) h k] at hr; cases hr; exact absurd rfl hvis
  refine ⟨hmore, ?_⟩
  cases k with
  | zero => cases hr; exact absurd rfl hvis
  | succ k =>
    rw [rounds, if_pos hmore] at hr
    obtain ⟨⟨v, w1, i1⟩, h1, _⟩ := R.bind_eq_ok.1 hr
    obtain ⟨n, hd, _⟩ := round_ok h1
    unfold round
    dsimp only
    rw [hd, R.ok_bind]
    have hadd : Set.addRef H m0 n.addr = .error .ub := by
      unfold Set.addRef
      cases e : Set.ensure H m0 with
      | error f =>
        obtain ⟨m1, e1, _⟩ := Set.ensure_ok L Q0
        rw [e1] at e; cases e
      | ok m1 =>
        rw [R.ok_bind]
        unfold Set.ensure at e
        rw [if_pos hfull] at e
        rw [Set.readRef_of_not (gone_reserve e (F0.lt n (deref_mem hd).1)).2]
        rfl
    unfold selfBody
    rw [List.nil_append, List.getLast?_singleton]
    dsimp only
    rw [hadd]
    rfl

/-! ### concrete loops -/

/-- A set of these elements. -/
def demoSet (xs : List Nat) : R (SetW Nat) := do
  let (m, _) ← Set.implRun Set.natHash Set.empty (xs.map .add)
  .ok ⟨m, 0⟩

/-- The elements that are shown in (at most) `k` rounds, if there is more to come, and the elements of the set then. -/
def demoSetLoop (xs : List Nat) (prog : List Nat → List (Set.Op Nat)) (k : Nat) : R (List Nat × Bool × List Nat) := do
  let w ← demoSet xs
  let i ← first setTable w
  let c ← rounds setTable (setBody Set.natHash prog) k ([], w, i)
  .ok (c.1.map Node.val, c.2.2.more, c.2.1.m.entries.flatten.map Node.val)

/- Adding and removing other elements works. -/
example : ((demoSetLoop [1, 2, 3] (fun l => match l.getLast? with
    | some x => [.remove (x + 1)]
    | none => []) 9).map (fun r => r.2.1)) = .ok false := by decide +kernel

/- Adding elements that are there to a full set: undefined behaviour. -/
example : demoSetLoop [1, 2, 3, 4] (fun l => match l.getLast? with
    | some x => [.add x]
    | none => []) 1 = .error .ub := by decide +kernel

/- The sets of `C132_set_self_partial` and `C132_set_self_breaks`. -/
example : (demoSet [1, 2, 3]).map (fun w => (w.m.size, w.m.entries.length)) = .ok (3, 4) := by decide +kernel
example : (demoSet [1, 2, 3, 4]).map (fun w => (w.m.size, w.m.entries.length)) = .ok (4, 4) := by decide +kernel

end Verif.Walk
