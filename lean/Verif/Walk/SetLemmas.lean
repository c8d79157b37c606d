import Verif.Walk.Lemmas
import Verif.Walk.Set
import Verif.Set.RefProps

/-! What the calls on a set do to its chains. -/
namespace Verif.Walk

open Verif.Map (HashEq)
open Verif.Set (SetSt Node Rel Placed Distinct Fresh)

variable {T : Type _}

/-- Nodes of equal elements. -/
def sameVal (H : HashEq T) (a b : Node T) : Prop := H.eq a.val b.val = true

theorem sameVal_equiv {H : HashEq T} (L : H.Lawful) (cap : Nat) :
    Equiv (N := Node T) (fun n => Set.loc H cap n.val) (sameVal H) :=
  ⟨fun _ => L.refl _, fun _ _ => L.symm _ _, fun _ _ _ => L.trans _ _ _, fun _ _ h => Set.loc_congr L h cap⟩

theorem nodes_distinct {H : HashEq T} (L : H.Lawful) {m : SetSt T} {s : List T} (Q : Rel H m s) :
    m.nodes.Pairwise (fun a b => H.eq a.val b.val = false) := by
  have := Q.distinct.perm L Q.perm.symm
  unfold Set.vals at this
  exact List.pairwise_map.1 this

theorem set_good {H : HashEq T} (L : H.Lawful) {m : SetSt T} {s : List T} (Q : Rel H m s) (F : Fresh m) :
    Good Node.addr (fun n => Set.loc H m.entries.length n.val) (sameVal H) m.entries := by
  refine ⟨F.nodup, ?_, ?_⟩
  · intro j l h n hn
    obtain ⟨hj, e⟩ := List.getElem?_eq_some_iff.1 h
    exact Q.placed j hj n (e ▸ hn)
  · refine (nodes_distinct L Q).imp ?_
    intro a b h hs
    rw [sameVal, h] at hs
    cases hs

theorem evs_push {H : HashEq T} (L : H.Lawful) {gone : Node T → Prop} {es : List (List (Node T))} {i : Nat} {l : List (Node T)} (n : Node T)
    (h : es[i]? = some l) : Evolves Node.addr (sameVal H) gone es (es.set i (n :: l)) := by
  refine ⟨some, fun j => if j = i then [n] else [], ?_, ?_, ?_⟩
  · intro n n' h; cases h; exact ⟨rfl, L.refl _⟩
  · intro n _ h; cases h
  · intro j
    rw [List.getElem?_set]
    split
    · rename_i e
      subst e
      rw [if_pos (List.getElem?_eq_some_iff.1 h).1, h]
      simp
    · rename_i e
      dsimp only
      rw [show (if j = i then [n] else []) = [] from if_neg (fun c => e c.symm)]
      cases es[j]? with
      | none => rfl
      | some l => simp

theorem evs_add {H : HashEq T} (L : H.Lawful) {gone : Node T → Prop} {m m' : SetSt T} {v : T} {b : Bool}
    (hr : m.size < m.entries.length) (e : Set.add H m v = .ok (m', b)) : Evolves Node.addr (sameVal H) gone m.entries m'.entries := by
  unfold Set.add Set.ensure at e
  rw [if_neg (by omega), R.ok_bind] at e
  unfold Set.addTail at e
  obtain ⟨idx, _, e⟩ := R.bind_eq_ok.1 e
  obtain ⟨l, hb, e⟩ := R.bind_eq_ok.1 e
  split at e
  · cases e; exact Evolves.refl (sameVal_equiv L 0) _
  · cases e; exact evs_push L _ (Set.bucket_some hb)

theorem evs_addAll {H : HashEq T} (L : H.Lawful) {gone : Node T → Prop} (vs : List T) {m m' : SetSt T}
    (hr : addsReplace H m vs = false) (e : Set.addAll H m vs = .ok m') (hg : ∀ n, ¬ gone n) :
    Evolves Node.addr (sameVal H) gone m.entries m'.entries := by
  induction vs generalizing m with
  | nil => cases e; exact Evolves.refl (sameVal_equiv L 0) _
  | cons v vs ih =>
    unfold Set.addAll at e
    obtain ⟨⟨m1, b⟩, e1, e2⟩ := R.bind_eq_ok.1 e
    unfold addsReplace at hr
    rw [Bool.or_eq_false_iff, e1, decide_eq_false_iff_not] at hr
    exact (evs_add (gone := gone) L (by omega) e1).trans (sameVal_equiv L 0) (ih hr.2 e2) (fun _ h => h) (fun _ n' _ h => absurd h (hg n'))

theorem eraseAfterLoop_vals {H : HashEq T} (L : H.Lawful) {v : T} {p : Node T} {ns l' : List (Node T)}
    (hd : (p :: ns).Pairwise (fun a b => H.eq a.val b.val = false))
    (hp : H.eq p.val v = false) (h : Set.eraseAfterLoop H v p ns = some l') : l' = (p :: ns).filter (fun n => !H.eq n.val v) := by
  induction ns generalizing p l' with
  | nil => cases h
  | cons n ns ih =>
    have hd' := (List.pairwise_cons.1 hd).2
    unfold Set.eraseAfterLoop at h
    rw [List.filter_cons, if_pos (by rw [hp]; rfl)]
    split at h
    · rename_i he
      cases h
      rw [List.filter_cons, if_neg (by rw [he]; exact Bool.false_ne_true)]
      congr 1
      symm
      rw [List.filter_eq_self]
      intro x hx
      have := (List.pairwise_cons.1 hd').1 x hx
      cases hxk : H.eq x.val v with
      | false => rfl
      | true => rw [L.trans _ _ _ he (L.symm _ _ hxk)] at this; cases this
    · rename_i he
      obtain ⟨l2, h2, rfl⟩ := Option.map_eq_some_iff.1 h
      rw [ih hd' (by simpa using he) h2]

/-- `remove` takes exactly the nodes of that element out of their chains. -/
theorem remove_entries {H : HashEq T} (L : H.Lawful) {m m' : SetSt T} {s : List T} (Q : Rel H m s) {v : T} {b : Bool}
    (e : Set.remove H m v = .ok (m', b)) : m'.entries = m.entries.map (fun l => l.filter (fun n => !H.eq n.val v)) ∧ m'.next = m.next := by
  have none_gone : (∀ n ∈ m.nodes, H.eq n.val v = false) → m.entries = m.entries.map (fun l => l.filter (fun n => !H.eq n.val v)) := by
    intro h
    symm
    conv => rhs; rw [← List.map_id m.entries]
    apply List.map_congr_left
    intro l hl
    rw [id, List.filter_eq_self]
    intro n hn
    rw [h n (List.mem_flatten.2 ⟨l, hl, hn⟩)]; rfl
  unfold Set.remove at e
  split at e
  · rename_i h0
    cases e
    refine ⟨none_gone ?_, rfl⟩
    intro n hn
    have := Q.size_eq
    rw [h0] at this
    rw [List.length_eq_zero_iff.1 this.symm] at hn
    cases hn
  · rename_i h0
    have hc : 0 < m.entries.length := by
      cases he : m.entries with
      | nil => have := Q.size_eq; rw [SetSt.nodes, he] at this; exact absurd this h0
      | cons a b => exact Nat.succ_pos _
    have hl := Set.loc_lt H hc v
    rw [Set.location_eq H hc, R.ok_bind, Set.bucket_eq hl, R.ok_bind] at e
    -- the other chains have no such node
    have other : ∀ j (hj : j < m.entries.length), j ≠ Set.loc H m.entries.length v → m.entries[j].filter (fun n => !H.eq n.val v) = m.entries[j] := by
      intro j hj hne
      rw [List.filter_eq_self]
      intro n hn
      cases he : H.eq n.val v with
      | false => rfl
      | true => exact absurd ((Q.placed j hj n hn).symm.trans (Set.loc_congr L he _)) hne
    have fin : ∀ l', l' = m.entries[Set.loc H m.entries.length v].filter (fun n => !H.eq n.val v) →
        m.entries.set (Set.loc H m.entries.length v) l' = m.entries.map (fun l => l.filter (fun n => !H.eq n.val v)) := by
      intro l' hl'
      apply List.ext_getElem
      · simp
      · intro j h1 h2
        rw [List.getElem_set, List.getElem_map]
        split
        · rename_i he; subst he; exact hl'
        · rename_i he
          rw [other j (by simpa using h2) (fun c => he c.symm)]
    have hsame : (∀ n ∈ m.entries[Set.loc H m.entries.length v], H.eq n.val v = false) → m.entries = m.entries.map (fun l => l.filter (fun n => !H.eq n.val v)) := by
      intro h
      rw [← fin _ rfl]
      rw [List.filter_eq_self.2 (fun n hn => by rw [h n hn]; rfl), List.set_getElem_self]
    have hd : m.entries[Set.loc H m.entries.length v].Pairwise (fun a b => H.eq a.val b.val = false) :=
      (nodes_distinct L Q).sublist (List.sublist_flatten_of_mem (List.getElem_mem hl))
    cases hb : m.entries[Set.loc H m.entries.length v] with
    | nil =>
      rw [hb] at e hsame
      cases e
      exact ⟨hsame (by intro n hn; cases hn), rfl⟩
    | cons n ns =>
      rw [hb] at e fin hd hsame
      dsimp only at e
      split at e
      · rename_i he
        cases e
        refine ⟨fin ns ?_, rfl⟩
        rw [List.filter_cons, if_neg (by rw [he]; exact Bool.false_ne_true)]
        symm
        rw [List.filter_eq_self]
        intro x hx
        have := (List.pairwise_cons.1 hd).1 x hx
        cases hxk : H.eq x.val v with
        | false => rfl
        | true => rw [L.trans _ _ _ he (L.symm _ _ hxk)] at this; cases this
      · rename_i he
        split at e
        · rename_i l' hE
          cases e
          exact ⟨fin l' (eraseAfterLoop_vals L hd (by simpa using he) hE), rfl⟩
        · rename_i hE
          cases e
          refine ⟨hsame ?_, rfl⟩
          intro x hx
          rcases List.mem_cons.1 hx with e2 | hx
          · rw [e2]; simpa using he
          · exact Set.eraseAfterLoop_none hE x hx

theorem evs_filter {H : HashEq T} (L : H.Lawful) {es : List (List (Node T))} {q : Node T → Bool} :
    Evolves Node.addr (sameVal H) (fun n => q n = false) es (es.map (fun l => l.filter q)) := by
  refine ⟨fun n => if q n then some n else none, fun _ => [], ?_, ?_, ?_⟩
  · intro n n' h
    dsimp only at h
    split at h
    · cases h; exact ⟨rfl, L.refl _⟩
    · cases h
  · intro n _ h
    dsimp only at h
    split at h
    · cases h
    · rename_i hq; simpa using hq
  · intro j
    rw [List.getElem?_map]
    cases es[j]? with
    | none => rfl
    | some l =>
      simp only [Option.map_some, List.nil_append, Option.some.injEq]
      rw [← List.filterMap_eq_filter]
      congr 1

/-- What a call that keeps the array does to the chains. -/
theorem evs_step {H : HashEq T} (L : H.Lawful) {m m' : SetSt T} {s : List T} (Q : Rel H m s) {op : Set.Op T} {o : Set.Out}
    (hr : replacesSet H m op = false) (e : Set.implStep H m op = .ok (m', o)) :
    Evolves Node.addr (sameVal H) (fun n => op.ends H n.val) m.entries m'.entries := by
  have E := sameVal_equiv L 0
  cases op with
  | add v =>
    obtain ⟨⟨m1, b⟩, e1, e⟩ := R.bind_eq_ok.1 e
    cases e
    unfold replacesSet addsReplace at hr
    rw [Bool.or_eq_false_iff, decide_eq_false_iff_not] at hr
    exact evs_add L (by omega) e1
  | addAll vs =>
    obtain ⟨m1, e1, e⟩ := R.bind_eq_ok.1 e
    cases e
    exact evs_addAll L vs hr e1 (fun _ h => h)
  | remove v =>
    obtain ⟨⟨m1, b⟩, e1, e⟩ := R.bind_eq_ok.1 e
    cases e
    rw [(remove_entries L Q e1).1]
    exact (evs_filter L).mono (fun n h => by simpa [Set.Op.ends] using h)
  | reserve n => cases hr
  | clear =>
    cases e
    have := evs_filter (H := H) L (es := m.entries) (q := fun _ => false)
    refine Evolves.mono (g := fun _ => True) ?_ (fun _ _ => trivial)
    have h2 : (Set.clear m).entries = m.entries.map (fun l => l.filter (fun _ => false)) := by
      change m.entries.map (fun _ => []) = _
      apply List.map_congr_left
      intro l _
      simp
    rw [h2]
    exact this.mono (fun _ _ => trivial)
  | copySelf => cases hr
  | contains k =>
    obtain ⟨b, _, e⟩ := R.bind_eq_ok.1 e
    cases e; exact Evolves.refl E _
  | size => cases e; exact Evolves.refl E _

theorem ends_congr {H : HashEq T} (L : H.Lawful) {a b : T} (h : H.eq a b = true) {op : Set.Op T} (hk : op.ends H b) : op.ends H a := by
  cases op with
  | remove k => exact L.trans _ _ _ h hk
  | clear => trivial
  | copySelf => trivial
  | _ => exact hk

theorem steps_rel {H : HashEq T} (L : H.Lawful) {w w' : SetW T} {s : List T} (Q : Rel H w.m s) (F : Fresh w.m) {op : Set.Op T}
    (e : stepSet H w op = .ok w') : Rel H w'.m (Set.specStep H s op).1 ∧ Fresh w'.m := by
  unfold stepSet at e
  obtain ⟨⟨m', o⟩, e1, e⟩ := R.bind_eq_ok.1 e
  cases e
  refine ⟨?_, Set.fresh_step F e1⟩
  rcases Set.step_ok L Q op with ⟨_, m2, h2, h3⟩ | ⟨_, h⟩
  · rw [h2] at e1; cases e1
    exact h3
  · rw [h] at e1; cases e1

theorem runs_rel {H : HashEq T} (L : H.Lawful) (ops : List (Set.Op T)) {w w' : SetW T} {s : List T} (Q : Rel H w.m s) (F : Fresh w.m)
    (e : runSet H w ops = .ok w') : Rel H w'.m (Set.specRun H s ops).1 ∧ Fresh w'.m := by
  induction ops generalizing w s with
  | nil => cases e; exact ⟨Q, F⟩
  | cons op ops ih =>
    obtain ⟨w1, e1, e2⟩ := R.bind_eq_ok.1 e
    obtain ⟨Q1, F1⟩ := steps_rel L Q F e1
    exact ih Q1 F1 e2

theorem steps_arr {H : HashEq T} {w w' : SetW T} {op : Set.Op T} (e : stepSet H w op = .ok w') :
    w.arr ≤ w'.arr ∧ (w'.arr = w.arr → replacesSet H w.m op = false) := by
  unfold stepSet at e
  obtain ⟨⟨m', o⟩, e1, e⟩ := R.bind_eq_ok.1 e
  cases e
  cases replacesSet H w.m op with
  | false => exact ⟨Nat.le_refl _, fun _ => rfl⟩
  | true => exact ⟨Nat.le_succ _, fun h => absurd h (Nat.succ_ne_self _)⟩

theorem runs_arr {H : HashEq T} (ops : List (Set.Op T)) {w w' : SetW T} (e : runSet H w ops = .ok w') : w.arr ≤ w'.arr := by
  induction ops generalizing w with
  | nil => cases e; exact Nat.le_refl _
  | cons op ops ih =>
    obtain ⟨w1, e1, e2⟩ := R.bind_eq_ok.1 e
    exact Nat.le_trans (steps_arr e1).1 (ih e2)

/-- What calls that keep the array do to the chains. -/
theorem evs_run {H : HashEq T} (L : H.Lawful) (ops : List (Set.Op T)) {w w' : SetW T} {s : List T} (Q : Rel H w.m s) (F : Fresh w.m)
    (e : runSet H w ops = .ok w') (ha : w'.arr = w.arr) :
    Evolves Node.addr (sameVal H) (fun n => ∃ op ∈ ops, op.ends H n.val) w.m.entries w'.m.entries := by
  induction ops generalizing w s with
  | nil => cases e; exact Evolves.refl (sameVal_equiv L 0) _
  | cons op ops ih =>
    obtain ⟨w1, e1, e2⟩ := R.bind_eq_ok.1 e
    have h1 := steps_arr e1
    have h2 := runs_arr ops e2
    have h3 := h1.2 (by omega)
    obtain ⟨Q1, F1⟩ := steps_rel L Q F e1
    have ev2 := ih Q1 F1 e2 (by omega)
    unfold stepSet at e1
    obtain ⟨⟨m', o'⟩, e3, e4⟩ := R.bind_eq_ok.1 e1
    have ev1 := evs_step L Q h3 e3
    cases e4
    refine ev1.trans (sameVal_equiv L 0) ev2 (fun n h => ⟨op, by simp, h⟩) ?_
    rintro n n' hs ⟨op', hm, hk⟩
    exact ⟨op', List.mem_cons_of_mem _ hm, ends_congr L hs hk⟩

theorem set_specRun_append (H : HashEq T) (a b : List (Set.Op T)) (s : List T) :
    (Set.specRun H s (a ++ b)).1 = (Set.specRun H (Set.specRun H s a).1 b).1 := by
  induction a generalizing s with
  | nil => rfl
  | cons op a ih => exact ih _

/-! ### nodes that are gone stay away -/

/-- No node of the set has this address, and none will get it. -/
def Gone (m : SetSt T) (a : Nat) : Prop := a < m.next ∧ ∀ n ∈ m.nodes, n.addr ≠ a

theorem gone_reserve {H : HashEq T} {m m' : SetSt T} {c a : Nat} (e : Set.reserve H m c = .ok m') (h : a < m.next) : Gone m' a := by
  have A := Set.above_reserve e
  have := A.le
  refine ⟨by omega, fun n hn => ?_⟩
  have := A.ge n hn
  omega

theorem gone_add {H : HashEq T} {m m' : SetSt T} {v : T} {b : Bool} {a : Nat} (e : Set.add H m v = .ok (m', b)) (d : Gone m a) : Gone m' a := by
  unfold Set.add at e
  obtain ⟨m1, e1, e⟩ := R.bind_eq_ok.1 e
  have d1 : Gone m1 a := by
    unfold Set.ensure at e1
    split at e1
    · exact gone_reserve e1 d.1
    · cases e1; exact d
  unfold Set.addTail at e
  obtain ⟨idx, _, e⟩ := R.bind_eq_ok.1 e
  obtain ⟨l, hb, e⟩ := R.bind_eq_ok.1 e
  split at e
  · cases e; exact d1
  · cases e
    obtain ⟨rest, h1, h2⟩ := Set.flatten_set_perm' (Set.bucket_some hb) ({ addr := m1.next, val := v } :: l)
    refine ⟨Nat.lt_succ_of_lt d1.1, fun n hn => ?_⟩
    rcases List.mem_cons.1 (h1.mem_iff.1 hn) with h | h
    · rw [h]; exact Nat.ne_of_gt d1.1
    · exact d1.2 n (h2.mem_iff.2 h)

theorem gone_addAll {H : HashEq T} (vs : List T) {m m' : SetSt T} {a : Nat} (e : Set.addAll H m vs = .ok m') (d : Gone m a) : Gone m' a := by
  induction vs generalizing m with
  | nil => cases e; exact d
  | cons v vs ih =>
    unfold Set.addAll at e
    obtain ⟨⟨m1, b⟩, e1, e2⟩ := R.bind_eq_ok.1 e
    exact ih e2 (gone_add e1 d)

theorem gone_copy {m : SetSt T} {a : Nat} (h : a < m.next) : Gone (Set.copy m m.next) a := by
  have A := Set.above_copy m m.next
  have := A.le
  refine ⟨by omega, fun n hn => ?_⟩
  have := A.ge n hn
  omega

theorem gone_clear {m : SetSt T} {a : Nat} (h : a < m.next) : Gone (Set.clear m) a := by
  have : (Set.clear m).nodes = [] := by simp [Set.clear, SetSt.nodes]
  exact ⟨h, by rw [this]; simp⟩

theorem gone_step {H : HashEq T} (L : H.Lawful) {m m' : SetSt T} {s : List T} (Q : Rel H m s) {op : Set.Op T} {o : Set.Out} {a : Nat}
    (e : Set.implStep H m op = .ok (m', o)) (d : Gone m a) : Gone m' a := by
  cases op with
  | add v =>
    obtain ⟨⟨m1, b⟩, e1, e⟩ := R.bind_eq_ok.1 e
    cases e; exact gone_add e1 d
  | addAll vs =>
    obtain ⟨m1, e1, e⟩ := R.bind_eq_ok.1 e
    cases e; exact gone_addAll vs e1 d
  | remove v =>
    obtain ⟨⟨m1, b⟩, e1, e⟩ := R.bind_eq_ok.1 e
    cases e
    obtain ⟨h1, h2⟩ := remove_entries L Q e1
    refine ⟨by rw [h2]; exact d.1, fun n hn => ?_⟩
    rw [SetSt.nodes, h1] at hn
    obtain ⟨l, hl, hn⟩ := List.mem_flatten.1 hn
    obtain ⟨l0, hl0, rfl⟩ := List.mem_map.1 hl
    exact d.2 n (List.mem_flatten.2 ⟨l0, hl0, (List.mem_filter.1 hn).1⟩)
  | reserve n =>
    obtain ⟨m1, e1, e⟩ := R.bind_eq_ok.1 e
    cases e; exact gone_reserve e1 d.1
  | clear => cases e; exact gone_clear d.1
  | copySelf => cases e; exact gone_copy d.1
  | contains k =>
    obtain ⟨b, _, e⟩ := R.bind_eq_ok.1 e
    cases e; exact d
  | size => cases e; exact d

/-- A call that removes the element of a node, or replaces the array, frees the node. -/
theorem gone_kill {H : HashEq T} (L : H.Lawful) {m m' : SetSt T} {s : List T} (Q : Rel H m s) (F : Fresh m) {op : Set.Op T} {o : Set.Out} {n : Node T}
    (hn : n ∈ m.nodes) (e : Set.implStep H m op = .ok (m', o)) (hk : op.ends H n.val ∨ replacesSet H m op = true) : Gone m' n.addr := by
  have hf := F.lt n hn
  have hadd : ∀ {vs : List T} {m m' : SetSt T}, n.addr < m.next → addsReplace H m vs = true → Set.addAll H m vs = .ok m' → Gone m' n.addr := by
    intro vs
    induction vs with
    | nil => intro m m' _ h; cases h
    | cons v vs ih =>
      intro m m' hf h e
      unfold Set.addAll at e
      obtain ⟨⟨m1, b⟩, e1, e2⟩ := R.bind_eq_ok.1 e
      unfold addsReplace at h
      rw [e1, Bool.or_eq_true] at h
      have e1' := e1
      unfold Set.add at e1
      obtain ⟨m2, e3, e4⟩ := R.bind_eq_ok.1 e1
      have hle : m2.next ≤ m1.next := by
        unfold Set.addTail at e4
        obtain ⟨idx, _, e4⟩ := R.bind_eq_ok.1 e4
        obtain ⟨l, hb, e4⟩ := R.bind_eq_ok.1 e4
        split at e4
        · cases e4; exact Nat.le_refl _
        · cases e4; exact Nat.le_succ _
      by_cases c : m.size ≥ m.entries.length
      · unfold Set.ensure at e3
        rw [if_pos c] at e3
        have d := gone_reserve e3 hf
        refine gone_addAll vs e2 ?_
        unfold Set.addTail at e4
        obtain ⟨idx, _, e4⟩ := R.bind_eq_ok.1 e4
        obtain ⟨l, hb, e4⟩ := R.bind_eq_ok.1 e4
        split at e4
        · cases e4; exact d
        · cases e4
          obtain ⟨rest, h1, h2⟩ := Set.flatten_set_perm' (Set.bucket_some hb) ({ addr := m2.next, val := v } :: l)
          refine ⟨Nat.lt_succ_of_lt d.1, fun x hx => ?_⟩
          rcases List.mem_cons.1 (h1.mem_iff.1 hx) with h | h
          · rw [h]; exact Nat.ne_of_gt d.1
          · exact d.2 x (h2.mem_iff.2 h)
      · refine ih ?_ (h.resolve_left (by simpa using c)) e2
        unfold Set.ensure at e3
        rw [if_neg c] at e3
        cases e3
        omega
  cases op with
  | add v =>
    obtain ⟨⟨m1, b⟩, e1, e⟩ := R.bind_eq_ok.1 e
    cases e
    exact hadd hf (hk.resolve_left id) (by rw [Set.addAll, e1]; rfl)
  | addAll vs =>
    obtain ⟨m1, e1, e⟩ := R.bind_eq_ok.1 e
    cases e
    exact hadd hf (hk.resolve_left id) e1
  | remove k =>
    obtain ⟨⟨m1, b⟩, e1, e⟩ := R.bind_eq_ok.1 e
    cases e
    obtain ⟨h1, h2⟩ := remove_entries L Q e1
    have hk := hk.resolve_right Bool.false_ne_true
    refine ⟨by rw [h2]; exact hf, fun x hx ha => ?_⟩
    rw [SetSt.nodes, h1] at hx
    obtain ⟨l, hl, hx⟩ := List.mem_flatten.1 hx
    obtain ⟨l0, hl0, rfl⟩ := List.mem_map.1 hl
    obtain ⟨hx1, hx2⟩ := List.mem_filter.1 hx
    have hval : x = n := by
      have hx3 := Set.readRef_of_mem F (List.mem_flatten.2 ⟨l0, hl0, hx1⟩)
      have a1 := nodeAt_mem F.nodup (List.mem_flatten.2 ⟨l0, hl0, hx1⟩ : x ∈ m.nodes)
      have a2 := nodeAt_mem F.nodup hn
      rw [ha, a2] at a1
      exact (Except.ok.inj a1).symm
    rw [hval, show H.eq n.val k = true from hk] at hx2
    cases hx2
  | reserve c =>
    obtain ⟨m1, e1, e⟩ := R.bind_eq_ok.1 e
    cases e; exact gone_reserve e1 hf
  | clear => cases e; exact gone_clear hf
  | copySelf => cases e; exact gone_copy hf
  | contains k => exact (hk.elim id Bool.false_ne_true).elim
  | size => exact (hk.elim id Bool.false_ne_true).elim

theorem gone_run {H : HashEq T} (L : H.Lawful) (ops : List (Set.Op T)) {w w' : SetW T} {s : List T} (Q : Rel H w.m s) (F : Fresh w.m) {a : Nat}
    (e : runSet H w ops = .ok w') (d : Gone w.m a) : Gone w'.m a := by
  induction ops generalizing w s with
  | nil => cases e; exact d
  | cons op ops ih =>
    obtain ⟨w1, e1, e2⟩ := R.bind_eq_ok.1 e
    obtain ⟨Q1, F1⟩ := steps_rel L Q F e1
    refine ih Q1 F1 e2 ?_
    unfold stepSet at e1
    obtain ⟨⟨m', o'⟩, e3, e4⟩ := R.bind_eq_ok.1 e1
    cases e4
    exact gone_step L Q e3 d

/-- A node is freed by the first call that removes its element or replaces the array. -/
theorem runs_kill {H : HashEq T} (L : H.Lawful) (ops : List (Set.Op T)) {w w' : SetW T} {s : List T} (Q : Rel H w.m s) (F : Fresh w.m) {n : Node T}
    (hn : n ∈ w.m.nodes) (e : runSet H w ops = .ok w') (hk : (∃ op ∈ ops, op.ends H n.val) ∨ w'.arr ≠ w.arr) : Gone w'.m n.addr := by
  induction ops generalizing w s n with
  | nil =>
    cases e
    rcases hk with ⟨op, h, _⟩ | h
    · cases h
    · exact (h rfl).elim
  | cons op ops ih =>
    obtain ⟨w1, e1, e2⟩ := R.bind_eq_ok.1 e
    obtain ⟨Q1, F1⟩ := steps_rel L Q F e1
    have e1' := e1
    unfold stepSet at e1
    obtain ⟨⟨m', o'⟩, e3, e4⟩ := R.bind_eq_ok.1 e1
    cases e4
    by_cases hop : op.ends H n.val ∨ replacesSet H w.m op = true
    · exact gone_run L ops Q1 F1 e2 (gone_kill L Q F hn e3 hop)
    · have hr : replacesSet H w.m op = false := by
        cases h : replacesSet H w.m op with
        | false => rfl
        | true => exact (hop (Or.inr h)).elim
      obtain ⟨f, news, p1, p2, p3⟩ := evs_step L Q hr e3
      obtain ⟨n', hf⟩ : ∃ n', f n = some n' := by
        cases h : f n with
        | some x => exact ⟨x, rfl⟩
        | none => exact (hop (Or.inl (p2 n hn h))).elim
      obtain ⟨a1, a2⟩ := p1 n n' hf
      have hn' : n' ∈ m'.nodes := by
        obtain ⟨l, hl, hnl⟩ := List.mem_flatten.1 hn
        obtain ⟨j, hj⟩ := List.mem_iff_getElem?.1 hl
        have := p3 j
        rw [hj] at this
        exact List.mem_flatten.2 ⟨_, List.mem_of_getElem? this, List.mem_append_right _ (List.mem_filterMap.2 ⟨n, hnl, hf⟩)⟩
      rw [← a1]
      refine ih (n := n') Q1 F1 hn' e2 ?_
      rcases hk with ⟨op', hm, hk'⟩ | h
      · left
        rcases List.mem_cons.1 hm with rfl | hm
        · exact absurd (Or.inl hk') hop
        · exact ⟨op', hm, ends_congr L (L.symm _ _ a2) hk'⟩
      · right
        rw [hr]
        exact h

end Verif.Walk
