import Verif.Walk.Lemmas
import Verif.Walk.Map
import Verif.Map.IterLemmas

/-! What the calls on a map do to its chains. -/
namespace Verif.Walk

open Verif.Map (HashEq MapSt Node Inv Rel Placed Distinct AMap)

variable {K V : Type _}

/-- Nodes of equal keys. -/
def sameKey (H : HashEq K) (a b : Node K V) : Prop := H.eq a.key b.key = true

theorem sameKey_equiv {H : HashEq K} (L : H.Lawful) (cap : Nat) :
    Equiv (N := Node K V) (fun n => Map.loc H cap n.key) (sameKey H) :=
  ⟨fun _ => L.refl _, fun _ _ => L.symm _ _, fun _ _ _ => L.trans _ _ _, fun _ _ h => Map.loc_congr L h cap⟩

theorem good_of_inv {H : HashEq K} {m : MapSt K V} (I : Inv H m) :
    Good Node.addr (fun n => Map.loc H m.entries.length n.key) (sameKey H) m.entries := by
  refine ⟨I.addrs, ?_, ?_⟩
  · intro j l h n hn
    obtain ⟨hj, e⟩ := List.getElem?_eq_some_iff.1 h
    exact I.placed j hj n (e ▸ hn)
  · refine I.distinct.imp ?_
    intro a b h hs
    rw [sameKey, h] at hs
    cases hs

theorem ev_modify {H : HashEq K} (L : H.Lawful) {gone : Node K V → Prop} {m m' : MapSt K V} {a : Nat} {f : V → V}
    (e : Map.modifyRef m a f = .ok m') : Evolves Node.addr (sameKey H) gone m.entries m'.entries := by
  unfold Map.modifyRef at e
  split at e
  · cases e
    refine ⟨fun n => some (if n.addr == a then { n with val := f n.val } else n), fun _ => [], ?_, ?_, ?_⟩
    · intro n n' h
      cases h
      split
      · exact ⟨rfl, L.refl _⟩
      · exact ⟨rfl, L.refl _⟩
    · intro n _ h; cases h
    · intro j
      rw [List.getElem?_map]
      cases m.entries[j]? with
      | none => rfl
      | some l => simp [List.filterMap_eq_map']
  · cases e

theorem bucket_some {es : List (List (Node K V))} {i : Nat} {l : List (Node K V)} (h : Map.bucket es i = .ok l) : es[i]? = some l := by
  unfold Map.bucket at h
  cases e : es[i]? with
  | none => rw [e] at h; cases h
  | some x => rw [e] at h; cases h; rfl

theorem ev_push {H : HashEq K} (L : H.Lawful) {gone : Node K V → Prop} {es : List (List (Node K V))} {i : Nat} {l : List (Node K V)} (n : Node K V)
    (h : es[i]? = some l) : Evolves Node.addr (sameKey H) gone es (es.set i (n :: l)) := by
  refine ⟨some, fun j => if j = i then [n] else [], ?_, ?_, ?_⟩
  · intro n n' h; cases h; exact ⟨rfl, L.refl _⟩
  · intro n _ h; cases h
  · intro j
    rw [List.getElem?_set]
    split
    · rename_i e
      subst e
      rw [if_pos (List.getElem?_eq_some_iff.1 h).1, h]
      simp
    · rename_i e
      dsimp only
      rw [show (if j = i then [n] else []) = [] from if_neg (fun c => e c.symm)]
      cases es[j]? with
      | none => rfl
      | some l => simp

theorem ev_index {H : HashEq K} (L : H.Lawful) {gone : Node K V → Prop} {m m' : MapSt K V} {k : K} {v : V} {a : Nat}
    (hr : (m.entries.isEmpty || decide (m.size > m.entries.length)) = false) (e : Map.index H m k v = .ok (m', a)) :
    Evolves Node.addr (sameKey H) gone m.entries m'.entries := by
  unfold Map.index Map.ensure at e
  rw [if_neg, R.ok_bind] at e
  · obtain ⟨idx, _, e⟩ := R.bind_eq_ok.1 e
    obtain ⟨l, hb, e⟩ := R.bind_eq_ok.1 e
    split at e
    · cases e; exact Evolves.refl (sameKey_equiv L 0) _
    · cases e; exact ev_push L _ (bucket_some hb)
  · intro h
    rw [Bool.or_eq_false_iff] at hr
    rcases h with h | h
    · rw [h] at hr; exact absurd hr.1 (by simp)
    · rw [decide_eq_true h] at hr; exact absurd hr.2 (by simp)

theorem eraseAfterLoop_filter {H : HashEq K} (L : H.Lawful) {k : K} {p : Node K V} {ns l' : List (Node K V)} (hd : Distinct H (p :: ns))
    (hp : H.eq p.key k = false) (h : Map.eraseAfterLoop H k p ns = some l') : l' = (p :: ns).filter (fun n => !H.eq n.key k) := by
  induction ns generalizing p l' with
  | nil => cases h
  | cons n ns ih =>
    have hd' : Distinct H (n :: ns) := (List.pairwise_cons.1 hd).2
    unfold Map.eraseAfterLoop at h
    rw [List.filter_cons, if_pos (by rw [hp]; rfl)]
    split at h
    · rename_i he
      cases h
      rw [List.filter_cons, if_neg (by rw [he]; exact Bool.false_ne_true)]
      congr 1
      symm
      rw [List.filter_eq_self]
      intro x hx
      have := (List.pairwise_cons.1 hd').1 x hx
      cases hxk : H.eq x.key k with
      | false => rfl
      | true => rw [L.trans _ _ _ he (L.symm _ _ hxk)] at this; cases this
    · rename_i he
      obtain ⟨l2, h2, rfl⟩ := Option.map_eq_some_iff.1 h
      rw [ih hd' (by simpa using he) h2]

/-- `remove_key` takes exactly the nodes of that key out of their chains. -/
theorem removeKey_entries {H : HashEq K} (L : H.Lawful) {m m' : MapSt K V} (I : Inv H m) {k : K} {b : Bool}
    (e : Map.removeKey H m k = .ok (m', b)) : m'.entries = m.entries.map (fun l => l.filter (fun n => !H.eq n.key k)) ∧ m'.next = m.next := by
  have none_gone : (∀ n ∈ m.nodes, H.eq n.key k = false) → m.entries = m.entries.map (fun l => l.filter (fun n => !H.eq n.key k)) := by
    intro h
    symm
    conv => rhs; rw [← List.map_id m.entries]
    apply List.map_congr_left
    intro l hl
    rw [id, List.filter_eq_self]
    intro n hn
    rw [h n (List.mem_flatten.2 ⟨l, hl, hn⟩)]; rfl
  unfold Map.removeKey at e
  split at e
  · rename_i h0
    cases e
    refine ⟨none_gone ?_, rfl⟩
    intro n hn
    have := I.size_eq
    rw [h0] at this
    rw [List.length_eq_zero_iff.1 this.symm] at hn
    cases hn
  · rename_i h0
    have hc : 0 < m.entries.length := by
      cases he : m.entries with
      | nil => have := I.size_eq; rw [MapSt.nodes, he] at this; exact absurd this h0
      | cons a b => exact Nat.succ_pos _
    have hl := Map.loc_lt H hc k
    rw [Map.location_eq H hc, R.ok_bind, Map.bucket_eq hl, R.ok_bind] at e
    -- the other chains have no such node
    have other : ∀ j (hj : j < m.entries.length), j ≠ Map.loc H m.entries.length k → m.entries[j].filter (fun n => !H.eq n.key k) = m.entries[j] := by
      intro j hj hne
      rw [List.filter_eq_self]
      intro n hn
      cases he : H.eq n.key k with
      | false => rfl
      | true => exact absurd ((I.placed j hj n hn).symm.trans (Map.loc_congr L he _)) hne
    have fin : ∀ l', l' = m.entries[Map.loc H m.entries.length k].filter (fun n => !H.eq n.key k) →
        m.entries.set (Map.loc H m.entries.length k) l' = m.entries.map (fun l => l.filter (fun n => !H.eq n.key k)) := by
      intro l' hl'
      apply List.ext_getElem
      · simp
      · intro j h1 h2
        rw [List.getElem_set, List.getElem_map]
        split
        · rename_i he; subst he; exact hl'
        · rename_i he
          rw [other j (by simpa using h2) (fun c => he c.symm)]
    have hsame : (∀ n ∈ m.entries[Map.loc H m.entries.length k], H.eq n.key k = false) → m.entries = m.entries.map (fun l => l.filter (fun n => !H.eq n.key k)) := by
      intro h
      rw [← fin _ rfl]
      rw [List.filter_eq_self.2 (fun n hn => by rw [h n hn]; rfl), List.set_getElem_self]
    have hd : Distinct H m.entries[Map.loc H m.entries.length k] := by
      have := I.distinct
      exact this.sublist (List.sublist_flatten_of_mem (List.getElem_mem hl))
    cases hb : m.entries[Map.loc H m.entries.length k] with
    | nil =>
      rw [hb] at e hsame
      cases e
      exact ⟨hsame (by intro n hn; cases hn), rfl⟩
    | cons n ns =>
      rw [hb] at e fin hd hsame
      dsimp only at e
      split at e
      · rename_i he
        cases e
        refine ⟨fin ns ?_, rfl⟩
        rw [List.filter_cons, if_neg (by rw [he]; exact Bool.false_ne_true)]
        symm
        rw [List.filter_eq_self]
        intro x hx
        have := (List.pairwise_cons.1 hd).1 x hx
        cases hxk : H.eq x.key k with
        | false => rfl
        | true => rw [L.trans _ _ _ he (L.symm _ _ hxk)] at this; cases this
      · rename_i he
        split at e
        · rename_i l' hE
          cases e
          exact ⟨fin l' (eraseAfterLoop_filter L hd (by simpa using he) hE), rfl⟩
        · rename_i hE
          cases e
          refine ⟨hsame ?_, rfl⟩
          intro x hx
          rcases List.mem_cons.1 hx with e2 | hx
          · rw [e2]; simpa using he
          · exact Map.eraseAfterLoop_none hE x hx

theorem ev_filter {H : HashEq K} (L : H.Lawful) {es : List (List (Node K V))} {q : Node K V → Bool} :
    Evolves Node.addr (sameKey H) (fun n => q n = false) es (es.map (fun l => l.filter q)) := by
  refine ⟨fun n => if q n then some n else none, fun _ => [], ?_, ?_, ?_⟩
  · intro n n' h
    dsimp only at h
    split at h
    · cases h; exact ⟨rfl, L.refl _⟩
    · cases h
  · intro n _ h
    dsimp only at h
    split at h
    · cases h
    · rename_i hq; simpa using hq
  · intro j
    rw [List.getElem?_map]
    cases es[j]? with
    | none => rfl
    | some l =>
      simp only [Option.map_some, List.nil_append, Option.some.injEq]
      rw [← List.filterMap_eq_filter]
      congr 1

/-- What a call that keeps the array does to the chains. -/
theorem ev_step {H : HashEq K} (L : H.Lawful) {m m' : MapSt K V} (I : Inv H m) {op : Map.Op K V} {o : Map.Out V}
    (hr : replaces m op = false) (e : Map.implStep H m op = .ok (m', o)) :
    Evolves Node.addr (sameKey H) (fun n => op.kills H n.key) m.entries m'.entries := by
  have E := sameKey_equiv (V := V) L 0
  cases op with
  | index k d f =>
    obtain ⟨⟨m1, a⟩, e1, e⟩ := R.bind_eq_ok.1 e
    obtain ⟨m2, e2, e⟩ := R.bind_eq_ok.1 e
    cases e
    exact (ev_index L hr e1).trans E (g1 := fun _ => False) (g2 := fun _ => False) (ev_modify L e2) (fun _ h => h.elim) (fun _ _ _ h => h.elim)
  | getOrCreate k v =>
    obtain ⟨⟨m1, a⟩, e1, e⟩ := R.bind_eq_ok.1 e
    obtain ⟨m2, e2, e⟩ := R.bind_eq_ok.1 e
    cases e
    exact ev_index L hr e1
  | removeKey k =>
    obtain ⟨⟨m1, b⟩, e1, e⟩ := R.bind_eq_ok.1 e
    cases e
    rw [(removeKey_entries L I e1).1]
    exact (ev_filter L).mono (fun n h => by simpa [Map.Op.kills] using h)
  | reserve n =>
    obtain ⟨m1, e1, e⟩ := R.bind_eq_ok.1 e
    cases e
    unfold Map.reserve at e1
    rw [if_pos (by simpa [replaces] using hr)] at e1
    cases e1
    exact Evolves.refl E _
  | clear =>
    cases e
    have := ev_filter (V := V) (H := H) L (es := m.entries) (q := fun _ => false)
    refine Evolves.mono (g := fun _ => True) ?_ (fun _ _ => trivial)
    have h2 : (Map.clear m).entries = m.entries.map (fun l => l.filter (fun _ => false)) := by
      change m.entries.map (fun _ => []) = _
      apply List.map_congr_left
      intro l _
      simp
    rw [h2]
    exact this.mono (fun _ _ => trivial)
  | copySelf => cases hr
  | containsKey k =>
    obtain ⟨b, _, e⟩ := R.bind_eq_ok.1 e
    cases e; exact Evolves.refl E _
  | getPtr k =>
    obtain ⟨b, _, e⟩ := R.bind_eq_ok.1 e
    cases e; exact Evolves.refl E _
  | get k =>
    obtain ⟨b, _, e⟩ := R.bind_eq_ok.1 e
    cases e; exact Evolves.refl E _
  | getOr k d =>
    obtain ⟨b, _, e⟩ := R.bind_eq_ok.1 e
    cases e; exact Evolves.refl E _
  | getTo k d =>
    obtain ⟨b, _, e⟩ := R.bind_eq_ok.1 e
    cases e; exact Evolves.refl E _
  | size => cases e; exact Evolves.refl E _

theorem kills_congr {H : HashEq K} (L : H.Lawful) {a b : K} (h : H.eq a b = true) {op : Map.Op K V} (hk : op.kills H b) : op.kills H a := by
  cases op with
  | removeKey k => exact L.trans _ _ _ h hk
  | clear => trivial
  | copySelf => trivial
  | _ => exact hk

theorem step_rel {H : HashEq K} (L : H.Lawful) {w w' : MapW K V} {s : AMap K V} (Q : Rel H w.m s) {op : Map.Op K V}
    (e : stepMap H w op = .ok w') : ∃ s' o, Map.specStep H s op = some (s', o) ∧ Rel H w'.m s' := by
  unfold stepMap at e
  obtain ⟨⟨m', o⟩, e1, e⟩ := R.bind_eq_ok.1 e
  cases e
  rcases Map.step_ok L Q op with ⟨_, f, h⟩ | ⟨s', m2, o2, h1, h2, h3⟩
  · rw [h] at e1; cases e1
  · rw [h2] at e1; cases e1
    exact ⟨s', _, h1, h3⟩

theorem run_rel {H : HashEq K} (L : H.Lawful) (ops : List (Map.Op K V)) {w w' : MapW K V} {s : AMap K V} (Q : Rel H w.m s)
    (e : runMap H w ops = .ok w') : ∃ s' os, Map.specRun H s ops = some (s', os) ∧ Rel H w'.m s' := by
  induction ops generalizing w s with
  | nil => cases e; exact ⟨s, [], rfl, Q⟩
  | cons op ops ih =>
    obtain ⟨w1, e1, e2⟩ := R.bind_eq_ok.1 e
    obtain ⟨s1, o, h1, Q1⟩ := step_rel L Q e1
    obtain ⟨s2, os, h2, Q2⟩ := ih Q1 e2
    exact ⟨s2, o :: os, by simp [Map.specRun, h1, h2], Q2⟩

theorem step_arr {H : HashEq K} {w w' : MapW K V} {op : Map.Op K V} (e : stepMap H w op = .ok w') :
    w.arr ≤ w'.arr ∧ (w'.arr = w.arr → replaces w.m op = false) := by
  unfold stepMap at e
  obtain ⟨⟨m', o⟩, e1, e⟩ := R.bind_eq_ok.1 e
  cases e
  cases replaces w.m op with
  | false => exact ⟨Nat.le_refl _, fun _ => rfl⟩
  | true => exact ⟨Nat.le_succ _, fun h => absurd h (Nat.succ_ne_self _)⟩

theorem run_arr {H : HashEq K} (ops : List (Map.Op K V)) {w w' : MapW K V} (e : runMap H w ops = .ok w') : w.arr ≤ w'.arr := by
  induction ops generalizing w with
  | nil => cases e; exact Nat.le_refl _
  | cons op ops ih =>
    obtain ⟨w1, e1, e2⟩ := R.bind_eq_ok.1 e
    exact Nat.le_trans (step_arr e1).1 (ih e2)

/-- What calls that keep the array do to the chains. -/
theorem ev_run {H : HashEq K} (L : H.Lawful) (ops : List (Map.Op K V)) {w w' : MapW K V} {s : AMap K V} (Q : Rel H w.m s)
    (e : runMap H w ops = .ok w') (ha : w'.arr = w.arr) :
    Evolves Node.addr (sameKey H) (fun n => ∃ op ∈ ops, op.kills H n.key) w.m.entries w'.m.entries := by
  induction ops generalizing w s with
  | nil => cases e; exact Evolves.refl (sameKey_equiv L 0) _
  | cons op ops ih =>
    obtain ⟨w1, e1, e2⟩ := R.bind_eq_ok.1 e
    have h1 := step_arr e1
    have h2 := run_arr ops e2
    have h3 := h1.2 (by omega)
    obtain ⟨s1, o, _, Q1⟩ := step_rel L Q e1
    have ev2 := ih Q1 e2 (by omega)
    unfold stepMap at e1
    obtain ⟨⟨m', o'⟩, e3, e4⟩ := R.bind_eq_ok.1 e1
    have ev1 := ev_step L Q.inv h3 e3
    cases e4
    refine ev1.trans (sameKey_equiv L 0) ev2 (fun n h => ⟨op, by simp, h⟩) ?_
    rintro n n' hs ⟨op', hm, hk⟩
    exact ⟨op', List.mem_cons_of_mem _ hm, kills_congr L hs hk⟩

theorem specRun_append (H : HashEq K) (a b : List (Map.Op K V)) (s : AMap K V) {s1 s2 : AMap K V} {o1 o2 : List (Map.Out V)}
    (h1 : Map.specRun H s a = some (s1, o1)) (h2 : Map.specRun H s1 b = some (s2, o2)) : Map.specRun H s (a ++ b) = some (s2, o1 ++ o2) := by
  induction a generalizing s o1 with
  | nil => cases h1; exact h2
  | cons op a ih =>
    rw [Map.specRun] at h1
    obtain ⟨⟨s', o⟩, e1, h1⟩ := Option.bind_eq_some_iff.1 h1
    obtain ⟨⟨s'', os⟩, e2, h1⟩ := Option.bind_eq_some_iff.1 h1
    cases h1
    simp [Map.specRun, e1, ih s' e2]

/-! ### nodes that are gone stay away -/

/-- No node of the map has this address, and none will get it. -/
def Dead (m : MapSt K V) (a : Nat) : Prop := a < m.next ∧ ∀ n ∈ m.nodes, n.addr ≠ a

theorem dead_index {H : HashEq K} (L : H.Lawful) {m m' : MapSt K V} {s : AMap K V} (Q : Rel H m s) {k : K} {v : V} {b a : Nat}
    (e : Map.index H m k v = .ok (m', b)) (d : Dead m a) : Dead m' a ∧ Inv H m' := by
  obtain ⟨m2, a2, e2, hcase, -⟩ := Map.index_ok L Q k v
  rw [e2] at e
  cases e
  rcases hcase with ⟨n, hn, ha, he, R1, -, p, hx⟩ | ⟨n, ha, hk, hv, hp, I1, -, -, hb, hx⟩
  · exact ⟨⟨by rw [hx]; exact d.1, fun n hn => d.2 n (p.mem_iff.1 hn)⟩, R1.inv⟩
  · refine ⟨⟨by rw [hx]; exact Nat.lt_succ_of_lt d.1, fun x hx' => ?_⟩, I1⟩
    rcases List.mem_cons.1 (hp.mem_iff.1 hx') with e | hx'
    · rw [e, ha, hb]; exact Nat.ne_of_gt d.1
    · exact d.2 x hx'

theorem dead_modify {m m' : MapSt K V} {b a : Nat} {f : V → V} (e : Map.modifyRef m b f = .ok m') (d : Dead m a) : Dead m' a := by
  unfold Map.modifyRef at e
  split at e
  · cases e
    refine ⟨d.1, fun n hn => ?_⟩
    simp only [MapSt.nodes, Map.flatten_map_map] at hn
    obtain ⟨x, hx, rfl⟩ := List.mem_map.1 hn
    have := d.2 x hx
    split <;> exact this
  · cases e

theorem dead_step {H : HashEq K} (L : H.Lawful) {m m' : MapSt K V} {s : AMap K V} (Q : Rel H m s) {op : Map.Op K V} {o : Map.Out V} {a : Nat}
    (e : Map.implStep H m op = .ok (m', o)) (d : Dead m a) : Dead m' a := by
  cases op with
  | index k v f =>
    obtain ⟨⟨m1, b⟩, e1, e⟩ := R.bind_eq_ok.1 e
    obtain ⟨m2, e2, e⟩ := R.bind_eq_ok.1 e
    cases e
    exact dead_modify e2 (dead_index L Q e1 d).1
  | getOrCreate k v =>
    obtain ⟨⟨m1, b⟩, e1, e⟩ := R.bind_eq_ok.1 e
    obtain ⟨m2, e2, e⟩ := R.bind_eq_ok.1 e
    cases e
    exact (dead_index L Q e1 d).1
  | removeKey k =>
    obtain ⟨⟨m1, b⟩, e1, e⟩ := R.bind_eq_ok.1 e
    cases e
    obtain ⟨h1, h2⟩ := removeKey_entries L Q.inv e1
    refine ⟨by rw [h2]; exact d.1, fun n hn => ?_⟩
    rw [MapSt.nodes, h1] at hn
    obtain ⟨l, hl, hn⟩ := List.mem_flatten.1 hn
    obtain ⟨l0, hl0, rfl⟩ := List.mem_map.1 hl
    exact d.2 n (List.mem_flatten.2 ⟨l0, hl0, (List.mem_filter.1 hn).1⟩)
  | reserve n =>
    obtain ⟨m1, e1, e⟩ := R.bind_eq_ok.1 e
    cases e
    obtain ⟨m2, e2, I, p, h⟩ := Map.reserve_ok L Q.inv n
    rw [e2] at e1
    cases e1
    exact ⟨by rw [h.2.2.1]; exact d.1, fun x hx => d.2 x (p.mem_iff.1 hx)⟩
  | clear =>
    cases e
    refine ⟨d.1, fun n hn => ?_⟩
    rw [MapSt.nodes, show (Map.clear m).entries.flatten = [] from Map.flatten_map_nil m.entries] at hn
    cases hn
  | copySelf =>
    cases e
    have h := Map.copyEntries_addr m.next m.entries
    refine ⟨Nat.lt_of_lt_of_le d.1 (Nat.le_add_right ..), fun n hn => ?_⟩
    have h2 : n.addr ∈ (Map.copyEntries m.next m.entries).flatten.map Node.addr := List.mem_map_of_mem hn
    rw [h, List.mem_range'_1] at h2
    have := d.1
    omega
  | containsKey k =>
    obtain ⟨b, _, e⟩ := R.bind_eq_ok.1 e
    cases e; exact d
  | getPtr k =>
    obtain ⟨b, _, e⟩ := R.bind_eq_ok.1 e
    cases e; exact d
  | get k =>
    obtain ⟨b, _, e⟩ := R.bind_eq_ok.1 e
    cases e; exact d
  | getOr k x =>
    obtain ⟨b, _, e⟩ := R.bind_eq_ok.1 e
    cases e; exact d
  | getTo k x =>
    obtain ⟨b, _, e⟩ := R.bind_eq_ok.1 e
    cases e; exact d
  | size => cases e; exact d

/-- A call that removes the entry of a node frees it. -/
theorem dead_kill {H : HashEq K} (L : H.Lawful) {m m' : MapSt K V} {s : AMap K V} (Q : Rel H m s) {op : Map.Op K V} {o : Map.Out V} {n : Node K V}
    (hn : n ∈ m.nodes) (e : Map.implStep H m op = .ok (m', o)) (hk : op.kills H n.key) : Dead m' n.addr := by
  have hf := Q.inv.fresh n hn
  cases op with
  | removeKey k =>
    obtain ⟨⟨m1, b⟩, e1, e⟩ := R.bind_eq_ok.1 e
    cases e
    obtain ⟨h1, h2⟩ := removeKey_entries L Q.inv e1
    refine ⟨by rw [h2]; exact hf, fun x hx ha => ?_⟩
    rw [MapSt.nodes, h1] at hx
    obtain ⟨l, hl, hx⟩ := List.mem_flatten.1 hx
    obtain ⟨l0, hl0, rfl⟩ := List.mem_map.1 hl
    obtain ⟨hx1, hx2⟩ := List.mem_filter.1 hx
    rw [Map.addr_unique Q.inv.addrs (List.mem_flatten.2 ⟨l0, hl0, hx1⟩) hn ha, show H.eq n.key k = true from hk] at hx2
    cases hx2
  | clear =>
    cases e
    refine ⟨hf, fun x hx => ?_⟩
    rw [MapSt.nodes, show (Map.clear m).entries.flatten = [] from Map.flatten_map_nil m.entries] at hx
    cases hx
  | copySelf =>
    cases e
    have h := Map.copyEntries_addr m.next m.entries
    refine ⟨Nat.lt_of_lt_of_le hf (Nat.le_add_right ..), fun x hx => ?_⟩
    have h2 : x.addr ∈ (Map.copyEntries m.next m.entries).flatten.map Node.addr := List.mem_map_of_mem hx
    rw [h, List.mem_range'_1] at h2
    omega
  | _ => exact hk.elim

theorem dead_run {H : HashEq K} (L : H.Lawful) (ops : List (Map.Op K V)) {w w' : MapW K V} {s : AMap K V} (Q : Rel H w.m s) {a : Nat}
    (e : runMap H w ops = .ok w') (d : Dead w.m a) : Dead w'.m a := by
  induction ops generalizing w s with
  | nil => cases e; exact d
  | cons op ops ih =>
    obtain ⟨w1, e1, e2⟩ := R.bind_eq_ok.1 e
    obtain ⟨s1, o, _, Q1⟩ := step_rel L Q e1
    refine ih Q1 e2 ?_
    unfold stepMap at e1
    obtain ⟨⟨m', o'⟩, e3, e4⟩ := R.bind_eq_ok.1 e1
    cases e4
    exact dead_step L Q e3 d

/-- A node either keeps its address and key or dies with the first call that removes its entry. -/
theorem run_kill {H : HashEq K} (L : H.Lawful) (ops : List (Map.Op K V)) {w w' : MapW K V} {s : AMap K V} (Q : Rel H w.m s) {n : Node K V}
    (hn : n ∈ w.m.nodes) (e : runMap H w ops = .ok w') (hk : ∃ op ∈ ops, op.kills H n.key) : Dead w'.m n.addr := by
  have key : ∀ (ops : List (Map.Op K V)) (w : MapW K V) (s : AMap K V), Rel H w.m s → Map.Holds H w.m n.addr n.key → runMap H w ops = .ok w' →
      (∃ op ∈ ops, op.kills H n.key) → Dead w'.m n.addr := by
    intro ops
    induction ops with
    | nil => rintro w s _ _ _ ⟨op, h, _⟩; cases h
    | cons op ops ih =>
      intro w s Q hh e hk
      obtain ⟨w1, e1, e2⟩ := R.bind_eq_ok.1 e
      obtain ⟨s1, o, _, Q1⟩ := step_rel L Q e1
      have e1' := e1
      unfold stepMap at e1
      obtain ⟨⟨m', o'⟩, e3, e4⟩ := R.bind_eq_ok.1 e1
      by_cases hop : op.kills H n.key
      · refine dead_run L ops Q1 e2 ?_
        cases e4
        obtain ⟨x, hx, ha, hxk⟩ := hh
        rw [← ha]
        exact dead_kill L Q hx e3 (kills_congr L hxk hop)
      · refine ih w1 s1 Q1 ?_ e2 ?_
        · cases e4
          exact Map.step_holds L Q e3 hop hh
        · obtain ⟨op', hm, hk'⟩ := hk
          rcases List.mem_cons.1 hm with rfl | hm
          · exact absurd hk' hop
          · exact ⟨op', hm, hk'⟩
  exact key ops w s Q ⟨n, hn, rfl, L.refl _⟩ e hk

end Verif.Walk
