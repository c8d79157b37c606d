import Verif.Walk.MapLemmas
import Verif.Walk.Spec
import Verif.Map.Props

/-! Property theorems for loops over `cc::map` that change the map: C132. -/
namespace Verif.Walk

open Verif.Map (HashEq MapSt Node Inv Rel AMap)

variable {K V : Type _}

/-- What the body gets to see of the visited nodes. -/
def shown (vis : List (Node K V)) : List (K × V) := vis.map (fun n => (n.key, n.val))

/-- The map after some rounds is the abstract map after the calls made so far. -/
theorem rounds_rel {H : HashEq K} (L : H.Lawful) {m0 : MapSt K V} {s0 : AMap K V} (Q0 : Rel H m0 s0) {prog : List (K × V) → List (Map.Op K V)}
    {a : Nat} {i j : Live} {k : Nat} {vis : List (Node K V)} {w : MapW K V}
    (h : rounds mapTable (mapBody H prog) k ([], ⟨m0, a⟩, i) = .ok (vis, w, j)) :
    (∃ s os, Map.specRun H s0 (calls prog (shown vis)) = some (s, os) ∧ Rel H w.m s) ∧ j.last = i.last ∧ j.arr = i.arr := by
  refine rounds_inv (P := fun vis w => ∃ s os, Map.specRun H s0 (calls prog (shown vis)) = some (s, os) ∧ Rel H w.m s) ?_ k ⟨s0, [], rfl, Q0⟩ h
  rintro vis n w w' ⟨s, os, h1, Q⟩ hb
  obtain ⟨s', os', h2, Q'⟩ := run_rel L _ Q hb
  refine ⟨s', os ++ os', ?_, Q'⟩
  rw [shown, List.map_append, List.map_singleton, calls_snoc]
  refine specRun_append H _ _ _ h1 ?_
  rw [List.map_append, List.map_singleton] at h2
  exact h2

theorem reach {H : HashEq K} (L : H.Lawful) {ops0 : List (Map.Op K V)} {m0 : MapSt K V} {os0 : List (Map.Out V)}
    (h0 : Map.implRun H Map.empty ops0 = .ok (m0, os0)) {s0 : AMap K V} {os0' : List (Map.Out V)}
    (hs : Map.specRun H [] ops0 = some (s0, os0')) : Rel H m0 s0 := by
  rcases Map.run_ok L ops0 (Map.empty_rel H) with ⟨_, e, h2⟩ | ⟨s, m', os', h1, h2, Q⟩
  · rw [h2] at h0; cases h0
  · rw [h2] at h0; rw [h1] at hs; cases h0; cases hs
    exact Q

/-- A loop can be begun over every map. -/
theorem C132_map_begin (H : HashEq K) (L : H.Lawful) (ops0 : List (Map.Op K V)) {m0 : MapSt K V} {os0 : List (Map.Out V)}
    (h0 : Map.implRun H Map.empty ops0 = .ok (m0, os0)) (a : Nat) : ∃ i, first mapTable ⟨m0, a⟩ = .ok i := by
  rcases Map.run_ok L ops0 (Map.empty_rel H) with ⟨_, e, h2⟩ | ⟨s, m', os', h1, h2, Q⟩
  · rw [h2] at h0; cases h0
  · rw [h2] at h0; cases h0
    obtain ⟨i, e, _⟩ := loop_ok (T := mapTable) (W := fun _ => False) (gone := fun _ _ => False) (body := mapBody H (fun _ => []))
      (sameKey_equiv L _) ⟨m0, a⟩ (good_of_inv Q.inv) (fun _ h => h.elim)
    exact ⟨i, e⟩

/-- **C132 (partial)**, maps: the body of a loop over any reachable map may make any calls on that map (they may depend on all that the loop
has shown), as long as they remove neither the current entry nor make the map replace its array. Then the loop ends; it shows no key twice;
it shows every key that was in the map at the beginning unless a call of the body removed it; and the map in the end is what the calls make of
it. Missing: bodies whose calls on existing keys make the map grow (false, see `C132_map_lookup_breaks`). -/
theorem C132_map_partial (H : HashEq K) (L : H.Lawful) (ops0 : List (Map.Op K V)) {m0 : MapSt K V} {os0 os0' : List (Map.Out V)} {s0 : AMap K V}
    (h0 : Map.implRun H Map.empty ops0 = .ok (m0, os0)) (hs : Map.specRun H [] ops0 = some (s0, os0'))
    (prog : List (K × V) → List (Map.Op K V)) (a : Nat) {i : Live} (hi : first mapTable ⟨m0, a⟩ = .ok i)
    (hcalm : ∀ k vis w j n, rounds mapTable (mapBody H prog) k ([], ⟨m0, a⟩, i) = .ok (vis, w, j) → j.more = true →
      deref mapTable w j = .ok n →
      (∀ op ∈ prog (shown (vis ++ [n])), ¬ op.kills H n.key) ∧
      ∃ w', runMap H w (prog (shown (vis ++ [n]))) = .ok w' ∧ w'.arr = w.arr) :
    ∃ k vis w j, rounds mapTable (mapBody H prog) k ([], ⟨m0, a⟩, i) = .ok (vis, w, j) ∧ j.more = false ∧
      vis.Pairwise (fun x y => H.eq x.key y.key = false) ∧
      (∀ key, s0.has H key = true → (∀ op ∈ calls prog (shown vis), ¬ op.kills H key) → ∃ n ∈ vis, H.eq n.key key = true) ∧
      ∃ s os ns, Map.specRun H s0 (calls prog (shown vis)) = some (s, os) ∧ Map.iterAll w.m = .ok ns ∧ (shown ns).Perm s := by
  have Q0 := reach L h0 hs
  have hlast : i.last = m0.entries.length := by
    unfold first at hi
    obtain ⟨p, _, hi⟩ := R.bind_eq_ok.1 hi
    cases hi; rfl
  obtain ⟨k, vis, w, j, hr, hm, hp, hcov⟩ := loop_total (T := mapTable) (body := mapBody H prog)
    (gone := fun v n => ∃ op ∈ prog (shown v), op.kills H n.key) (sameKey_equiv L m0.entries.length) ⟨m0, a⟩ (good_of_inv Q0.inv) hi (by
      intro k vis w j n h1 h2 h3 _ h5
      obtain ⟨c1, w', c2, c3⟩ := hcalm k vis w j n h1 h2 h3
      obtain ⟨⟨s, os, _, Q⟩, hl, _⟩ := rounds_rel L Q0 h1
      obtain ⟨s', os', _, Q'⟩ := run_rel L _ Q c2
      have ev := ev_run L _ Q c2 c3
      refine ⟨fun _ h => h.elim, fun ⟨op, hm, hk⟩ => c1 op hm hk, w', c2, ?_, c3, ev⟩
      have hlen : w'.m.entries.length = m0.entries.length := by
        rw [ev.length]
        exact h5.symm.trans (hl.trans hlast)
      have := good_of_inv Q'.inv
      rw [hlen] at this
      exact this)
  obtain ⟨⟨s, os, hspec, Q⟩, _⟩ := rounds_rel L Q0 hr
  refine ⟨k, vis, w, j, hr, hm, ?_, ?_, s, os, _, hspec, Map.iterAll_ok w.m, Q.perm⟩
  · refine hp.imp ?_
    intro x y h
    cases e : H.eq x.key y.key with
    | false => rfl
    | true => exact absurd e h
  · intro key hk hno
    obtain ⟨p, hp, he⟩ := Map.has_iff.1 hk
    obtain ⟨n, hn, rfl⟩ := List.mem_map.1 (Q0.perm.mem_iff.2 hp)
    obtain ⟨v, hv, hs⟩ := hcov n ⟨n, hn, L.refl _⟩ (by
      rintro v hv hpre x hx ⟨op, ho, hk⟩
      refine hno op ?_ (kills_congr L (L.symm _ _ (L.trans _ _ _ hx he)) hk)
      obtain ⟨t, rfl⟩ := hpre
      refine mem_calls (v := shown v) ?_ ?_ ho
      · rw [shown, shown, List.map_append]; exact List.prefix_append _ _
      · intro c; exact hv (List.map_eq_nil_iff.1 c))
    exact ⟨v, hv, L.trans _ _ _ hs he⟩

/-- **C132**, maps: whatever the loop has done so far, what it shows next is an entry of the map as it is now. -/
theorem C132_map_current (H : HashEq K) (L : H.Lawful) (ops0 : List (Map.Op K V)) {m0 : MapSt K V} {os0 os0' : List (Map.Out V)} {s0 : AMap K V}
    (h0 : Map.implRun H Map.empty ops0 = .ok (m0, os0)) (hs : Map.specRun H [] ops0 = some (s0, os0'))
    (prog : List (K × V) → List (Map.Op K V)) (a : Nat) (i : Live) {k : Nat} {vis : List (Node K V)} {w : MapW K V} {j : Live} {n : Node K V}
    (hr : rounds mapTable (mapBody H prog) k ([], ⟨m0, a⟩, i) = .ok (vis, w, j)) (hd : deref mapTable w j = .ok n) :
    ∃ s os, Map.specRun H s0 (calls prog (shown vis)) = some (s, os) ∧ s.lookup H n.key = some n.val := by
  obtain ⟨⟨s, os, hspec, Q⟩, _⟩ := rounds_rel L (reach L h0 hs) hr
  refine ⟨s, os, hspec, (Q.hit L ?_ (L.refl _)).1⟩
  unfold deref at hd
  split at hd
  · cases hd
  · unfold nodeAt at hd
    split at hd
    · rename_i h
      cases hd
      exact List.mem_of_find?_eq_some h
    · cases hd

/-- **C132**, maps: if the body removes the entry that the loop is at (or clears the map, or assigns to it), stepping on is undefined
behaviour, whatever else the body does and even if it adds the entry again. -/
theorem C132_map_removed (H : HashEq K) (L : H.Lawful) (ops0 : List (Map.Op K V)) {m0 : MapSt K V} {os0 os0' : List (Map.Out V)} {s0 : AMap K V}
    (h0 : Map.implRun H Map.empty ops0 = .ok (m0, os0)) (hs : Map.specRun H [] ops0 = some (s0, os0'))
    (prog : List (K × V) → List (Map.Op K V)) (a : Nat) (i : Live) {k : Nat} {vis : List (Node K V)} {w w' : MapW K V} {j : Live} {n : Node K V}
    (hr : rounds mapTable (mapBody H prog) k ([], ⟨m0, a⟩, i) = .ok (vis, w, j)) (hd : deref mapTable w j = .ok n)
    (hb : runMap H w (prog (shown (vis ++ [n]))) = .ok w') (hk : ∃ op ∈ prog (shown (vis ++ [n])), op.kills H n.key) :
    round mapTable (mapBody H prog) (vis, w, j) = .error .ub := by
  obtain ⟨⟨s, os, hspec, Q⟩, _⟩ := rounds_rel L (reach L h0 hs) hr
  have hn : n ∈ w.m.nodes ∧ j.it = some n.addr := by
    unfold deref at hd
    split at hd
    · cases hd
    · rename_i b hit
      unfold nodeAt at hd
      split at hd
      · rename_i h
        cases hd
        have := List.find?_some h
        rw [beq_iff_eq] at this
        exact ⟨List.mem_of_find?_eq_some h, by rw [hit]; exact congrArg some this.symm⟩
      · cases hd
  have d := run_kill L _ Q hn.1 hb hk
  unfold round
  dsimp only
  rw [hd, R.ok_bind, show mapBody H prog (vis ++ [n]) w = .ok w' from hb, R.ok_bind]
  unfold inc
  rw [hn.2]
  dsimp only
  rw [nextOf_gone (a := n.addr) ?_]
  · rfl
  · intro hm
    obtain ⟨x, hx, e⟩ := List.mem_map.1 hm
    exact d.2 x hx e

/-- How many of the calls may add an entry. -/
def adds : List (Map.Op K V) → Nat
  | [] => 0
  | .index .. :: ops => adds ops + 1
  | .getOrCreate .. :: ops => adds ops + 1
  | _ :: ops => adds ops

/-- **C132**, maps: the array is kept if it exists and there is room: before each call that may add an entry, the map must not have more entries
than buckets. -/
theorem C132_map_room (H : HashEq K) (L : H.Lawful) (ops : List (Map.Op K V)) {w w' : MapW K V} {s : AMap K V} (Q : Rel H w.m s)
    (hne : w.m.entries ≠ []) (hroom : w.m.size + adds ops ≤ w.m.entries.length + 1) (hcopy : .copySelf ∉ ops)
    (hres : ∀ n, .reserve n ∈ ops → n ≤ w.m.entries.length) (e : runMap H w ops = .ok w') : w'.arr = w.arr := by
  induction ops generalizing w s with
  | nil => cases e; rfl
  | cons op ops ih =>
    obtain ⟨w1, e1, e2⟩ := R.bind_eq_ok.1 e
    obtain ⟨s1, o, hsp, Q1⟩ := step_rel L Q e1
    have hsz := Q.size_eq
    have hsz1 := Q1.size_eq
    have hrep : replaces w.m op = false := by
      cases op with
      | index k d f =>
        simp only [adds] at hroom
        simp only [replaces, Bool.or_eq_false_iff, decide_eq_false_iff_not]
        refine ⟨?_, by omega⟩
        cases h : w.m.entries with
        | nil => exact absurd h hne
        | cons a b => rfl
      | getOrCreate k v =>
        simp only [adds] at hroom
        simp only [replaces, Bool.or_eq_false_iff, decide_eq_false_iff_not]
        refine ⟨?_, by omega⟩
        cases h : w.m.entries with
        | nil => exact absurd h hne
        | cons a b => rfl
      | reserve n =>
        simp only [replaces, decide_eq_false_iff_not]
        have := hres n (by simp)
        omega
      | copySelf => exact absurd (List.mem_cons_self ..) hcopy
      | _ => rfl
    have hlen : w1.m.entries.length = w.m.entries.length := by
      have e1' := e1
      unfold stepMap at e1'
      obtain ⟨⟨m', o'⟩, e3, e4⟩ := R.bind_eq_ok.1 e1'
      have := (ev_step L Q.inv hrep e3).length
      cases e4
      exact this
    have harr : w1.arr = w.arr := by
      unfold stepMap at e1
      obtain ⟨⟨m', o'⟩, e3, e4⟩ := R.bind_eq_ok.1 e1
      cases e4
      rw [hrep]; rfl
    have hgrow : w1.m.size + adds ops ≤ w.m.size + adds (op :: ops) := by
      rw [hsz, hsz1]
      have hup : ∀ k d f, (s.upsert H k d f).length ≤ s.length + 1 := by
        intro k d f
        unfold AMap.upsert
        split
        · simp
        · simp
      cases op with
      | index k d f =>
        have := hup k d f
        simp only [Map.specStep, Option.some.injEq, Prod.mk.injEq] at hsp
        rw [← hsp.1]; simp only [adds]; omega
      | getOrCreate k v =>
        have := hup k v id
        obtain ⟨r, hr1, hr2⟩ := Option.map_eq_some_iff.1 hsp
        cases hr2; simp only [adds]; omega
      | removeKey k =>
        have : (s.erase H k).length ≤ s.length := List.length_filter_le ..
        simp only [Map.specStep, Option.some.injEq, Prod.mk.injEq] at hsp
        rw [← hsp.1]; simp only [adds]; omega
      | get k =>
        obtain ⟨r, hr1, hr2⟩ := Option.map_eq_some_iff.1 hsp
        cases hr2; simp only [adds]; omega
      | clear =>
        simp only [Map.specStep, Option.some.injEq, Prod.mk.injEq] at hsp
        rw [← hsp.1]; simp only [adds, List.length_nil]; omega
      | _ =>
        simp only [Map.specStep, Option.some.injEq, Prod.mk.injEq] at hsp
        rw [← hsp.1]; simp only [adds]; omega
    rw [ih Q1 (by intro c; rw [c] at hlen; exact hne (List.length_eq_zero_iff.1 hlen.symm)) (by omega) (fun h => hcopy (List.mem_cons_of_mem _ h))
      (fun n h => by rw [hlen]; exact hres n (List.mem_cons_of_mem _ h)) e2, harr]

theorem run_removes {H : HashEq K} (L : H.Lawful) (ops : List (Map.Op K V)) {w : MapW K V} {s : AMap K V} (Q : Rel H w.m s)
    (h : ∀ op ∈ ops, ∃ k, op = .removeKey k) : ∃ w', runMap H w ops = .ok w' ∧ w'.arr = w.arr := by
  induction ops generalizing w s with
  | nil => exact ⟨w, rfl, rfl⟩
  | cons op ops ih =>
    obtain ⟨k, rfl⟩ := h op (by simp)
    obtain ⟨m', e, Q', _⟩ := Map.removeKey_ok L Q k
    have e1 : stepMap H w (.removeKey k) = .ok ⟨m', w.arr⟩ := by
      unfold stepMap Map.implStep
      dsimp only
      rw [e]; rfl
    obtain ⟨w', e2, h2⟩ := ih (w := ⟨m', w.arr⟩) Q' (fun o ho => h o (List.mem_cons_of_mem _ ho))
    exact ⟨w', by rw [runMap, e1, R.ok_bind, e2], h2⟩

/-- **C132**, maps: a loop that removes any entries except the one it is at always works. -/
theorem C132_map_prune (H : HashEq K) (L : H.Lawful) (ops0 : List (Map.Op K V)) {m0 : MapSt K V} {os0 os0' : List (Map.Out V)} {s0 : AMap K V}
    (h0 : Map.implRun H Map.empty ops0 = .ok (m0, os0)) (hs : Map.specRun H [] ops0 = some (s0, os0'))
    (prog : List (K × V) → List (Map.Op K V)) (hprog : ∀ l k v, ∀ op ∈ prog (l ++ [(k, v)]), ∃ k', op = .removeKey k' ∧ H.eq k k' = false)
    (a : Nat) :
    ∃ i k vis w j, first mapTable ⟨m0, a⟩ = .ok i ∧ rounds mapTable (mapBody H prog) k ([], ⟨m0, a⟩, i) = .ok (vis, w, j) ∧ j.more = false ∧
      vis.Pairwise (fun x y => H.eq x.key y.key = false) ∧
      (∀ key, s0.has H key = true → (∀ op ∈ calls prog (shown vis), ¬ op.kills H key) → ∃ n ∈ vis, H.eq n.key key = true) ∧
      ∃ s os ns, Map.specRun H s0 (calls prog (shown vis)) = some (s, os) ∧ Map.iterAll w.m = .ok ns ∧ (shown ns).Perm s := by
  obtain ⟨i, hi⟩ := C132_map_begin H L ops0 h0 a
  obtain ⟨k, vis, w, j, h⟩ := C132_map_partial H L ops0 h0 hs prog a hi (by
    intro k vis w j n h1 _ _
    have hpr : ∀ op ∈ prog (shown (vis ++ [n])), ∃ k', op = .removeKey k' ∧ H.eq n.key k' = false := by
      rw [shown, List.map_append]
      exact hprog _ _ _
    constructor
    · intro op ho hk
      obtain ⟨k', rfl, he⟩ := hpr op ho
      rw [Map.Op.kills, he] at hk
      cases hk
    · obtain ⟨⟨s, os, _, Q⟩, _⟩ := rounds_rel L (reach L h0 hs) h1
      exact run_removes L _ Q (fun op ho => by obtain ⟨k', e, _⟩ := hpr op ho; exact ⟨k', e⟩))
  exact ⟨i, k, vis, w, j, hi, h⟩

/-! ### concrete loops -/

/-- A map of these keys. -/
def demoMap (ks : List Nat) : R (MapW Nat Nat) := do
  let (m, _) ← Map.implRun Map.natHash Map.empty (ks.map (fun k => .index k 0 (fun _ => k)))
  .ok ⟨m, 0⟩

/-- The keys that are shown in (at most) `k` rounds, if there is more to come, and the keys that the map has then. -/
def demoLoop (ks : List Nat) (prog : List (Nat × Nat) → List (Map.Op Nat Nat)) (k : Nat) : R (List Nat × Bool × List Nat) := do
  let w ← demoMap ks
  let i ← first mapTable w
  let c ← rounds mapTable (mapBody Map.natHash prog) k ([], w, i)
  .ok (c.1.map Node.key, c.2.2.more, c.2.1.m.entries.flatten.map Node.key)

/-- `++m[kvp.key]` -/
def count : List (Nat × Nat) → List (Map.Op Nat Nat)
  | [] => []
  | p :: ps => [.index ((p :: ps).getLast (List.cons_ne_nil _ _)).1 0 (· + 1)]

/-- **C132** is false of the code: a loop that uses `operator[]` only with keys that are in the map. If the map has one entry more than it has
buckets, the first such access replaces the array (before it looks for the key), and the loop goes on in freed memory. -/
theorem C132_map_lookup_breaks : demoLoop [1, 2, 3, 4, 5] count 1 = .error .ub := by decide +kernel

/-- The same loop with other keys does not even fail: it ends after one of the five entries. -/
theorem C132_map_lookup_stops : demoLoop [10, 20, 30, 40, 50] count 1 = .ok ([50], false, [10, 20, 30, 40, 50]) := by decide +kernel

/-- Making room while looping turns the chains around: an entry is shown a second time. -/
theorem C132_map_grow_repeats :
    demoLoop [10, 20, 30, 40, 50] (fun l => if l.length = 2 then [.reserve 8] else []) 3 = .ok ([50, 40, 50], false, [10, 20, 30, 40, 50]) := by
  decide +kernel

/- With one entry less there is room, and the same loop shows all entries. -/
example : demoLoop [1, 2, 3, 4] count 9 = .ok ([3, 1, 4, 2], false, [3, 1, 4, 2]) := by decide +kernel

/- Adding and removing other entries: 2 is removed before its turn, 101 and 103 come too late to be shown. -/
example : demoLoop [1, 2, 3] (fun l => match l.getLast? with
    | some (k, _) => [.index (k + 100) 0 (· + 1), .removeKey (k + 1)]
    | none => []) 9 = .ok ([3, 1], false, [101, 103, 3, 1]) := by decide +kernel

/- Removing the current entry. -/
example : demoLoop [1, 2, 3] (fun l => match l.getLast? with
    | some (k, _) => [.removeKey k]
    | none => []) 1 = .error .ub := by decide +kernel

/-- Remove the successor of the current key. -/
def dropNext (l : List (Nat × Nat)) : List (Map.Op Nat Nat) :=
  match l.getLast? with
  | some (k, _) => [.removeKey (k + 1)]
  | none => []

/- The hypotheses of `C132_map_prune` are met. -/
example : ∃ m0 os0, Map.implRun Map.natHash Map.empty [.index 1 0 (· + 1), .index 2 0 (· + 1), .index 3 0 (· + 1)] = .ok (m0, os0) ∧
    ∃ i k vis w j, first mapTable (⟨m0, 0⟩ : MapW Nat Nat) = .ok i ∧
      rounds mapTable (mapBody Map.natHash dropNext) k ([], (⟨m0, 0⟩ : MapW Nat Nat), i) = .ok (vis, w, j) ∧ j.more = false := by
  have ok : (Map.implRun Map.natHash Map.empty
    [.index 1 0 (· + 1), .index 2 0 (· + 1), .index 3 0 (fun x : Nat => x + 1)]).isOk = true := by decide +kernel
  cases h0 : Map.implRun Map.natHash Map.empty [.index 1 0 (· + 1), .index 2 0 (· + 1), .index 3 0 (fun x : Nat => x + 1)] with
  | error f => rw [h0] at ok; cases ok
  | ok p =>
  refine ⟨p.1, p.2, rfl, ?_⟩
  obtain ⟨i, k, vis, w, j, h1, h2, h3, _⟩ := C132_map_prune (V := Nat) Map.natHash Map.natHash_lawful
    [.index 1 0 (· + 1), .index 2 0 (· + 1), .index 3 0 (· + 1)] h0 rfl dropNext (by
      intro l k v op ho
      simp only [dropNext, List.getLast?_append, List.getLast?_singleton, Option.some_or, List.mem_singleton] at ho
      exact ⟨k + 1, ho, by simp [Map.natHash]⟩) 0
  exact ⟨i, k, vis, w, j, h1, h2, h3⟩

example : demoLoop [1, 2, 3] dropNext 9 = .ok ([3, 1], false, [3, 1]) := by decide +kernel

end Verif.Walk
