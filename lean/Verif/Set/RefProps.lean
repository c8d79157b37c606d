import Verif.Set.Props
import Verif.Set.RefSpec

/-! Property theorems for references to the elements of `cc::set`: C129. -/
namespace Verif.Set

open Verif.Map (HashEq)

variable {T : Type _}

/-- Different elements have different addresses, and the allocator gives out none of them again. -/
structure Fresh (m : SetSt T) : Prop where
  nodup : (m.nodes.map Node.addr).Nodup
  lt : ∀ n ∈ m.nodes, n.addr < m.next

theorem fresh_empty : Fresh (empty : SetSt T) := ⟨by simp [empty], by simp [empty]⟩

theorem flatten_set_perm' {es : List (List (Node T))} {i : Nat} {l : List (Node T)} (h : es[i]? = some l) (l' : List (Node T)) :
    ∃ rest, (es.set i l').flatten.Perm (l' ++ rest) ∧ es.flatten.Perm (l ++ rest) := by
  obtain ⟨hi, e⟩ := List.getElem?_eq_some_iff.1 h
  obtain ⟨rest, h1, h2⟩ := Verif.Map.flatten_set_perm hi l'
  rw [e] at h2
  exact ⟨rest, h1, h2⟩

/-- Addresses in the rebuilt part. -/
structure Above (a b : Nat) (es : List (List (Node T))) : Prop where
  nodup : (es.flatten.map Node.addr).Nodup
  ge : ∀ n ∈ es.flatten, a ≤ n.addr
  lt : ∀ n ∈ es.flatten, n.addr < b
  le : a ≤ b

theorem bucket_some {es : List (List (Node T))} {i : Nat} {l : List (Node T)} (h : bucket es i = .ok l) : es[i]? = some l := by
  unfold bucket at h
  cases e : es[i]? with
  | none => rw [e] at h; cases h
  | some x => rw [e] at h; cases h; rfl

theorem above_push {a b : Nat} {es : List (List (Node T))} (h : Above a b es) {i : Nat} {l : List (Node T)} (hb : es[i]? = some l) (v : T) :
    Above a (b + 1) (es.set i ({ addr := b, val := v } :: l)) := by
  obtain ⟨rest, h1, h2⟩ := flatten_set_perm' hb ({ addr := b, val := v } :: l)
  have hp : (es.set i ({ addr := b, val := v } :: l)).flatten.Perm ({ addr := b, val := v } :: es.flatten) := h1.trans (h2.symm.cons _)
  have hle := h.le
  refine ⟨?_, fun n hn => ?_, fun n hn => ?_, by omega⟩
  · rw [(hp.map Node.addr).nodup_iff, List.map_cons, List.nodup_cons]
    refine ⟨fun hm => ?_, h.nodup⟩
    obtain ⟨n, hn, e⟩ := List.mem_map.1 hm
    have := h.lt n hn
    simp only at e; omega
  · rcases List.mem_cons.1 (hp.mem_iff.1 hn) with rfl | hn
    · exact hle
    · exact h.ge n hn
  · rcases List.mem_cons.1 (hp.mem_iff.1 hn) with rfl | hn
    · simp
    · have := h.lt n hn; omega

theorem above_reinsert {H : HashEq T} {a : Nat} {acc acc' : List (List (Node T)) × Nat} {n : Node T} (h : Above a acc.2 acc.1)
    (e : reinsert H acc n = .ok acc') : Above a acc'.2 acc'.1 := by
  unfold reinsert at e
  obtain ⟨idx, _, e⟩ := R.bind_eq_ok.1 e
  obtain ⟨l, hb, e⟩ := R.bind_eq_ok.1 e
  cases e
  exact above_push h (bucket_some hb) _

theorem above_reinserts {H : HashEq T} {a : Nat} (ns : List (Node T)) {acc acc' : List (List (Node T)) × Nat} (h : Above a acc.2 acc.1)
    (e : ns.foldlM (reinsert H) acc = .ok acc') : Above a acc'.2 acc'.1 := by
  induction ns generalizing acc with
  | nil => cases e; exact h
  | cons n ns ih =>
    rw [List.foldlM_cons] at e
    obtain ⟨acc1, e1, e2⟩ := R.bind_eq_ok.1 e
    exact ih (above_reinsert h e1) e2

theorem above_reinsertss {H : HashEq T} {a : Nat} (ls : List (List (Node T))) {acc acc' : List (List (Node T)) × Nat} (h : Above a acc.2 acc.1)
    (e : ls.foldlM (fun acc l => l.foldlM (reinsert H) acc) acc = .ok acc') : Above a acc'.2 acc'.1 := by
  induction ls generalizing acc with
  | nil => cases e; exact h
  | cons l ls ih =>
    rw [List.foldlM_cons] at e
    obtain ⟨acc1, e1, e2⟩ := R.bind_eq_ok.1 e
    exact ih (above_reinserts l h e1) e2

theorem above_reserve {H : HashEq T} {m m' : SetSt T} {c : Nat} (e : reserve H m c = .ok m') : Above m.next m'.next m'.entries := by
  unfold reserve at e
  obtain ⟨acc, e1, e2⟩ := R.bind_eq_ok.1 e
  cases e2
  exact above_reinsertss m.entries ⟨by simp, by simp, by simp, Nat.le_refl _⟩ e1

theorem Above.fresh {a : Nat} {m : SetSt T} (h : Above a m.next m.entries) : Fresh m := ⟨h.nodup, h.lt⟩

theorem Fresh.above {m : SetSt T} (h : Fresh m) : Above 0 m.next m.entries := ⟨h.nodup, fun _ _ => Nat.zero_le _, h.lt, Nat.zero_le _⟩

theorem fresh_ensure {H : HashEq T} {m m' : SetSt T} (h : Fresh m) (e : ensure H m = .ok m') : Fresh m' := by
  unfold ensure at e
  split at e
  · exact (above_reserve e).fresh
  · cases e; exact h

theorem fresh_addTail {H : HashEq T} {m m' : SetSt T} {v : T} {b : Bool} (h : Fresh m) (e : addTail H m v = .ok (m', b)) : Fresh m' := by
  unfold addTail at e
  obtain ⟨idx, _, e⟩ := R.bind_eq_ok.1 e
  obtain ⟨l, hb, e⟩ := R.bind_eq_ok.1 e
  split at e
  · cases e; exact h
  · cases e
    exact Above.fresh (a := 0) (m := { entries := m.entries.set idx ({ addr := m.next, val := v } :: l), size := m.size + 1, next := m.next + 1 })
      (above_push h.above (bucket_some hb) v)

theorem fresh_add {H : HashEq T} {m m' : SetSt T} {v : T} {b : Bool} (h : Fresh m) (e : add H m v = .ok (m', b)) : Fresh m' := by
  unfold add at e
  obtain ⟨m1, e1, e2⟩ := R.bind_eq_ok.1 e
  exact fresh_addTail (fresh_ensure h e1) e2

theorem fresh_addAll {H : HashEq T} (vs : List T) {m m' : SetSt T} (h : Fresh m) (e : addAll H m vs = .ok m') : Fresh m' := by
  induction vs generalizing m with
  | nil => cases e; exact h
  | cons v vs ih =>
    unfold addAll at e
    obtain ⟨⟨m1, b⟩, e1, e2⟩ := R.bind_eq_ok.1 e
    exact ih (fresh_add h e1) e2

theorem eraseAfterLoop_sub {H : HashEq T} {v : T} {p : Node T} {ns l' : List (Node T)} (h : eraseAfterLoop H v p ns = some l') :
    l'.Sublist (p :: ns) ∧ ∀ n ∈ p :: ns, n ≠ p → H.eq n.val v = false → n ∈ l' := by
  induction ns generalizing p l' with
  | nil => cases h
  | cons n ns ih =>
    unfold eraseAfterLoop at h
    split at h
    · rename_i hn
      cases h
      refine ⟨(List.sublist_cons_self n ns).cons_cons p, fun x hx hne hv => ?_⟩
      rcases List.mem_cons.1 hx with rfl | hx
      · exact (hne rfl).elim
      · rcases List.mem_cons.1 hx with rfl | hx
        · rw [hv] at hn; cases hn
        · exact List.mem_cons_of_mem _ hx
    · cases e : eraseAfterLoop H v n ns with
      | none => rw [e] at h; cases h
      | some l2 =>
        rw [e] at h
        cases h
        obtain ⟨i1, i2⟩ := ih e
        refine ⟨i1.cons_cons p, fun x hx hne hv => ?_⟩
        rcases List.mem_cons.1 hx with rfl | hx
        · exact (hne rfl).elim
        · refine List.mem_cons_of_mem _ ?_
          by_cases c : x = n
          · subst c
            have : ∀ {p : Node T} {ns l' : List (Node T)}, eraseAfterLoop H v p ns = some l' → p ∈ l' := by
              intro p ns l' h
              cases ns with
              | nil => cases h
              | cons y ys =>
                unfold eraseAfterLoop at h
                split at h
                · cases h; exact List.mem_cons_self ..
                · cases e : eraseAfterLoop H v y ys with
                  | none => rw [e] at h; cases h
                  | some l2 => rw [e] at h; cases h; exact List.mem_cons_self ..
            exact this e
          · exact i2 x hx c hv

theorem eraseAfterLoop_head {H : HashEq T} {v : T} {p : Node T} {ns l' : List (Node T)} (h : eraseAfterLoop H v p ns = some l') : p ∈ l' := by
  cases ns with
  | nil => cases h
  | cons y ys =>
    unfold eraseAfterLoop at h
    split at h
    · cases h; exact List.mem_cons_self ..
    · cases e : eraseAfterLoop H v y ys with
      | none => rw [e] at h; cases h
      | some l2 => rw [e] at h; cases h; exact List.mem_cons_self ..

/-- What `remove` does to the nodes. -/
theorem remove_nodes {H : HashEq T} {m m' : SetSt T} {v : T} {b : Bool} (e : remove H m v = .ok (m', b)) :
    m'.next = m.next ∧ (∃ l, l.Sublist m.nodes ∧ m'.nodes.Perm l ∨ m'.nodes.Perm l ∧ ∃ l2, l2.Perm m.nodes ∧ l.Sublist l2) ∧
      ∀ n ∈ m.nodes, H.eq n.val v = false → n ∈ m'.nodes := by
  unfold remove at e
  split at e
  · cases e
    exact ⟨rfl, ⟨m.nodes, Or.inl ⟨List.Sublist.refl _, List.Perm.refl _⟩⟩, fun n hn _ => hn⟩
  · obtain ⟨idx, _, e⟩ := R.bind_eq_ok.1 e
    obtain ⟨l, hb, e⟩ := R.bind_eq_ok.1 e
    have key : ∀ l', l'.Sublist l → (∀ n ∈ l, H.eq n.val v = false → n ∈ l') →
        (∃ k, k.Sublist m.nodes ∧ (m.entries.set idx l').flatten.Perm k ∨ (m.entries.set idx l').flatten.Perm k ∧ ∃ l2, l2.Perm m.nodes ∧ k.Sublist l2) ∧
        ∀ n ∈ m.nodes, H.eq n.val v = false → n ∈ (m.entries.set idx l').flatten := by
      intro l' hs hk
      obtain ⟨rest, h1, h2⟩ := flatten_set_perm' (bucket_some hb) l'
      refine ⟨⟨l' ++ rest, Or.inr ⟨h1, l ++ rest, h2.symm, hs.append (List.Sublist.refl _)⟩⟩, fun n hn hv => h1.mem_iff.2 ?_⟩
      rcases List.mem_append.1 (h2.mem_iff.1 hn) with hn | hn
      · exact List.mem_append_left _ (hk n hn hv)
      · exact List.mem_append_right _ hn
    cases l with
    | nil =>
      cases e
      exact ⟨rfl, ⟨m.nodes, Or.inl ⟨List.Sublist.refl _, List.Perm.refl _⟩⟩, fun n hn _ => hn⟩
    | cons n ns =>
      simp only at e
      split at e
      · rename_i hn
        cases e
        refine ⟨rfl, key ns (List.sublist_cons_self n ns) (fun x hx hv => ?_)⟩
        rcases List.mem_cons.1 hx with rfl | hx
        · rw [hv] at hn; cases hn
        · exact hx
      · cases e2 : eraseAfterLoop H v n ns with
        | none =>
          rw [e2] at e
          cases e
          exact ⟨rfl, ⟨m.nodes, Or.inl ⟨List.Sublist.refl _, List.Perm.refl _⟩⟩, fun n hn _ => hn⟩
        | some l' =>
          rw [e2] at e
          cases e
          obtain ⟨i1, i2⟩ := eraseAfterLoop_sub e2
          refine ⟨rfl, key l' i1 (fun x hx hv => ?_)⟩
          by_cases c : x = n
          · subst c; exact eraseAfterLoop_head e2
          · exact i2 x hx c hv

theorem fresh_remove {H : HashEq T} {m m' : SetSt T} {v : T} {b : Bool} (h : Fresh m) (e : remove H m v = .ok (m', b)) : Fresh m' := by
  obtain ⟨h1, ⟨l, h2⟩, _⟩ := remove_nodes e
  have : ∃ l l2, l2.Perm m.nodes ∧ l.Sublist l2 ∧ m'.nodes.Perm l := by
    rcases h2 with ⟨a, b⟩ | ⟨a, l2, b, c⟩
    · exact ⟨l, m.nodes, List.Perm.refl _, a, b⟩
    · exact ⟨l, l2, b, c, a⟩
  obtain ⟨l, l2, p1, s, p2⟩ := this
  refine ⟨?_, fun n hn => ?_⟩
  · rw [(p2.map Node.addr).nodup_iff]
    exact ((p1.map Node.addr).nodup_iff.2 h.nodup).sublist (s.map _)
  · rw [h1]
    exact h.lt n (p1.mem_iff.1 (s.subset (p2.mem_iff.1 hn)))

theorem above_copyChain (a : Nat) (l : List (Node T)) :
    ((copyChain a l).map Node.addr) = List.range' a l.length := by
  induction l generalizing a with
  | nil => rfl
  | cons n ns ih => simp [copyChain, ih, List.range'_succ]

theorem addr_copyEntries (a : Nat) (es : List (List (Node T))) :
    (copyEntries a es).flatten.map Node.addr = List.range' a (es.map List.length).sum := by
  induction es generalizing a with
  | nil => rfl
  | cons l ls ih =>
    simp only [copyEntries, List.flatten_cons, List.map_append, above_copyChain, ih, List.map_cons, List.sum_cons]
    rw [List.range'_append_1]

theorem above_copy (m : SetSt T) (a : Nat) : Above a (copy m a).next (copy m a).entries := by
  have e := addr_copyEntries a m.entries
  refine ⟨?_, fun n hn => ?_, fun n hn => ?_, Nat.le_add_right ..⟩
  · change ((copyEntries a m.entries).flatten.map Node.addr).Nodup
    rw [e]
    exact List.nodup_range'
  · have : n.addr ∈ List.range' a (m.entries.map List.length).sum := by rw [← e]; exact List.mem_map_of_mem hn
    rw [List.mem_range'_1] at this
    exact this.1
  · have : n.addr ∈ List.range' a (m.entries.map List.length).sum := by rw [← e]; exact List.mem_map_of_mem hn
    rw [List.mem_range'_1] at this
    exact this.2

theorem fresh_step {H : HashEq T} {m m' : SetSt T} {op : Op T} {o : Out} (h : Fresh m) (e : implStep H m op = .ok (m', o)) : Fresh m' := by
  cases op with
  | add v =>
    obtain ⟨⟨m1, b⟩, e1, e2⟩ := R.bind_eq_ok.1 e
    cases e2; exact fresh_add h e1
  | remove v =>
    obtain ⟨⟨m1, b⟩, e1, e2⟩ := R.bind_eq_ok.1 e
    cases e2; exact fresh_remove h e1
  | addAll vs =>
    obtain ⟨m1, e1, e2⟩ := R.bind_eq_ok.1 e
    cases e2; exact fresh_addAll vs h e1
  | reserve n =>
    obtain ⟨m1, e1, e2⟩ := R.bind_eq_ok.1 e
    cases e2; exact (above_reserve e1).fresh
  | clear =>
    cases e
    have : (clear m).nodes = [] := by simp [clear, SetSt.nodes]
    exact ⟨by rw [this]; simp, by rw [this]; simp⟩
  | copySelf => cases e; exact (above_copy m m.next).fresh
  | contains v =>
    obtain ⟨b, e1, e2⟩ := R.bind_eq_ok.1 e
    cases e2; exact h
  | size => cases e; exact h

theorem fresh_run {H : HashEq T} (ops : List (Op T)) {m m' : SetSt T} {os : List Out} (h : Fresh m) (e : implRun H m ops = .ok (m', os)) :
    Fresh m' := by
  induction ops generalizing m os with
  | nil => cases e; exact h
  | cons op ops ih =>
    obtain ⟨⟨m1, o⟩, e1, e2⟩ := R.bind_eq_ok.1 e
    obtain ⟨⟨m2, os2⟩, e3, e4⟩ := R.bind_eq_ok.1 e2
    cases e4
    exact ih (fresh_step h e1) e3

theorem readRef_of_mem {m : SetSt T} (h : Fresh m) {n : Node T} (hn : n ∈ m.nodes) : readRef m n.addr = .ok n.val := by
  unfold readRef
  have : ∀ (l : List (Node T)), (l.map Node.addr).Nodup → n ∈ l → l.find? (fun x => x.addr == n.addr) = some n := by
    intro l
    induction l with
    | nil => intro _ h; cases h
    | cons x xs ih =>
      intro hd hm
      rw [List.map_cons, List.nodup_cons] at hd
      rw [List.find?_cons]
      rcases List.mem_cons.1 hm with rfl | hm
      · simp
      · have : (x.addr == n.addr) = false := by
          rw [beq_eq_false_iff_ne]
          intro e
          exact hd.1 (e ▸ List.mem_map_of_mem hm)
        rw [this]
        exact ih hd.2 hm
  rw [this m.entries.flatten h.nodup hn]

theorem readRef_of_not {m : SetSt T} {a : Nat} (h : ∀ n ∈ m.nodes, n.addr ≠ a) : readRef m a = .error .ub := by
  unfold readRef
  have : m.entries.flatten.find? (fun n => n.addr == a) = none := by
    rw [List.find?_eq_none]
    intro x hx
    simp [h x hx]
  rw [this]

/-- **C129**, what a reference is. After every history the elements of the set, as iteration visits them, have pairwise different addresses, and
a reference to one of them reads that element. -/
theorem C129_references (H : HashEq T) (ops : List (Op T)) {m : SetSt T} {os : List Out} (h : implRun H empty ops = .ok (m, os)) :
    ∃ l, iterAll m = .ok l ∧ (l.map Node.addr).Nodup ∧ ∀ n ∈ l, readRef m n.addr = .ok n.val := by
  have F := fresh_run ops fresh_empty h
  exact ⟨m.nodes, iterAll_ok m, F.nodup, fun n hn => readRef_of_mem F hn⟩

/-- **C129**, copies. A copy has elements of its own: no reference to an element of the original refers to one of the copy, and the references into
the copy read its elements. -/
theorem C129_copy (H : HashEq T) (ops : List (Op T)) {m : SetSt T} {os : List Out} (h : implRun H empty ops = .ok (m, os)) :
    (∀ n ∈ m.nodes, readRef (copy m m.next) n.addr = .error .ub) ∧ ∀ n ∈ (copy m m.next).nodes, readRef (copy m m.next) n.addr = .ok n.val := by
  have F := fresh_run ops fresh_empty h
  have A := above_copy m m.next
  refine ⟨fun n hn => readRef_of_not (fun x hx e => ?_), fun n hn => readRef_of_mem A.fresh hn⟩
  have h1 := F.lt n hn
  have h2 := A.ge x hx
  omega

theorem addTail_keeps {H : HashEq T} {m m' : SetSt T} {v : T} {b : Bool} (e : addTail H m v = .ok (m', b)) {n : Node T} (hn : n ∈ m.nodes) :
    n ∈ m'.nodes ∧ m'.entries.length = m.entries.length ∧ m'.size ≤ m.size + 1 := by
  unfold addTail at e
  obtain ⟨idx, _, e⟩ := R.bind_eq_ok.1 e
  obtain ⟨l, hb, e⟩ := R.bind_eq_ok.1 e
  split at e
  · cases e; exact ⟨hn, rfl, by omega⟩
  · cases e
    obtain ⟨rest, h1, h2⟩ := flatten_set_perm' (bucket_some hb) ({ addr := m.next, val := v } :: l)
    refine ⟨h1.mem_iff.2 ?_, by simp, by simp⟩
    exact List.mem_cons_of_mem _ (h2.mem_iff.1 hn)

theorem add_keeps {H : HashEq T} {m m' : SetSt T} {v : T} {b : Bool} (e : add H m v = .ok (m', b)) (hr : m.size < m.entries.length) {n : Node T}
    (hn : n ∈ m.nodes) : n ∈ m'.nodes ∧ m'.entries.length = m.entries.length ∧ m'.size ≤ m.size + 1 := by
  unfold add at e
  obtain ⟨m1, e1, e2⟩ := R.bind_eq_ok.1 e
  unfold ensure at e1
  rw [if_neg (by omega)] at e1
  cases e1
  exact addTail_keeps e2 hn

theorem addAll_keeps {H : HashEq T} (vs : List T) {m m' : SetSt T} (e : addAll H m vs = .ok m') (hr : m.size + vs.length ≤ m.entries.length) {n : Node T}
    (hn : n ∈ m.nodes) : n ∈ m'.nodes ∧ m'.entries.length = m.entries.length := by
  induction vs generalizing m with
  | nil => cases e; exact ⟨hn, rfl⟩
  | cons v vs ih =>
    unfold addAll at e
    obtain ⟨⟨m1, b⟩, e1, e2⟩ := R.bind_eq_ok.1 e
    rw [List.length_cons] at hr
    obtain ⟨h1, h2, h3⟩ := add_keeps e1 (by omega) hn
    obtain ⟨h4, h5⟩ := ih e2 (by omega) h1
    exact ⟨h4, by rw [h5, h2]⟩

theorem step_keeps {H : HashEq T} {m m' : SetSt T} {s : List T} (hR : Rel H m s) {op : Op T} {o : Out} (e : implStep H m op = .ok (m', o))
    (ha : ¬ op.asks) (hf : op.fits m.entries.length s) {n : Node T} (hn : n ∈ m.nodes) (hk : ¬ op.ends H n.val) :
    n ∈ m'.nodes ∧ m'.entries.length = m.entries.length := by
  have hs := hR.size_len
  cases op with
  | add v =>
    obtain ⟨⟨m1, b⟩, e1, e2⟩ := R.bind_eq_ok.1 e
    cases e2
    have hf : s.length < m.entries.length := hf
    obtain ⟨h1, h2, _⟩ := add_keeps e1 (by omega) hn
    exact ⟨h1, h2⟩
  | remove v =>
    obtain ⟨⟨m1, b⟩, e1, e2⟩ := R.bind_eq_ok.1 e
    cases e2
    obtain ⟨_, _, h3⟩ := remove_nodes e1
    have hk : ¬ H.eq n.val v = true := hk
    refine ⟨h3 n hn (by simpa using hk), ?_⟩
    unfold remove at e1
    split at e1
    · cases e1; rfl
    · obtain ⟨idx, _, e1⟩ := R.bind_eq_ok.1 e1
      obtain ⟨l, hb, e1⟩ := R.bind_eq_ok.1 e1
      cases l with
      | nil => cases e1; rfl
      | cons x xs =>
        simp only at e1
        split at e1
        · cases e1; simp
        · split at e1
          · cases e1; simp
          · cases e1; rfl
  | addAll vs =>
    obtain ⟨m1, e1, e2⟩ := R.bind_eq_ok.1 e
    cases e2
    have hf : s.length + vs.length ≤ m.entries.length := hf
    exact addAll_keeps vs e1 (by omega) hn
  | reserve k => exact (ha trivial).elim
  | clear => exact (hk trivial).elim
  | copySelf => exact (hk trivial).elim
  | contains v =>
    obtain ⟨b, e1, e2⟩ := R.bind_eq_ok.1 e
    cases e2; exact ⟨hn, rfl⟩
  | size => cases e; exact ⟨hn, rfl⟩

theorem run_keeps {H : HashEq T} (L : H.Lawful) (ops : List (Op T)) {m m' : SetSt T} {s : List T} (hR : Rel H m s) {os : List Out}
    (e : implRun H m ops = .ok (m', os)) (ha : ∀ op ∈ ops, ¬ op.asks) (hf : Fits H m.entries.length s ops) {n : Node T} (hn : n ∈ m.nodes)
    (hk : ∀ op ∈ ops, ¬ op.ends H n.val) : n ∈ m'.nodes := by
  induction ops generalizing m s os with
  | nil => cases e; exact hn
  | cons op ops ih =>
    obtain ⟨⟨m1, o⟩, e1, e2⟩ := R.bind_eq_ok.1 e
    obtain ⟨⟨m2, os2⟩, e3, e4⟩ := R.bind_eq_ok.1 e2
    cases e4
    obtain ⟨h1, h2⟩ := step_keeps hR e1 (ha op (by simp)) hf.1 hn (hk op (by simp))
    rcases step_ok L hR op with ⟨-, m5, e7, R5⟩ | ⟨-, e7⟩
    · rw [e7] at e1
      cases e1
      exact ih R5 e3 (fun op h => ha op (by simp [h])) (by rw [h2]; exact hf.2) h1 (fun op h => hk op (by simp [h]))
    · rw [e7] at e1; cases e1

/-- **C129** (partial). Once `reserve(n)` has been called, references to elements stay valid, and read the same element, through every history that does not
remove the element, clear or replace the set or reserve again, and in which elements are added only while the set has fewer than `n` (ranges only if all of
their elements would fit). Not covered (and not so): histories with more elements. -/
theorem C129_stable_partial (H : HashEq T) (L : H.Lawful) (ops0 ops : List (Op T)) {m0 m1 m2 : SetSt T} {os0 os : List Out} {n : Nat} (hn : 0 < n)
    (h0 : implRun H empty ops0 = .ok (m0, os0)) (h1 : reserve H m0 n = .ok m1) (ha : ∀ op ∈ ops, ¬ op.asks)
    (hf : Fits H n (specRun H [] ops0).1 ops) (h2 : implRun H m1 ops = .ok (m2, os)) {x : Node T} (hx : x ∈ m1.nodes)
    (hk : ∀ op ∈ ops, ¬ op.ends H x.val) : readRef m2 x.addr = .ok x.val := by
  rcases run_ok L ops0 (empty_rel H) with ⟨-, m0', e, R0⟩ | ⟨-, e⟩
  · rw [e] at h0
    cases h0
    obtain ⟨m1', e1, R1, l1, -⟩ := reserve_ok R0 hn
    rw [e1] at h1
    cases h1
    have F1 := (above_reserve e1).fresh
    exact readRef_of_mem (fresh_run ops F1 h2) (run_keeps L ops R1 h2 ha (by rw [l1]; exact hf) hx hk)
  · rw [e] at h0; cases h0

/-- **C129** (partial), the same for a reference taken at any later time, by the number of buckets: as long as the set has fewer elements than buckets when
elements are added. -/
theorem C129_stable_room_partial (H : HashEq T) (L : H.Lawful) (ops0 ops : List (Op T)) {m0 m1 : SetSt T} {os0 os : List Out}
    (h0 : implRun H empty ops0 = .ok (m0, os0)) (ha : ∀ op ∈ ops, ¬ op.asks) (hf : Fits H m0.entries.length (specRun H [] ops0).1 ops)
    (h1 : implRun H m0 ops = .ok (m1, os)) {x : Node T} (hx : x ∈ m0.nodes) (hk : ∀ op ∈ ops, ¬ op.ends H x.val) :
    readRef m1 x.addr = .ok x.val := by
  rcases run_ok L ops0 (empty_rel H) with ⟨-, m0', e, R0⟩ | ⟨-, e⟩
  · rw [e] at h0
    cases h0
    exact readRef_of_mem (fresh_run ops (fresh_run ops0 fresh_empty e) h1) (run_keeps L ops R0 h1 ha hf hx hk)
  · rw [e] at h0; cases h0

/-- **C129 is false of the code.** Whenever a set grows (an element is added, new or not, while there are as many elements as buckets) or `reserve` is called,
every reference to every element dangles, for all sets and elements. For `cc::map` the references stay valid (C03). -/
theorem C129_growth_dangles (H : HashEq T) (ops : List (Op T)) {m m' : SetSt T} {os : List Out} (h : implRun H empty ops = .ok (m, os)) :
    (∀ v b, m.size ≥ m.entries.length → add H m v = .ok (m', b) → ∀ n ∈ m.nodes, readRef m' n.addr = .error .ub) ∧
    (∀ c, reserve H m c = .ok m' → ∀ n ∈ m.nodes, readRef m' n.addr = .error .ub) := by
  have F := fresh_run ops fresh_empty h
  constructor
  · intro v b hfull e n hn
    unfold add at e
    obtain ⟨m1, e1, e2⟩ := R.bind_eq_ok.1 e
    unfold ensure at e1
    rw [if_pos hfull] at e1
    have A := above_reserve e1
    refine readRef_of_not (fun x hx e => ?_)
    have h1 := F.lt n hn
    unfold addTail at e2
    obtain ⟨idx, _, e2⟩ := R.bind_eq_ok.1 e2
    obtain ⟨l, hb, e2⟩ := R.bind_eq_ok.1 e2
    split at e2
    · cases e2
      have := A.ge x hx
      omega
    · cases e2
      have A2 := above_push A (bucket_some hb) v
      have := A2.ge x hx
      omega
  · intro c e n hn
    have A := above_reserve e
    refine readRef_of_not (fun x hx e => ?_)
    have h1 := F.lt n hn
    have := A.ge x hx
    omega

/-- A reference to the element 7 of a set of two, read again after three more calls. -/
example : ((reserve natHash empty 4).toOption.bind (fun m1 => (implRun natHash m1 [.add 7, .add 9, .remove 9, .addAll [1, 2]]).toOption.map (fun r =>
    ((readRef r.1 0).toOption, r.1.size, r.1.entries.length)))) = some (some 7, 3, 4) ∧
    Fits natHash 4 [] [.add 7, .add 9, .remove 9, .addAll [1, 2]] ∧ ¬ (Op.remove 9).ends natHash 7 := by
  refine ⟨by decide +kernel, ⟨?_, ?_, trivial, ?_, trivial⟩, ?_⟩
  · change ([] : List Nat).length < 4; decide
  · change (specStep natHash ([] : List Nat) (.add 7)).1.length < 4; decide
  · change _ ≤ 4; decide
  · change ¬ natHash.eq 7 9 = true; decide

/-- The fifth call of `add` lets the reference to the first element dangle, although it adds nothing. -/
example : ((implRun natHash empty [.add 0, .add 1, .add 2, .add 3]).toOption.bind (fun r => (add natHash r.1 3).toOption.map (fun q =>
    ((readRef r.1 1).toOption, (readRef r.1 0).toOption, q.2, (readRef q.1 0).toOption)))) = some (some 1, some 0, false, none) := by
  decide +kernel

end Verif.Set
