import Verif.Set.Spec
import Verif.Map.Lemmas

/-! Helper lemmas for the set: representation invariant and simulation. -/
namespace Verif.Set

open Verif.Map (HashEq flatten_set_perm mem_flatten_of_bucket flatten_map_nil)

variable {T : Type _}

/-- Pure version of `location`. -/
@[irreducible] def loc (H : HashEq T) (cap : Nat) (v : T) : Nat :=
  (H.hash v * 6364136223846793005#64 + 0#64 + 0xda3e39cb94b95bdb#64).toNat % cap

theorem location_eq (H : HashEq T) {cap : Nat} (h : 0 < cap) (v : T) :
    location H cap v = .ok (loc H cap v) := by
  unfold location loc
  rw [ccAssert_true (decide_eq_true h)]
  generalize H.hash v * 6364136223846793005#64 + 0#64 + 0xda3e39cb94b95bdb#64 = x
  rfl

theorem location_zero (H : HashEq T) (v : T) : location H 0 v = .error .assert := by
  simp only [location, ccAssert, Nat.lt_irrefl, decide_false, Bool.false_eq_true, if_false,
    R.error_bind]

theorem loc_lt (H : HashEq T) {cap : Nat} (h : 0 < cap) (v : T) : loc H cap v < cap := by
  unfold loc; exact Nat.mod_lt _ h

theorem loc_congr {H : HashEq T} (L : H.Lawful) {a b : T} (h : H.eq a b = true) (cap : Nat) :
    loc H cap a = loc H cap b := by
  unfold loc; rw [L.hash_eq a b h]

/-- All nodes of a set. -/
abbrev SetSt.nodes (m : SetSt T) : List (Node T) := m.entries.flatten

/-- Every node sits in the chain its value hashes to. -/
def Placed (H : HashEq T) (es : List (List (Node T))) : Prop :=
  ∀ i (hi : i < es.length), ∀ n ∈ es[i], loc H es.length n.val = i

/-- The elements. -/
def vals (m : SetSt T) : List T := m.nodes.map Node.val

/-- Pairwise different elements. -/
def Distinct (H : HashEq T) (s : List T) : Prop := s.Pairwise (fun a b => H.eq a b = false)

/-- Refinement relation, with the representation invariant. -/
structure Rel (H : HashEq T) (m : SetSt T) (s : List T) : Prop where
  placed : Placed H m.entries
  size_eq : m.size = m.nodes.length
  distinct : Distinct H s
  perm : (vals m).Perm s

theorem eq_false_symm {H : HashEq T} (L : H.Lawful) {x y : T} (h : H.eq x y = false) :
    H.eq y x = false := by
  cases h' : H.eq y x with
  | false => rfl
  | true => rw [L.symm _ _ h'] at h; exact h

theorem Distinct.perm {H : HashEq T} (L : H.Lawful) {a b : List T} (h : Distinct H a)
    (p : a.Perm b) : Distinct H b :=
  List.Perm.pairwise p h (fun hxy => eq_false_symm L hxy)

theorem mem_iff {H : HashEq T} {v : T} {s : List T} : mem H v s = true ↔ ∃ x ∈ s, H.eq x v = true := by
  simp [mem]

theorem mem_false {H : HashEq T} {v : T} {s : List T} :
    mem H v s = false ↔ ∀ x ∈ s, H.eq x v = false := by
  simp [mem]

theorem mem_perm {H : HashEq T} {v : T} {s t : List T} (p : s.Perm t) : mem H v s = mem H v t := by
  rw [Bool.eq_iff_iff, mem_iff, mem_iff]
  exact ⟨fun ⟨x, hx, h⟩ => ⟨x, p.mem_iff.1 hx, h⟩, fun ⟨x, hx, h⟩ => ⟨x, p.mem_iff.2 hx, h⟩⟩

theorem bucket_eq {es : List (List (Node T))} {i : Nat} (hi : i < es.length) :
    bucket es i = .ok es[i] := by
  simp [bucket, List.getElem?_eq_getElem hi]

theorem chainHas_iff {H : HashEq T} {v : T} {l : List (Node T)} :
    chainHas H v l = true ↔ ∃ n ∈ l, H.eq n.val v = true := by
  induction l with
  | nil => simp [chainHas]
  | cons n ns ih =>
    simp only [chainHas]
    split <;> simp_all

theorem chain_spec {H : HashEq T} (L : H.Lawful) {es : List (List (Node T))}
    (hp : Placed H es) (h0 : 0 < es.length) (v : T) :
    chainHas H v (es[loc H es.length v]'(loc_lt H h0 _)) = mem H v (es.flatten.map Node.val) := by
  rw [Bool.eq_iff_iff, chainHas_iff, mem_iff]
  constructor
  · rintro ⟨n, hn, he⟩
    exact ⟨n.val, List.mem_map.2 ⟨n, mem_flatten_of_bucket hn, rfl⟩, he⟩
  · rintro ⟨x, hx, he⟩
    obtain ⟨n, hn, rfl⟩ := List.mem_map.1 hx
    obtain ⟨l, hl, hnl⟩ := List.mem_flatten.1 hn
    obtain ⟨i, hi, rfl⟩ := List.mem_iff_getElem.1 hl
    have h1 := hp i hi n hnl
    have h2 := loc_congr L he es.length
    refine ⟨n, ?_, he⟩
    have : loc H es.length v = i := by rw [← h2, h1]
    simpa [this] using hnl

theorem Rel.size_len {H : HashEq T} {m : SetSt T} {s : List T} (h : Rel H m s) :
    m.size = s.length := by
  rw [h.size_eq, ← h.perm.length_eq]; simp only [vals, List.length_map]

theorem Rel.cap_pos {H : HashEq T} {m : SetSt T} {s : List T} (h : Rel H m s)
    (h0 : m.size ≠ 0) : 0 < m.entries.length := by
  have := h.size_eq
  cases he : m.entries with
  | nil => simp [SetSt.nodes, he] at this; omega
  | cons a b => simp

theorem contains_ok {H : HashEq T} (L : H.Lawful) {m : SetSt T} {s : List T} (h : Rel H m s)
    (v : T) : contains H m v = .ok (mem H v s) := by
  unfold contains
  by_cases h0 : m.size = 0
  · have : s = [] := List.length_eq_zero_iff.1 (by rw [← h.size_len]; exact h0)
    subst this
    simp [h0, mem]
  · have hc := h.cap_pos h0
    simp only [h0, if_false, location_eq H hc, bucket_eq (loc_lt H hc v), R.ok_bind, R.pure_eq,
      chain_spec L h.placed hc]
    rw [← mem_perm h.perm]; rfl

/-! ### rehashing -/

theorem placed_set {H : HashEq T} {es : List (List (Node T))} (hp : Placed H es) {i : Nat}
    {l' : List (Node T)} (h : ∀ n ∈ l', loc H es.length n.val = i) : Placed H (es.set i l') := by
  intro j hj x hx
  simp only [List.length_set] at hj ⊢
  rw [List.getElem_set] at hx
  split at hx
  · rename_i e; rw [h x hx]; exact e
  · exact hp _ _ _ hx

theorem push_ok {H : HashEq T} {es : List (List (Node T))} (h0 : 0 < es.length) (hp : Placed H es)
    (v : T) (a : Nat) :
    Placed H (es.set (loc H es.length v) (⟨a, v⟩ :: es[loc H es.length v]'(loc_lt H h0 _))) ∧
    (es.set (loc H es.length v) (⟨a, v⟩ :: es[loc H es.length v]'(loc_lt H h0 _))).flatten.Perm
      (⟨a, v⟩ :: es.flatten) := by
  have hl := loc_lt H h0 v
  constructor
  · apply placed_set hp
    intro x hx
    rcases List.mem_cons.1 hx with rfl | hx
    · rfl
    · exact hp _ _ _ hx
  · obtain ⟨rest, h1, h2⟩ := flatten_set_perm hl (⟨a, v⟩ :: es[loc H es.length v])
    exact h1.trans (by simpa using (h2.symm.cons (⟨a, v⟩ : Node T)))

theorem reinsert_ok {H : HashEq T} {acc : List (List (Node T)) × Nat} (h0 : 0 < acc.1.length)
    (hp : Placed H acc.1) (n : Node T) :
    ∃ acc', reinsert H acc n = .ok acc' ∧ acc'.1.length = acc.1.length ∧ Placed H acc'.1 ∧
      (acc'.1.flatten.map Node.val).Perm (n.val :: acc.1.flatten.map Node.val) := by
  have hl := loc_lt H h0 n.val
  obtain ⟨h1, h2⟩ := push_ok h0 hp n.val acc.2
  refine ⟨(acc.1.set (loc H acc.1.length n.val) (⟨acc.2, n.val⟩ :: acc.1[loc H acc.1.length n.val]),
    acc.2 + 1), ?_, by simp, h1, ?_⟩
  · simp [reinsert, location_eq H h0, bucket_eq hl]
  · exact h2.map Node.val

theorem reinserts_ok {H : HashEq T} (ns : List (Node T)) {acc : List (List (Node T)) × Nat}
    (h0 : 0 < acc.1.length) (hp : Placed H acc.1) :
    ∃ acc', ns.foldlM (reinsert H) acc = .ok acc' ∧ acc'.1.length = acc.1.length ∧
      Placed H acc'.1 ∧
      (acc'.1.flatten.map Node.val).Perm (ns.map Node.val ++ acc.1.flatten.map Node.val) := by
  induction ns generalizing acc with
  | nil => exact ⟨acc, rfl, rfl, hp, by simp⟩
  | cons n ns ih =>
    obtain ⟨e1, h1, l1, p1, q1⟩ := reinsert_ok h0 hp n
    obtain ⟨e2, h2, l2, p2, q2⟩ := ih (acc := e1) (by omega) p1
    refine ⟨e2, by simp [List.foldlM_cons, h1, h2], by omega, p2, ?_⟩
    refine q2.trans ((q1.append_left _).trans ?_)
    simpa using List.perm_middle (a := n.val) (l₁ := ns.map Node.val)
      (l₂ := acc.1.flatten.map Node.val)

theorem reinsertss_ok {H : HashEq T} (ls : List (List (Node T)))
    {acc : List (List (Node T)) × Nat} (h0 : 0 < acc.1.length) (hp : Placed H acc.1) :
    ∃ acc', ls.foldlM (fun acc l => l.foldlM (reinsert H) acc) acc = .ok acc' ∧
      acc'.1.length = acc.1.length ∧ Placed H acc'.1 ∧
      (acc'.1.flatten.map Node.val).Perm
        (ls.flatten.map Node.val ++ acc.1.flatten.map Node.val) := by
  induction ls generalizing acc with
  | nil => exact ⟨acc, rfl, rfl, hp, by simp⟩
  | cons l ls ih =>
    obtain ⟨e1, h1, l1, p1, q1⟩ := reinserts_ok l h0 hp
    obtain ⟨e2, h2, l2, p2, q2⟩ := ih (acc := e1) (by omega) p1
    refine ⟨e2, by simp [List.foldlM_cons, h1, h2], by omega, p2, ?_⟩
    refine q2.trans ((q1.append_left _).trans ?_)
    simp only [List.flatten_cons, List.map_append, ← List.append_assoc]
    exact List.Perm.append_right _ List.perm_append_comm

theorem reserve_ok {H : HashEq T} {m : SetSt T} {s : List T} (h : Rel H m s)
    {c : Nat} (h0 : 0 < c) :
    ∃ m', reserve H m c = .ok m' ∧ Rel H m' s ∧ m'.entries.length = c ∧ m'.size = m.size := by
  obtain ⟨acc, h1, h2, h3, h4⟩ :=
    reinsertss_ok (H := H) m.entries (acc := (List.replicate c [], m.next)) (by simpa using h0)
      (by intro i hi n hn; simp at hn)
  have h4' : (acc.1.flatten.map Node.val).Perm (vals m) := by simpa [vals] using h4
  refine ⟨{ m with entries := acc.1, next := acc.2 }, ?_, ⟨h3, ?_, h.distinct, h4'.trans h.perm⟩,
    by simpa using h2, rfl⟩
  · simp [reserve, h1]
  · have := h4'.length_eq
    simp only [vals, List.length_map] at this
    simp only [SetSt.nodes] at this ⊢
    rw [this]; exact h.size_eq

theorem foldlM_error {α β : Type _} (f : β → α → R β) (e : Fault) :
    ∀ (l : List α) (b : β), l ≠ [] → (∀ b a, a ∈ l → f b a = .error e) →
      l.foldlM f b = .error e := by
  intro l b hl h
  cases l with
  | nil => exact absurd rfl hl
  | cons a l => simp [List.foldlM_cons, h b a (by simp)]

theorem reserve_zero {H : HashEq T} (m : SetSt T) (h : m.nodes ≠ []) :
    reserve H m 0 = .error .assert := by
  have : ∀ (ls : List (List (Node T))) (nx : Nat), ls.flatten ≠ [] →
      ls.foldlM (fun acc l => l.foldlM (reinsert H) acc) (([] : List (List (Node T))), nx)
        = .error .assert := by
    intro ls
    induction ls with
    | nil => intro nx h; simp at h
    | cons l ls ih =>
      intro nx h
      cases l with
      | nil => simpa [List.foldlM_cons] using ih nx (by simpa using h)
      | cons n ns =>
        have : reinsert H (([] : List (List (Node T))), nx) n = .error .assert := by
          simp [reinsert, location_zero]
        simp [List.foldlM_cons, this]
  have := this m.entries m.next h
  simp [reserve, this]

theorem reserve_zero_empty {H : HashEq T} {m : SetSt T} {s : List T} (R : Rel H m s)
    (h : m.nodes = []) : ∃ m', reserve H m 0 = .ok m' ∧ Rel H m' s := by
  have : ∀ (ls : List (List (Node T))) (nx : Nat), ls.flatten = [] →
      ls.foldlM (fun acc l => l.foldlM (reinsert H) acc) (([] : List (List (Node T))), nx)
        = .ok ([], nx) := by
    intro ls
    induction ls with
    | nil => intro nx h; rfl
    | cons l ls ih =>
      intro nx h
      simp only [List.flatten_cons, List.append_eq_nil_iff] at h
      obtain ⟨rfl, h⟩ := h
      simpa [List.foldlM_cons] using ih nx h
  have := this m.entries m.next h
  refine ⟨{ m with entries := [] }, by simp [reserve, this], ?_, ?_, R.distinct, ?_⟩
  · intro i hi; simp at hi
  · have := R.size_eq; simp [h] at this; simp [SetSt.nodes, this]
  · have h2 := R.perm
    simp only [vals, h, List.map_nil] at h2
    simpa [vals, SetSt.nodes] using h2

/-! ### writers -/

theorem addTail_ok {H : HashEq T} (L : H.Lawful) {m : SetSt T} {s : List T} (h : Rel H m s)
    (h0 : 0 < m.entries.length) (v : T) :
    ∃ m', addTail H m v = .ok (m', !mem H v s) ∧ Rel H m' (insert H v s) ∧
      m'.entries.length = m.entries.length := by
  have hl := loc_lt H h0 v
  have hm : mem H v (m.entries.flatten.map Node.val) = mem H v s := mem_perm h.perm
  unfold addTail
  simp only [location_eq H h0, bucket_eq hl, R.ok_bind, R.pure_eq, chain_spec L h.placed h0, hm]
  cases hv : mem H v s with
  | true => exact ⟨m, by simp, by simpa [insert, hv] using h, rfl⟩
  | false =>
    obtain ⟨p1, p2⟩ := push_ok h0 h.placed v m.next
    refine ⟨{ entries := m.entries.set (loc H m.entries.length v) (⟨m.next, v⟩ :: m.entries[loc H m.entries.length v]), size := m.size + 1, next := m.next + 1 }, by simp, ⟨p1, ?_, ?_, ?_⟩, by simp⟩
    · simp only [SetSt.nodes] at p2 ⊢
      rw [p2.length_eq, h.size_eq]; simp
    · simp only [insert, hv, Bool.false_eq_true, if_false]
      refine List.pairwise_cons.2 ⟨?_, h.distinct⟩
      intro x hx
      exact eq_false_symm L (mem_false.1 hv x hx)
    · simp only [insert, hv, Bool.false_eq_true, if_false]
      exact (p2.map Node.val).trans (by simpa [vals] using h.perm.cons v)

theorem ensure_ok {H : HashEq T} (L : H.Lawful) {m : SetSt T} {s : List T} (h : Rel H m s) :
    ∃ m', ensure H m = .ok m' ∧ Rel H m' s ∧ 0 < m'.entries.length ∧
      (m.size < m.entries.length → m' = m) := by
  unfold ensure
  split
  · rename_i hge
    obtain ⟨m', a, b, c, d⟩ := reserve_ok h (c := if m.size = 0 then 4 else m.size * 2)
      (by split <;> omega)
    exact ⟨m', a, b, by rw [c]; split <;> omega, fun hlt => by omega⟩
  · rename_i hge
    exact ⟨m, rfl, h, by omega, fun _ => rfl⟩

theorem add_ok {H : HashEq T} (L : H.Lawful) {m : SetSt T} {s : List T} (h : Rel H m s) (v : T) :
    ∃ m', add H m v = .ok (m', !mem H v s) ∧ Rel H m' (insert H v s) ∧
      (m.size < m.entries.length → m'.entries.length = m.entries.length) := by
  obtain ⟨m1, e1, R1, c1, same⟩ := ensure_ok L h
  obtain ⟨m2, e2, R2, l2⟩ := addTail_ok L R1 c1 v
  exact ⟨m2, by simp [add, e1, e2], R2, fun hlt => by rw [l2, same hlt]⟩

theorem addAll_ok {H : HashEq T} (L : H.Lawful) (vs : List T) {m : SetSt T} {s : List T}
    (h : Rel H m s) :
    ∃ m', addAll H m vs = .ok m' ∧ Rel H m' (vs.foldl (fun s v => insert H v s) s) := by
  induction vs generalizing m s with
  | nil => exact ⟨m, rfl, h⟩
  | cons v vs ih =>
    obtain ⟨m1, e1, R1, -⟩ := add_ok L h v
    obtain ⟨m2, e2, R2⟩ := ih R1
    exact ⟨m2, by simp [addAll, e1, e2], R2⟩

theorem eraseAfterLoop_some {H : HashEq T} {v : T} {p : Node T} {ns l' : List (Node T)}
    (h : eraseAfterLoop H v p ns = some l') :
    ∃ n ∈ ns, H.eq n.val v = true ∧ (p :: ns).Perm (n :: l') := by
  induction ns generalizing p l' with
  | nil => simp [eraseAfterLoop] at h
  | cons n ns ih =>
    simp only [eraseAfterLoop] at h
    split at h
    · rename_i he
      simp only [Option.some.injEq] at h; subst h
      exact ⟨n, by simp, he, List.Perm.swap _ _ _⟩
    · obtain ⟨l2, hl2, rfl⟩ := Option.map_eq_some_iff.1 h
      obtain ⟨x, hx, he, hp⟩ := ih hl2
      exact ⟨x, by simp [hx], he, (hp.cons p).trans (List.Perm.swap _ _ _)⟩

theorem eraseAfterLoop_none {H : HashEq T} {v : T} {p : Node T} {ns : List (Node T)}
    (h : eraseAfterLoop H v p ns = none) : ∀ n ∈ ns, H.eq n.val v = false := by
  induction ns generalizing p with
  | nil => simp
  | cons n ns ih =>
    simp only [eraseAfterLoop] at h
    split at h
    · simp at h
    · have := ih (p := n) (by simpa using h)
      simp_all

theorem erase_of_not_mem {H : HashEq T} {v : T} {s : List T} (h : mem H v s = false) :
    erase H v s = s := by
  rw [erase, List.filter_eq_self]
  intro x hx
  simp [mem_false.1 h x hx]

theorem Distinct.erase {H : HashEq T} {s : List T} (h : Distinct H s) (v : T) :
    Distinct H (erase H v s) := List.Pairwise.filter _ h

theorem remove_rel {H : HashEq T} (L : H.Lawful) {m : SetSt T} {s : List T} (h : Rel H m s)
    {v : T} {x : Node T} (hx : H.eq x.val v = true) {es' : List (List (Node T))}
    (hp : Placed H es') (q : m.nodes.Perm (x :: es'.flatten)) :
    Rel H { m with entries := es', size := m.size - 1 } (erase H v s) := by
  have q' : (vals m).Perm (x.val :: es'.flatten.map Node.val) := by
    simpa [vals] using q.map Node.val
  have hd : Distinct H (x.val :: es'.flatten.map Node.val) :=
    h.distinct.perm L (h.perm.symm.trans q')
  refine ⟨hp, ?_, h.distinct.erase v, ?_⟩
  · have := q.length_eq; have := h.size_eq; simp_all
  · have h1 : ((vals m).filter (fun p => !H.eq p v)).Perm (erase H v s) := h.perm.filter _
    have h3 := (q'.filter (fun p => !H.eq p v)).symm.trans h1
    have h4 : (es'.flatten.map Node.val).filter (fun p => !H.eq p v) = es'.flatten.map Node.val := by
      rw [List.filter_eq_self]
      intro p hp
      have hne := (List.pairwise_cons.1 hd).1 p hp
      cases he : H.eq p v with
      | false => simp
      | true =>
        have := L.trans _ _ _ hx (L.symm _ _ he)
        simp_all
    simp only [List.filter_cons, hx, Bool.not_true, Bool.false_eq_true, if_false, h4] at h3
    exact h3

theorem remove_ok {H : HashEq T} (L : H.Lawful) {m : SetSt T} {s : List T} (h : Rel H m s)
    (v : T) : ∃ m', remove H m v = .ok (m', mem H v s) ∧ Rel H m' (erase H v s) ∧
      m'.entries.length = m.entries.length := by
  by_cases h0 : m.size = 0
  · have : s = [] := List.length_eq_zero_iff.1 (by rw [← h.size_len]; exact h0)
    subst this
    exact ⟨m, by simp [remove, h0, mem], by simpa [erase] using h, rfl⟩
  · have hc := h.cap_pos h0
    have hl := loc_lt H hc v
    have hspec := chain_spec L h.placed hc v
    have hms : mem H v (m.entries.flatten.map Node.val) = mem H v s := mem_perm h.perm
    rw [hms] at hspec
    generalize hb : m.entries[loc H m.entries.length v] = l at hspec
    have hpl : ∀ n ∈ l, loc H m.entries.length n.val = loc H m.entries.length v := by
      intro n hn; subst hb; exact h.placed _ hl _ hn
    have step : ∀ x l', H.eq x.val v = true → l.Perm (x :: l') →
        mem H v s = true ∧
        Rel H { m with entries := m.entries.set (loc H m.entries.length v) l', size := m.size - 1 } (erase H v s) := by
      intro x l' hx hp
      obtain ⟨rest, q1, q2⟩ := flatten_set_perm hl l'
      have q : m.nodes.Perm (x :: (m.entries.set (loc H m.entries.length v) l').flatten) := by
        rw [hb] at q2
        exact q2.trans ((hp.append_right rest).trans (by simpa using q1.symm.cons x))
      refine ⟨?_, ?_⟩
      · rw [← hspec, chainHas_iff]
        exact ⟨x, hp.mem_iff.2 (by simp), hx⟩
      · refine remove_rel L h hx ?_ q
        apply placed_set h.placed
        intro n hn
        exact hpl n (hp.mem_iff.2 (List.mem_cons_of_mem _ hn))
    have hmiss : (∀ n ∈ l, H.eq n.val v = false) → mem H v s = false := by
      intro hm
      rw [← hspec]
      cases hch : chainHas H v l with
      | false => rfl
      | true =>
        obtain ⟨n, hn, he⟩ := chainHas_iff.1 hch
        rw [hm n hn] at he; simp at he
    unfold remove
    simp only [h0, if_false, location_eq H hc, bucket_eq hl, hb, R.ok_bind]
    cases l with
    | nil =>
      have hh := hmiss (by simp)
      exact ⟨m, by simp [hh], by rw [erase_of_not_mem hh]; exact h, rfl⟩
    | cons n ns =>
      by_cases he : H.eq n.val v = true
      · obtain ⟨h1, h2⟩ := step n ns he (.refl _)
        exact ⟨_, by simp [he, h1], h2, by simp⟩
      · cases hE : eraseAfterLoop H v n ns with
        | some l' =>
          obtain ⟨x, hx, hxe, hp⟩ := eraseAfterLoop_some hE
          obtain ⟨h1, h2⟩ := step x l' hxe hp
          exact ⟨_, by simp [he, hE, h1], h2, by simp⟩
        | none =>
          have hh := hmiss (by
            intro y hy
            rcases List.mem_cons.1 hy with rfl | hy
            · simpa using he
            · exact eraseAfterLoop_none hE y hy)
          exact ⟨m, by simp [he, hE, hh], by rw [erase_of_not_mem hh]; exact h, rfl⟩

theorem clear_rel {H : HashEq T} {m : SetSt T} : Rel H (clear m) [] := by
  have hn : (clear m).nodes = [] := flatten_map_nil m.entries
  refine ⟨?_, ?_, ?_, ?_⟩
  · intro i hi n hx; simp [clear] at hx
  · simp [hn]; rfl
  · simp [Distinct]
  · simp [vals, hn]

theorem copyChain_val (a : Nat) (l : List (Node T)) :
    (copyChain a l).map Node.val = l.map Node.val := by
  induction l generalizing a with
  | nil => rfl
  | cons n ns ih => simp [copyChain, ih]

theorem copyEntries_val (a : Nat) (es : List (List (Node T))) :
    (copyEntries a es).map (fun l => l.map Node.val) = es.map (fun l => l.map Node.val) := by
  induction es generalizing a with
  | nil => rfl
  | cons l ls ih => simp [copyEntries, ih, copyChain_val]

theorem copy_rel {H : HashEq T} {m : SetSt T} {s : List T} (h : Rel H m s) (a : Nat) :
    Rel H (copy m a) s ∧ (copy m a).entries.length = m.entries.length := by
  have hv := copyEntries_val a m.entries
  have hlen : (copyEntries a m.entries).length = m.entries.length := by
    simpa using congrArg List.length hv
  have hvals : vals (copy m a) = vals m := by
    simp only [vals, SetSt.nodes, copy]
    rw [List.map_flatten, hv, List.map_flatten]
  refine ⟨⟨?_, ?_, h.distinct, by rw [hvals]; exact h.perm⟩, hlen⟩
  · intro i hi n hn
    simp only [copy] at hi hn ⊢
    rw [hlen] at hi ⊢
    have h1 : (copyEntries a m.entries)[i].map Node.val = (m.entries[i]).map Node.val := by
      have h2 : ((copyEntries a m.entries).map (fun l => l.map Node.val))[i]'(by simpa [hlen] using hi) =
          (m.entries.map (fun l => l.map Node.val))[i]'(by simpa using hi) := by
        simp only [hv]
      simpa using h2
    have : n.val ∈ (copyEntries a m.entries)[i].map Node.val := List.mem_map.2 ⟨n, hn, rfl⟩
    rw [h1] at this
    obtain ⟨x, hx, hxe⟩ := List.mem_map.1 this
    rw [← hxe]; exact h.placed i hi x hx
  · have := congrArg List.length hvals
    simp only [vals, List.length_map] at this
    rw [this]; exact h.size_eq

theorem empty_rel (H : HashEq T) : Rel H empty [] :=
  ⟨by intro i hi; simp [empty] at hi, rfl, by simp [Distinct], by simp [vals, empty]⟩

/-! ### simulation -/

/-- `reserve(0)` on a non-empty set is the one call that fails. -/
def Bad (s : List T) : Op T → Prop
  | .reserve n => n = 0 ∧ s ≠ []
  | _ => False

theorem step_ok {H : HashEq T} (L : H.Lawful) {m : SetSt T} {s : List T} (h : Rel H m s)
    (op : Op T) :
    (¬ Bad s op ∧ ∃ m', implStep H m op = .ok (m', (specStep H s op).2) ∧
        Rel H m' (specStep H s op).1) ∨
    (Bad s op ∧ implStep H m op = .error .assert) := by
  cases op with
  | add v =>
    obtain ⟨m', e, R, -⟩ := add_ok L h v
    exact .inl ⟨id, m', by simp [implStep, specStep, e], R⟩
  | remove v =>
    obtain ⟨m', e, R, -⟩ := remove_ok L h v
    exact .inl ⟨id, m', by simp [implStep, specStep, e], R⟩
  | addAll vs =>
    obtain ⟨m', e, R⟩ := addAll_ok L vs h
    exact .inl ⟨id, m', by simp [implStep, specStep, e], R⟩
  | reserve n =>
    rcases Nat.eq_zero_or_pos n with rfl | hn
    · by_cases hs : s = []
      · have hn : m.nodes = [] := by
          have := h.size_eq; have h2 := h.size_len; subst hs
          exact List.length_eq_zero_iff.1 (by rw [← this, h2]; rfl)
        obtain ⟨m', e, R⟩ := reserve_zero_empty h hn
        exact .inl ⟨fun hb => hb.2 hs, m', by simp [implStep, specStep, e], R⟩
      · right
        refine ⟨⟨rfl, hs⟩, ?_⟩
        have hn : m.nodes ≠ [] := by
          intro hc
          have h1 := h.perm
          simp [vals, hc] at h1
          exact hs h1
        simp [implStep, reserve_zero m hn]
    · obtain ⟨m', e, R, -⟩ := reserve_ok h hn
      exact .inl ⟨fun hb => by have := hb.1; omega, m', by simp [implStep, specStep, e], R⟩
  | clear => exact .inl ⟨id, clear m, rfl, clear_rel⟩
  | copySelf => exact .inl ⟨id, copy m m.next, rfl, (copy_rel h _).1⟩
  | contains v => exact .inl ⟨id, m, by simp [implStep, specStep, contains_ok L h], h⟩
  | size => exact .inl ⟨id, m, by simp [implStep, specStep, h.size_len], h⟩

/-- The history contains a `reserve(0)` at a moment when the abstract set is not empty. -/
def BadRun (H : HashEq T) : List T → List (Op T) → Prop
  | _, [] => False
  | s, op :: ops => Bad s op ∨ BadRun H (specStep H s op).1 ops

theorem run_ok {H : HashEq T} (L : H.Lawful) (ops : List (Op T)) {m : SetSt T} {s : List T}
    (h : Rel H m s) :
    (¬ BadRun H s ops ∧ ∃ m', implRun H m ops = .ok (m', (specRun H s ops).2) ∧
        Rel H m' (specRun H s ops).1) ∨
    (BadRun H s ops ∧ implRun H m ops = .error .assert) := by
  induction ops generalizing m s with
  | nil => exact .inl ⟨id, m, rfl, h⟩
  | cons op ops ih =>
    rcases step_ok L h op with ⟨hb, m1, e1, R1⟩ | ⟨hb, e⟩
    · rcases ih R1 with ⟨hb2, m2, e2, R2⟩ | ⟨hb2, e2⟩
      · refine .inl ⟨fun hc => hc.elim hb hb2, m2, ?_, R2⟩
        simp [implRun, specRun, e1, e2]
      · exact .inr ⟨.inr hb2, by simp [implRun, e1, e2]⟩
    · exact .inr ⟨.inl hb, by simp [implRun, e]⟩

/-! ### iteration -/

/-- The nodes an iterator still has to visit. -/
def Iter.rest (i : Iter T) : List (Node T) := i.it ++ i.curr.tail.flatten

/-- Iterator invariant: at the end, or standing on a node. -/
def Iter.WF (i : Iter T) : Prop := (i.curr = [] ∧ i.it = []) ∨ (i.curr ≠ [] ∧ i.it ≠ [])

theorem findNextIt_wf (es : List (List (Node T))) :
    (findNextIt es []).WF ∧ (findNextIt es []).rest = es.flatten := by
  induction es with
  | nil => simp [findNextIt, Iter.WF, Iter.rest]
  | cons l ls ih =>
    cases l with
    | nil => simpa [findNextIt] using ih
    | cons n ns => simp [findNextIt, Iter.WF, Iter.rest]

theorem inc_ok {i : Iter T} (h : i.WF) (hm : i.more = true) :
    ∃ n i', i.deref = .ok n ∧ i.inc = .ok i' ∧ i'.WF ∧ i.rest = n :: i'.rest := by
  obtain ⟨curr, it⟩ := i
  simp only [Iter.WF, Iter.more] at h hm
  cases curr with
  | nil => simp at hm
  | cons c cs =>
    cases it with
    | nil => simp at h
    | cons n ns =>
      cases ns with
      | nil =>
        have := findNextIt_wf cs
        exact ⟨n, findNextIt cs [], rfl, rfl, this.1, by rw [this.2]; simp [Iter.rest]⟩
      | cons n' ns' =>
        exact ⟨n, { curr := c :: cs, it := n' :: ns' }, rfl, rfl, .inr (by simp), by simp [Iter.rest]⟩

theorem iterate_ok (fuel : Nat) (i : Iter T) (h : i.WF) (hf : i.rest.length ≤ fuel) :
    iterate fuel i = .ok i.rest := by
  induction fuel generalizing i with
  | zero =>
    rcases h with ⟨h1, h2⟩ | ⟨h1, h2⟩
    · simp [iterate, Iter.more, Iter.rest, h1, h2]
    · exfalso
      have : i.it.length = 0 := by simp [Iter.rest] at hf; simp [hf]
      exact h2 (List.length_eq_zero_iff.1 this)
  | succ fuel ih =>
    cases hm : i.more with
    | true =>
      obtain ⟨n, i', h1, h2, h3, h4⟩ := inc_ok h hm
      have := ih i' h3 (by rw [h4] at hf; simp at hf; omega)
      simp [iterate, hm, h1, h2, this, h4]
    | false =>
      rcases h with ⟨h1, h2⟩ | ⟨h1, h2⟩
      · simp [iterate, Iter.more, Iter.rest, h1, h2]
      · simp [Iter.more, h1] at hm

theorem iterAll_ok (m : SetSt T) : iterAll m = .ok m.nodes := by
  have := findNextIt_wf m.entries
  unfold iterAll Iter.begin
  rw [iterate_ok _ _ this.1 (by rw [this.2]; exact Nat.le_refl _), this.2]

/-! ### equality -/

theorem eqLoop_ok {H : HashEq T} (L : H.Lawful) {m : SetSt T} {s : List T} (h : Rel H m s)
    (ns : List (Node T)) : eqLoop H m ns = .ok (ns.all (fun n => mem H n.val s)) := by
  induction ns with
  | nil => rfl
  | cons n ns ih =>
    unfold eqLoop
    simp only [contains_ok L h, R.ok_bind]
    cases hm : mem H n.val s with
    | true => simp [ih, hm]
    | false => simp [hm]

/-- Pigeonhole: a distinct list covered by another one is not longer; if it has the same length it
covers the other one. -/
theorem cover {H : HashEq T} (L : H.Lawful) {s t : List T} (hs : Distinct H s)
    (hst : ∀ x ∈ s, mem H x t = true) (ht : Distinct H t) :
    s.length ≤ t.length ∧ (t.length ≤ s.length → ∀ y ∈ t, mem H y s = true) := by
  induction s generalizing t with
  | nil =>
    refine ⟨by simp, fun hl => ?_⟩
    have : t = [] := List.length_eq_zero_iff.1 (by simpa using hl)
    simp [this]
  | cons p s ih =>
    obtain ⟨q0, hq0, he0⟩ := mem_iff.1 (hst p (by simp))
    obtain ⟨a, b, rfl⟩ := List.append_of_mem hq0
    have hperm : (a ++ q0 :: b).Perm (q0 :: (a ++ b)) := List.perm_middle
    have ht' := ht.perm L hperm
    simp only [Distinct, List.pairwise_cons] at ht' hs
    obtain ⟨h1, h2⟩ := ih (t := a ++ b) hs.2 (by
      intro p' hp'
      obtain ⟨q', hq', he'⟩ := mem_iff.1 (hst p' (by simp [hp']))
      rcases List.mem_cons.1 (hperm.mem_iff.1 hq') with rfl | hq''
      · have := hs.1 p' hp'
        have e : H.eq p p' = true := L.trans _ _ _ (L.symm _ _ he0) he'
        simp_all
      · exact mem_iff.2 ⟨q', hq'', he'⟩) ht'.2
    refine ⟨by simp at h1 ⊢; omega, fun hl q hq => ?_⟩
    have h3 := h2 (by simp at hl ⊢; omega)
    rcases List.mem_cons.1 (hperm.mem_iff.1 hq) with rfl | hq'
    · exact mem_iff.2 ⟨p, by simp, L.symm _ _ he0⟩
    · obtain ⟨x, hx, hxe⟩ := mem_iff.1 (h3 q hq')
      exact mem_iff.2 ⟨x, by simp [hx], hxe⟩

theorem mem_congr {H : HashEq T} (L : H.Lawful) {x y : T} (e : H.eq x y = true) {s : List T}
    (h : mem H x s = true) : mem H y s = true := by
  obtain ⟨z, hz, hze⟩ := mem_iff.1 h
  exact mem_iff.2 ⟨z, hz, L.trans _ _ _ hze e⟩

theorem setEq_ok {H : HashEq T} (L : H.Lawful) {m1 m2 : SetSt T} {s1 s2 : List T}
    (h1 : Rel H m1 s1) (h2 : Rel H m2 s2) :
    ∃ b, setEq H m1 m2 = .ok b ∧ (b = true ↔ ∀ v, mem H v s1 = mem H v s2) := by
  unfold setEq
  have full : ∀ {s t : List T}, (∀ v, mem H v s = mem H v t) → ∀ x ∈ s, mem H x t = true := by
    intro s t h x hx
    rw [← h x]; exact mem_iff.2 ⟨x, hx, L.refl _⟩
  by_cases hsz : m1.size = m2.size
  · simp only [ne_eq, hsz, not_true_eq_false, if_false, eqLoop_ok L h1]
    refine ⟨_, rfl, ?_⟩
    have hall : (m2.entries.flatten.all (fun n => mem H n.val s1)) = true ↔
        ∀ x ∈ s2, mem H x s1 = true := by
      rw [List.all_eq_true]
      constructor
      · intro h x hx
        obtain ⟨n, hn, rfl⟩ := List.mem_map.1 (h2.perm.mem_iff.2 hx)
        exact h n hn
      · intro h n hn
        exact h _ (h2.perm.mem_iff.1 (List.mem_map.2 ⟨n, hn, rfl⟩))
    rw [hall]
    constructor
    · intro hc
      have hc2 := (cover L h2.distinct hc h1.distinct).2 (by rw [← h1.size_len, ← h2.size_len]; omega)
      intro v
      rw [Bool.eq_iff_iff]
      constructor
      · intro hv
        obtain ⟨x, hx, hxe⟩ := mem_iff.1 hv
        exact mem_congr L hxe (hc2 x hx)
      · intro hv
        obtain ⟨x, hx, hxe⟩ := mem_iff.1 hv
        exact mem_congr L hxe (hc x hx)
    · intro h; exact full (fun v => (h v).symm)
  · refine ⟨false, by simp [hsz], ?_⟩
    simp only [Bool.false_eq_true, false_iff]
    intro h
    apply hsz
    rw [h1.size_len, h2.size_len]
    exact Nat.le_antisymm (cover L h1.distinct (full h) h2.distinct).1
      (cover L h2.distinct (full (fun v => (h v).symm)) h1.distinct).1

end Verif.Set
