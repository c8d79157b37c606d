import Verif.Map.Spec
import Mathlib.Data.List.Perm.Basic

/-! Helper lemmas for the map: representation invariant and simulation. -/
namespace Verif.Map

variable {K V : Type _}

/-- Pure version of `location`. -/
def loc (H : HashEq K) (cap : Nat) (k : K) : Nat :=
  (((H.hash k ^^^ 0x0bd64917a71585ad#64) * 0xd989bcacc137dcd5#64) >>> 32).toNat &&& (cap - 1)

theorem location_eq (H : HashEq K) {cap : Nat} (h : 0 < cap) (k : K) :
    location H cap k = .ok (loc H cap k) := by
  simp only [location, loc, ccAssert, h, decide_true, if_true, R.ok_bind, R.pure_eq]

theorem loc_lt (H : HashEq K) {cap : Nat} (h : 0 < cap) (k : K) : loc H cap k < cap := by
  unfold loc
  generalize (((H.hash k ^^^ 0x0bd64917a71585ad#64) * 0xd989bcacc137dcd5#64) >>> 32).toNat = y
  have := Nat.and_le_right (n := y) (m := cap - 1)
  omega

theorem loc_congr {H : HashEq K} (L : H.Lawful) {a b : K} (h : H.eq a b = true) (cap : Nat) :
    loc H cap a = loc H cap b := by
  unfold loc; rw [L.hash_eq a b h]

/-- All nodes of a map. -/
abbrev MapSt.nodes (m : MapSt K V) : List (Node K V) := m.entries.flatten

/-- Every node sits in the chain its key hashes to. -/
def Placed (H : HashEq K) (es : List (List (Node K V))) : Prop :=
  ∀ i (hi : i < es.length), ∀ n ∈ es[i], loc H es.length n.key = i

/-- Distinct keys. -/
def Distinct (H : HashEq K) (ns : List (Node K V)) : Prop :=
  ns.Pairwise (fun a b => H.eq a.key b.key = false)

/-- The representation invariant of a reachable map. -/
structure Inv (H : HashEq K) (m : MapSt K V) : Prop where
  placed : Placed H m.entries
  size_eq : m.size = m.nodes.length
  distinct : Distinct H m.nodes
  addrs : (m.nodes.map Node.addr).Nodup
  fresh : ∀ n ∈ m.nodes, n.addr < m.next

/-- Abstraction function. -/
def ents (m : MapSt K V) : AMap K V := m.nodes.map (fun n => (n.key, n.val))

/-- Refinement relation. -/
structure Rel (H : HashEq K) (m : MapSt K V) (s : AMap K V) : Prop where
  inv : Inv H m
  perm : (ents m).Perm s

theorem flatten_set_perm {α : Type _} {es : List (List α)} {i : Nat} (hi : i < es.length) (l' : List α) :
    ∃ rest, (es.set i l').flatten.Perm (l' ++ rest) ∧ es.flatten.Perm (es[i] ++ rest) := by
  induction es generalizing i with
  | nil => simp at hi
  | cons l ls ih =>
    cases i with
    | zero => exact ⟨ls.flatten, by simp, by simp⟩
    | succ i =>
      obtain ⟨rest, h1, h2⟩ := ih (i := i) (by simpa using hi)
      refine ⟨l ++ rest, ?_, ?_⟩
      · simp only [List.set_cons_succ, List.flatten_cons]
        exact (h1.append_left l).trans (by
          rw [← List.append_assoc, ← List.append_assoc]
          exact List.Perm.append_right _ List.perm_append_comm)
      · simp only [List.flatten_cons, List.getElem_cons_succ]
        exact (h2.append_left l).trans (by
          rw [← List.append_assoc, ← List.append_assoc]
          exact List.Perm.append_right _ List.perm_append_comm)

theorem bucket_eq {es : List (List (Node K V))} {i : Nat} (hi : i < es.length) :
    bucket es i = .ok es[i] := by
  simp [bucket, List.getElem?_eq_getElem hi]

theorem findNode_some {H : HashEq K} {k : K} {l : List (Node K V)} {n : Node K V}
    (h : findNode H k l = some n) : n ∈ l ∧ H.eq n.key k = true := by
  induction l with
  | nil => simp [findNode] at h
  | cons m ms ih =>
    simp only [findNode] at h
    split at h
    · simp at h; subst h; simp_all
    · have := ih h; simp_all

theorem findNode_none {H : HashEq K} {k : K} {l : List (Node K V)}
    (h : findNode H k l = none) : ∀ n ∈ l, H.eq n.key k = false := by
  induction l with
  | nil => simp
  | cons m ms ih =>
    simp only [findNode] at h
    split at h
    · simp at h
    · have := ih h; simp_all

theorem mem_bucket {H : HashEq K} {es : List (List (Node K V))}
    (hp : Placed H es) (h0 : 0 < es.length) {n : Node K V} (hn : n ∈ es.flatten) :
    n ∈ es[loc H es.length n.key]'(loc_lt H h0 _) := by
  obtain ⟨l, hl, hnl⟩ := List.mem_flatten.1 hn
  obtain ⟨i, hi, rfl⟩ := List.mem_iff_getElem.1 hl
  have := hp i hi n hnl
  simpa [this] using hnl

theorem mem_flatten_of_bucket {α : Type _} {es : List (List α)} {i : Nat} {hi : i < es.length}
    {n : α} (hn : n ∈ es[i]) : n ∈ es.flatten :=
  List.mem_flatten.2 ⟨_, List.getElem_mem hi, hn⟩

/-- Distinct lists are closed under permutation (needs symmetry). -/
theorem Distinct.perm {H : HashEq K} (L : H.Lawful) {a b : List (Node K V)} (h : Distinct H a)
    (p : a.Perm b) : Distinct H b := by
  unfold Distinct at *
  refine p.pairwise h ?_
  intro x y hxy
  cases hyx : H.eq y.key x.key with
  | false => rfl
  | true => rw [L.symm _ _ hyx] at hxy; exact hxy

/-- In a distinct list, nodes with equal keys are the same node. -/
theorem Distinct.unique {H : HashEq K} (L : H.Lawful) {a : List (Node K V)} (h : Distinct H a)
    {x y : Node K V} (hx : x ∈ a) (hy : y ∈ a) {k : K} (ex : H.eq x.key k = true)
    (ey : H.eq y.key k = true) : x = y := by
  have e : H.eq x.key y.key = true := L.trans _ _ _ ex (L.symm _ _ ey)
  induction a with
  | nil => simp at hx
  | cons z zs ih =>
    simp only [Distinct, List.pairwise_cons] at h
    rcases List.mem_cons.1 hx with rfl | hx' <;> rcases List.mem_cons.1 hy with rfl | hy'
    · rfl
    · have := h.1 _ hy'; simp_all
    · have := h.1 _ hx'; have e' := L.symm _ _ e; simp_all
    · exact ih h.2 hx' hy'

/-- Result of looking up a key in a well-formed map. -/
theorem find_spec {H : HashEq K} (L : H.Lawful) {es : List (List (Node K V))}
    (hp : Placed H es) (h0 : 0 < es.length) (k : K) :
    (∃ n ∈ es.flatten, H.eq n.key k = true ∧
        findNode H k (es[loc H es.length k]'(loc_lt H h0 _)) = some n) ∨
    ((∀ n ∈ es.flatten, H.eq n.key k = false) ∧
        findNode H k (es[loc H es.length k]'(loc_lt H h0 _)) = none) := by
  cases hf : findNode H k (es[loc H es.length k]'(loc_lt H h0 _)) with
  | some n =>
    have := findNode_some hf
    exact .inl ⟨n, mem_flatten_of_bucket this.1, this.2, rfl⟩
  | none =>
    right
    refine ⟨fun n hn => ?_, rfl⟩
    have hb := mem_bucket hp h0 hn
    cases he : H.eq n.key k with
    | false => rfl
    | true =>
      have hl := loc_congr L he es.length
      have hb' : n ∈ es[loc H es.length k]'(loc_lt H h0 _) := by simpa [hl] using hb
      have := findNode_none hf n hb'
      simp_all

/-! ### rehashing -/

theorem relink_ok {H : HashEq K} {es : List (List (Node K V))} (h0 : 0 < es.length)
    (hp : Placed H es) (n : Node K V) :
    ∃ es', relink H es n = .ok es' ∧ es'.length = es.length ∧ Placed H es' ∧
      es'.flatten.Perm (n :: es.flatten) := by
  have hl := loc_lt H h0 n.key
  refine ⟨es.set (loc H es.length n.key) (n :: es[loc H es.length n.key]), ?_, by simp, ?_, ?_⟩
  · simp [relink, location_eq H h0, bucket_eq hl]
  · intro i hi x hx
    simp only [List.length_set] at hi ⊢
    rw [List.getElem_set] at hx
    split at hx
    · rename_i heq
      rcases List.mem_cons.1 hx with rfl | hx
      · exact heq
      · subst heq; exact hp _ _ _ hx
    · exact hp _ _ _ hx
  · obtain ⟨rest, h1, h2⟩ := flatten_set_perm hl (n :: es[loc H es.length n.key])
    exact h1.trans (by simpa using (h2.symm.cons n))

theorem relinks_ok {H : HashEq K} (ns : List (Node K V)) {es : List (List (Node K V))}
    (h0 : 0 < es.length) (hp : Placed H es) :
    ∃ es', ns.foldlM (relink H) es = .ok es' ∧ es'.length = es.length ∧ Placed H es' ∧
      es'.flatten.Perm (ns ++ es.flatten) := by
  induction ns generalizing es with
  | nil => exact ⟨es, rfl, rfl, hp, by simp⟩
  | cons n ns ih =>
    obtain ⟨e1, h1, l1, p1, q1⟩ := relink_ok h0 hp n
    obtain ⟨e2, h2, l2, p2, q2⟩ := ih (es := e1) (by omega) p1
    refine ⟨e2, by simp [List.foldlM_cons, h1, h2], by omega, p2, ?_⟩
    refine q2.trans ((q1.append_left ns).trans ?_)
    simpa using List.perm_middle (a := n) (l₁ := ns) (l₂ := es.flatten)

theorem relinkss_ok {H : HashEq K} (ls : List (List (Node K V))) {es : List (List (Node K V))}
    (h0 : 0 < es.length) (hp : Placed H es) :
    ∃ es', ls.foldlM (fun es l => l.foldlM (relink H) es) es = .ok es' ∧
      es'.length = es.length ∧ Placed H es' ∧ es'.flatten.Perm (ls.flatten ++ es.flatten) := by
  induction ls generalizing es with
  | nil => exact ⟨es, rfl, rfl, hp, by simp⟩
  | cons l ls ih =>
    obtain ⟨e1, h1, l1, p1, q1⟩ := relinks_ok l h0 hp
    obtain ⟨e2, h2, l2, p2, q2⟩ := ih (es := e1) (by omega) p1
    refine ⟨e2, by simp [List.foldlM_cons, h1, h2], by omega, p2, ?_⟩
    refine q2.trans ((q1.append_left _).trans ?_)
    simp only [List.flatten_cons, ← List.append_assoc]
    exact List.Perm.append_right _ List.perm_append_comm

theorem placed_replicate (H : HashEq K) (c : Nat) :
    Placed H (List.replicate c ([] : List (Node K V))) := by
  intro i hi n hn
  simp at hn

theorem growCap_pow (j n : Nat) : ∃ k, growCap (2 ^ j) n = 2 ^ k ∧ j ≤ k := by
  induction hm : n - 2 ^ j using Nat.strongRecOn generalizing j with
  | ind x ih =>
    rw [growCap]
    split
    · rename_i h
      have h1 : 2 * 2 ^ j = 2 ^ (j + 1) := by rw [Nat.pow_succ]; omega
      rw [h1]
      obtain ⟨k, hk, hjk⟩ := ih (n - 2 ^ (j + 1)) (by omega) (j + 1) rfl
      exact ⟨k, hk, by omega⟩
    · exact ⟨j, rfl, Nat.le_refl _⟩

theorem growCap_ge (cap n : Nat) (h : 0 < cap) : n ≤ growCap cap n := by
  induction hm : n - cap using Nat.strongRecOn generalizing cap with
  | ind x ih =>
    rw [growCap]
    split
    · rename_i h
      exact ih (n - 2 * cap) (by omega) (2 * cap) (by omega) rfl
    · omega

theorem growCap_four (n : Nat) :
    0 < growCap 4 n ∧ n ≤ growCap 4 n ∧ growCap 4 n &&& (growCap 4 n - 1) = 0 := by
  obtain ⟨k, hk, _⟩ := growCap_pow 2 n
  refine ⟨?_, growCap_ge 4 n (by omega), ?_⟩
  · have : growCap 4 n = 2 ^ k := hk
    rw [this]; exact Nat.two_pow_pos k
  · have : growCap 4 n = 2 ^ k := hk
    rw [this, Nat.and_two_pow_sub_one_eq_mod, Nat.mod_self]

theorem rehash_ok {H : HashEq K} (L : H.Lawful) {m : MapSt K V} (I : Inv H m) {c : Nat}
    (h0 : 0 < c) (hc : c &&& (c - 1) = 0) :
    ∃ m', rehash H m c = .ok m' ∧ Inv H m' ∧ m'.nodes.Perm m.nodes ∧ m'.entries.length = c ∧
      m'.next = m.next := by
  obtain ⟨es, h1, h2, h3, h4⟩ :=
    relinkss_ok (H := H) m.entries (es := List.replicate c []) (by simpa using h0)
      (placed_replicate H c)
  have h4' : es.flatten.Perm m.nodes := by simpa using h4
  refine ⟨{ m with entries := es }, ?_, ⟨h3, ?_, ?_, ?_, ?_⟩, h4', by simpa using h2, rfl⟩
  · simp [rehash, ccAssert, hc, h1]
  · simpa [I.size_eq] using h4'.length_eq.symm
  · exact I.distinct.perm L h4'.symm
  · exact (h4'.map _).nodup_iff.2 I.addrs
  · intro n hn; exact I.fresh n (h4'.mem_iff.1 hn)

theorem reserve_ok {H : HashEq K} (L : H.Lawful) {m : MapSt K V} (I : Inv H m) (n : Nat) :
    ∃ m', reserve H m n = .ok m' ∧ Inv H m' ∧ m'.nodes.Perm m.nodes ∧
      n ≤ m'.entries.length ∧ m.entries.length ≤ m'.entries.length ∧ m'.next = m.next ∧
      (n ≤ m.entries.length → m' = m) := by
  unfold reserve
  split
  · exact ⟨m, rfl, I, .refl _, by omega, by omega, rfl, fun _ => rfl⟩
  · obtain ⟨h1, h2, h3⟩ := growCap_four n
    obtain ⟨m', a, b, c, d, e⟩ := rehash_ok L I h1 h3
    exact ⟨m', a, b, c, by omega, by omega, e, fun h => by omega⟩

theorem ensure_ok {H : HashEq K} (L : H.Lawful) {m : MapSt K V} (I : Inv H m) :
    ∃ m', ensure H m = .ok m' ∧ Inv H m' ∧ m'.nodes.Perm m.nodes ∧ 0 < m'.entries.length ∧
      m'.next = m.next ∧
      (m.entries ≠ [] → m.size ≤ m.entries.length → m' = m) := by
  unfold ensure
  split
  · rename_i h
    obtain ⟨m', a, b, c, d, e, f, _⟩ := reserve_ok L I (if m.size = 0 then 4 else m.size + 1)
    refine ⟨m', a, b, c, ?_, f, fun h1 h2 => by rcases h with h | h <;> [exact absurd h h1; omega]⟩
    split at d <;> omega
  · rename_i h
    refine ⟨m, rfl, I, .refl _, ?_, rfl, fun _ _ => rfl⟩
    cases he : m.entries <;> simp_all

/-! ### abstract side -/

theorem ents_perm {m m' : MapSt K V} (h : m'.nodes.Perm m.nodes) : (ents m').Perm (ents m) :=
  h.map _

theorem has_iff {H : HashEq K} {k : K} {s : AMap K V} :
    s.has H k = true ↔ ∃ p ∈ s, H.eq p.1 k = true := by simp [AMap.has]

theorem lookup_none {H : HashEq K} {k : K} {s : AMap K V} (h : ∀ p ∈ s, H.eq p.1 k = false) :
    s.lookup H k = none := by
  induction s with
  | nil => rfl
  | cons p s ih => simp_all [AMap.lookup]

theorem lookup_some {H : HashEq K} {k : K} {s : AMap K V} {p : K × V} (hp : p ∈ s)
    (he : H.eq p.1 k = true) (hu : ∀ q ∈ s, H.eq q.1 k = true → q = p) :
    s.lookup H k = some p.2 := by
  induction s with
  | nil => simp at hp
  | cons q s ih =>
    simp only [AMap.lookup]
    split
    · rename_i hq
      have := hu q (by simp) hq
      rw [← this]
    · rename_i hq
      rcases List.mem_cons.1 hp with rfl | hp
      · exact absurd he hq
      · exact ih hp (fun q hq => hu q (by simp [hq]))

/-- How the abstract map relates to the nodes for a given key. -/
theorem Rel.hit {H : HashEq K} (L : H.Lawful) {m : MapSt K V} {s : AMap K V} (h : Rel H m s)
    {k : K} {n : Node K V} (hn : n ∈ m.nodes) (he : H.eq n.key k = true) :
    s.lookup H k = some n.val ∧ s.has H k = true := by
  have hmem : (n.key, n.val) ∈ s := h.perm.mem_iff.1 (List.mem_map.2 ⟨n, hn, rfl⟩)
  refine ⟨lookup_some (p := (n.key, n.val)) hmem he ?_, has_iff.2 ⟨_, hmem, he⟩⟩
  intro q hq hqe
  obtain ⟨x, hx, rfl⟩ := List.mem_map.1 (h.perm.mem_iff.2 hq)
  have := h.inv.distinct.unique L hx hn (k := k) hqe he
  rw [this]

theorem Rel.miss {H : HashEq K} {m : MapSt K V} {s : AMap K V} (h : Rel H m s)
    {k : K} (hn : ∀ n ∈ m.nodes, H.eq n.key k = false) :
    s.lookup H k = none ∧ s.has H k = false := by
  have : ∀ p ∈ s, H.eq p.1 k = false := by
    intro p hp
    obtain ⟨x, hx, rfl⟩ := List.mem_map.1 (h.perm.mem_iff.2 hp)
    exact hn x hx
  refine ⟨lookup_none this, ?_⟩
  cases hh : s.has H k with
  | false => rfl
  | true =>
    obtain ⟨p, hp, he⟩ := has_iff.1 hh
    simp [this p hp] at he

theorem Rel.size_eq {H : HashEq K} {m : MapSt K V} {s : AMap K V} (h : Rel H m s) :
    m.size = s.length := by
  rw [h.inv.size_eq, ← h.perm.length_eq]; simp only [ents, List.length_map]

/-- Uniform description of every lookup on a non-empty table. -/
theorem Rel.find {H : HashEq K} (L : H.Lawful) {m : MapSt K V} {s : AMap K V} (h : Rel H m s)
    (h0 : 0 < m.entries.length) (k : K) :
    (∃ n ∈ m.nodes, H.eq n.key k = true ∧
      findNode H k (m.entries[loc H m.entries.length k]'(loc_lt H h0 _)) = some n ∧
      s.lookup H k = some n.val ∧ s.has H k = true) ∨
    ((∀ n ∈ m.nodes, H.eq n.key k = false) ∧
      findNode H k (m.entries[loc H m.entries.length k]'(loc_lt H h0 _)) = none ∧
      s.lookup H k = none ∧ s.has H k = false) := by
  rcases find_spec L h.inv.placed h0 k with ⟨n, hn, he, hf⟩ | ⟨hn, hf⟩
  · have := h.hit L hn he
    exact .inl ⟨n, hn, he, hf, this.1, this.2⟩
  · have := h.miss hn
    exact .inr ⟨hn, hf, this.1, this.2⟩

theorem Rel.nil_of_size {H : HashEq K} {m : MapSt K V} {s : AMap K V} (h : Rel H m s)
    (h0 : m.size = 0) : s = [] := by
  have := h.size_eq
  exact List.length_eq_zero_iff.1 (by omega)

theorem Rel.cap_pos {H : HashEq K} {m : MapSt K V} {s : AMap K V} (h : Rel H m s)
    (h0 : m.size ≠ 0) : 0 < m.entries.length := by
  have := h.inv.size_eq
  cases he : m.entries with
  | nil => simp [MapSt.nodes, he] at this; omega
  | cons a b => simp

/-! ### readers -/

theorem getPtr_ok {H : HashEq K} (L : H.Lawful) {m : MapSt K V} {s : AMap K V} (h : Rel H m s)
    (k : K) : (∃ n ∈ m.nodes, H.eq n.key k = true ∧ getPtr H m k = .ok (some (n.addr, n.val)) ∧
        s.lookup H k = some n.val ∧ s.has H k = true) ∨
      (getPtr H m k = .ok none ∧ (∀ n ∈ m.nodes, H.eq n.key k = false) ∧
        s.lookup H k = none ∧ s.has H k = false) := by
  unfold getPtr
  by_cases h0 : m.size = 0
  · have hs := h.nil_of_size h0
    subst hs
    right
    have : m.nodes = [] := List.length_eq_zero_iff.1 (by rw [← h.inv.size_eq]; exact h0)
    simp [h0, AMap.lookup, AMap.has, this]
  · have hc := h.cap_pos h0
    have hl := loc_lt H hc k
    rcases h.find L hc k with ⟨n, hn, he, hf, hs, hh⟩ | ⟨hn, hf, hs, hh⟩
    · left
      exact ⟨n, hn, he, by simp [h0, location_eq H hc, bucket_eq hl, hf], hs, hh⟩
    · right
      exact ⟨by simp [h0, location_eq H hc, bucket_eq hl, hf], hn, hs, hh⟩

theorem containsKey_ok {H : HashEq K} (L : H.Lawful) {m : MapSt K V} {s : AMap K V}
    (h : Rel H m s) (k : K) : containsKey H m k = .ok (s.has H k) := by
  unfold containsKey
  by_cases h0 : m.size = 0
  · have hs := h.nil_of_size h0
    subst hs
    simp [h0, AMap.has]
  · have hc := h.cap_pos h0
    have hl := loc_lt H hc k
    rcases h.find L hc k with ⟨n, hn, he, hf, hs, hh⟩ | ⟨hn, hf, hs, hh⟩ <;>
    simp [h0, location_eq H hc, bucket_eq hl, hf, hh]

theorem get_ok {H : HashEq K} (L : H.Lawful) {m : MapSt K V} {s : AMap K V}
    (h : Rel H m s) (k : K) :
    (∃ n ∈ m.nodes, H.eq n.key k = true ∧ get H m k = .ok (n.addr, n.val) ∧
      s.lookup H k = some n.val) ∨ (get H m k = .error .assert ∧ s.lookup H k = none) := by
  unfold get
  by_cases h0 : m.size = 0
  · have hs := h.nil_of_size h0
    subst hs
    simp [h0, AMap.lookup, ccAssert]
  · have hc := h.cap_pos h0
    have hl := loc_lt H hc k
    rcases h.find L hc k with ⟨n, hn, he, hf, hs, hh⟩ | ⟨hn, hf, hs, hh⟩
    · left
      refine ⟨n, hn, he, ?_, hs⟩
      simp [ccAssert, Nat.pos_of_ne_zero h0, location_eq H hc, bucket_eq hl, hf]
    · right
      refine ⟨?_, hs⟩
      simp [ccAssert, Nat.pos_of_ne_zero h0, location_eq H hc, bucket_eq hl, hf]

/-! ### writers -/

theorem placed_set {H : HashEq K} {es : List (List (Node K V))} (hp : Placed H es) {i : Nat}
    {l' : List (Node K V)} (h : ∀ n ∈ l', loc H es.length n.key = i) : Placed H (es.set i l') := by
  intro j hj x hx
  simp only [List.length_set] at hj ⊢
  rw [List.getElem_set] at hx
  split at hx
  · rename_i e; rw [h x hx]; exact e
  · exact hp _ _ _ hx

/-- `operator[]` on a well-formed map: the resulting map, the node designated by the returned
reference, and which of the two cases happened. -/
theorem index_ok {H : HashEq K} (L : H.Lawful) {m : MapSt K V} {s : AMap K V} (h : Rel H m s)
    (k : K) (v : V) :
    ∃ m' a, index H m k v = .ok (m', a) ∧
      ((∃ n ∈ m'.nodes, n.addr = a ∧ H.eq n.key k = true ∧ Rel H m' s ∧ s.has H k = true ∧
          m'.nodes.Perm m.nodes ∧ m'.next = m.next) ∨
       (∃ n : Node K V, n.addr = a ∧ n.key = k ∧ n.val = v ∧ m'.nodes.Perm (n :: m.nodes) ∧
          Inv H m' ∧ s.has H k = false ∧ Rel H m' ((k, v) :: s) ∧ a = m.next ∧
          m'.next = m.next + 1)) ∧
      (m.entries ≠ [] → m.size ≤ m.entries.length → m'.entries.length = m.entries.length) := by
  obtain ⟨m1, e1, I1, p1, c1, n1, same⟩ := ensure_ok L h.inv
  have R1 : Rel H m1 s := ⟨I1, (ents_perm p1).trans h.perm⟩
  have hl := loc_lt H c1 k
  rcases R1.find L c1 k with ⟨n, hn, he, hf, hs, hh⟩ | ⟨hn, hf, hs, hh⟩
  · refine ⟨m1, n.addr, ?_, .inl ⟨n, hn, rfl, he, R1, hh, p1, n1⟩, ?_⟩
    · simp [index, e1, location_eq H c1, bucket_eq hl, hf]
    · intro h1 h2; rw [same h1 h2]
  · set nn : Node K V := { addr := m1.next, key := k, val := v } with hnn
    obtain ⟨rest, q1, q2⟩ := flatten_set_perm hl (nn :: m1.entries[loc H m1.entries.length k])
    have q : (m1.entries.set (loc H m1.entries.length k)
        (nn :: m1.entries[loc H m1.entries.length k])).flatten.Perm (nn :: m1.nodes) :=
      q1.trans (by simpa using (q2.symm.cons nn))
    have I2 : Inv H { entries := (m1.entries.set (loc H m1.entries.length k) (nn :: m1.entries[loc H m1.entries.length k])), size := m1.size + 1, next := m1.next + 1 } := by
      refine ⟨?_, ?_, ?_, ?_, ?_⟩
      · apply placed_set I1.placed
        intro x hx
        rcases List.mem_cons.1 hx with rfl | hx
        · rfl
        · exact I1.placed _ _ _ hx
      · have := q.length_eq
        simp only [MapSt.nodes] at this ⊢
        rw [this, I1.size_eq]; simp
      · refine Distinct.perm L ?_ q.symm
        refine List.pairwise_cons.2 ⟨?_, I1.distinct⟩
        intro x hx
        cases hx' : H.eq nn.key x.key with
        | false => rfl
        | true => have := L.symm _ _ hx'; rw [hn x hx] at this; simp at this
      · refine ((q.map Node.addr).nodup_iff).2 ?_
        simp only [List.map_cons, List.nodup_cons]
        refine ⟨?_, I1.addrs⟩
        intro hc
        obtain ⟨x, hx, hxa⟩ := List.mem_map.1 hc
        have := I1.fresh x hx
        simp [hnn] at hxa; omega
      · intro x hx
        rcases List.mem_cons.1 (q.mem_iff.1 hx) with rfl | hx
        · simp [hnn]
        · have := I1.fresh x hx; simp; omega
    refine ⟨_, m1.next, ?_, .inr ⟨nn, rfl, rfl, rfl, q.trans (p1.cons nn), I2, hh, ⟨I2, ?_⟩, n1, by simp [n1]⟩, ?_⟩
    · simp [index, e1, location_eq H c1, bucket_eq hl, hf, hnn]
    · have := (q.map (fun n => (n.key, n.val)))
      refine (this.trans ?_)
      simpa [hnn, ents] using (R1.perm.cons (k, v))
    · intro h1 h2; simp [same h1 h2]

theorem flatten_map_map {α β : Type _} (f : α → β) (es : List (List α)) :
    (es.map (fun l => l.map f)).flatten = es.flatten.map f := by
  rw [List.map_flatten]

theorem any_any {α : Type _} (p : α → Bool) (es : List (List α)) :
    es.any (fun l => l.any p) = es.flatten.any p := by
  induction es with
  | nil => rfl
  | cons l ls ih => simp only [List.any_cons, ih, List.flatten_cons, List.any_append]

theorem addr_unique {ns : List (Node K V)} (h : (ns.map Node.addr).Nodup) {x y : Node K V}
    (hx : x ∈ ns) (hy : y ∈ ns) (e : x.addr = y.addr) : x = y := by
  induction ns with
  | nil => simp at hx
  | cons z zs ih =>
    simp only [List.map_cons, List.nodup_cons, List.mem_map, not_exists, not_and] at h
    rcases List.mem_cons.1 hx with rfl | hx' <;> rcases List.mem_cons.1 hy with rfl | hy'
    · rfl
    · exact absurd e.symm (h.1 y hy')
    · exact absurd e (h.1 x hx')
    · exact ih h.2 hx' hy'

theorem readRef_ok {H : HashEq K} {m : MapSt K V} (I : Inv H m) {n : Node K V} (hn : n ∈ m.nodes) :
    readRef m n.addr = .ok n.val := by
  unfold readRef
  cases hf : m.entries.flatten.find? (fun x => x.addr == n.addr) with
  | none =>
    have := List.find?_eq_none.1 hf n hn
    simp at this
  | some x =>
    have h1 := List.mem_of_find?_eq_some hf
    have h2 := List.find?_some hf
    have : x = n := addr_unique I.addrs h1 hn (by simpa using h2)
    simp [this]

/-- Writing through a reference. -/
theorem modifyRef_ok {H : HashEq K} {m : MapSt K V} (I : Inv H m) {n : Node K V}
    (hn : n ∈ m.nodes) (f : V → V) :
    ∃ m', modifyRef m n.addr f = .ok m' ∧ Inv H m' ∧
      m'.nodes = m.nodes.map (fun x => if x.addr == n.addr then { x with val := f x.val } else x) ∧
      m'.entries.length = m.entries.length ∧ m'.next = m.next := by
  set g : Node K V → Node K V := fun x => if x.addr == n.addr then { x with val := f x.val } else x with hg
  have gk : ∀ x, (g x).key = x.key := by intro x; simp only [hg]; split <;> rfl
  have ga : ∀ x, (g x).addr = x.addr := by intro x; simp only [hg]; split <;> rfl
  refine ⟨{ m with entries := m.entries.map (fun l => l.map g) }, ?_, ⟨?_, ?_, ?_, ?_, ?_⟩, ?_, by simp, rfl⟩
  · have : m.entries.any (fun l => l.any (fun x => x.addr == n.addr)) = true := by
      rw [any_any]; exact List.any_eq_true.2 ⟨n, hn, by simp⟩
    simp [modifyRef, this, hg]
  · intro i hi x hx
    simp only [List.getElem_map, List.length_map] at hx hi ⊢
    obtain ⟨y, hy, rfl⟩ := List.mem_map.1 hx
    rw [gk]; exact I.placed i hi y hy
  · simp only [MapSt.nodes, flatten_map_map, List.length_map]; exact I.size_eq
  · simp only [MapSt.nodes, flatten_map_map, Distinct, List.pairwise_map, gk]; exact I.distinct
  · simp only [MapSt.nodes, flatten_map_map, List.map_map]
    have : (Node.addr ∘ g) = Node.addr := by funext x; exact ga x
    rw [this]; exact I.addrs
  · simp only [MapSt.nodes, flatten_map_map]
    intro x hx
    obtain ⟨y, hy, rfl⟩ := List.mem_map.1 hx
    rw [ga]; exact I.fresh y hy
  · simp only [MapSt.nodes, flatten_map_map]

/-- Writing through the reference of key `k` is the abstract update at `k`. -/
theorem modifyRef_rel {H : HashEq K} (L : H.Lawful) {m : MapSt K V} {s : AMap K V} (h : Rel H m s)
    {n : Node K V} (hn : n ∈ m.nodes) {k : K} (he : H.eq n.key k = true) (f : V → V) :
    ∃ m', modifyRef m n.addr f = .ok m' ∧
      Rel H m' (s.map (fun p => if H.eq p.1 k then (p.1, f p.2) else p)) ∧
      m'.entries.length = m.entries.length ∧ m'.next = m.next ∧
      m'.nodes = m.nodes.map (fun x => if x.addr == n.addr then { x with val := f x.val } else x) := by
  obtain ⟨m', e, I, hnodes, hl, hx⟩ := modifyRef_ok h.inv hn f
  refine ⟨m', e, ⟨I, ?_⟩, hl, hx, hnodes⟩
  have : ents m' = (ents m).map (fun p => if H.eq p.1 k then (p.1, f p.2) else p) := by
    simp only [ents, hnodes, List.map_map]
    apply List.map_congr_left
    intro x hx
    simp only [Function.comp]
    by_cases hxa : x.addr = n.addr
    · have : x = n := addr_unique h.inv.addrs hx hn hxa
      subst this
      simp [he]
    · have : H.eq x.key k = false := by
        cases hk : H.eq x.key k with
        | false => rfl
        | true => exact absurd (congrArg Node.addr (h.inv.distinct.unique L hx hn hk he)) hxa
      simp [hxa, this]
  rw [this]
  exact h.perm.map _

/-! ### removal -/

theorem eraseAfterLoop_some {H : HashEq K} {k : K} {p : Node K V} {ns l' : List (Node K V)}
    (h : eraseAfterLoop H k p ns = some l') :
    ∃ n ∈ ns, H.eq n.key k = true ∧ (p :: ns).Perm (n :: l') := by
  induction ns generalizing p l' with
  | nil => simp [eraseAfterLoop] at h
  | cons n ns ih =>
    simp only [eraseAfterLoop] at h
    split at h
    · rename_i he
      simp only [Option.some.injEq] at h; subst h
      exact ⟨n, by simp, he, List.Perm.swap _ _ _⟩
    · obtain ⟨l2, hl2, rfl⟩ := Option.map_eq_some_iff.1 h
      obtain ⟨x, hx, he, hp⟩ := ih hl2
      exact ⟨x, by simp [hx], he, (hp.cons p).trans (List.Perm.swap _ _ _)⟩

theorem eraseAfterLoop_none {H : HashEq K} {k : K} {p : Node K V} {ns : List (Node K V)}
    (h : eraseAfterLoop H k p ns = none) : ∀ n ∈ ns, H.eq n.key k = false := by
  induction ns generalizing p with
  | nil => simp
  | cons n ns ih =>
    simp only [eraseAfterLoop] at h
    split at h
    · simp at h
    · have := ih (p := n) (by simpa using h)
      simp_all

theorem erase_of_not_has {H : HashEq K} {k : K} {s : AMap K V} (h : s.has H k = false) :
    s.erase H k = s := by
  simp only [AMap.erase]
  rw [List.filter_eq_self]
  intro p hp
  cases he : H.eq p.1 k with
  | false => rfl
  | true => have := has_iff.2 ⟨p, hp, he⟩; simp_all

/-- Dropping one node `x` of key `k` from the table. -/
theorem remove_rel {H : HashEq K} (L : H.Lawful) {m : MapSt K V} {s : AMap K V} (h : Rel H m s)
    {k : K} {x : Node K V} (hx : H.eq x.key k = true) {es' : List (List (Node K V))}
    (hp : Placed H es') (q : m.nodes.Perm (x :: es'.flatten)) :
    Rel H { m with entries := es', size := m.size - 1 } (s.erase H k) := by
  have hd := h.inv.distinct.perm L q
  refine ⟨⟨hp, ?_, ?_, ?_, ?_⟩, ?_⟩
  · have := q.length_eq; have := h.inv.size_eq; simp_all
  · exact (List.pairwise_cons.1 hd).2
  · have := (q.map Node.addr).nodup_iff.1 h.inv.addrs
    simp only [List.map_cons, List.nodup_cons] at this
    exact this.2
  · intro n hn; exact h.inv.fresh n (q.mem_iff.2 (List.mem_cons_of_mem _ hn))
  · have h1 : ((ents m).filter (fun p => !H.eq p.1 k)).Perm (s.erase H k) := h.perm.filter _
    have h2 : (ents m).Perm ((x.key, x.val) :: es'.flatten.map (fun n => (n.key, n.val))) := by
      simpa [ents] using q.map (fun n => (n.key, n.val))
    have h3 := (h2.filter (fun p => !H.eq p.1 k)).symm.trans h1
    have h4 : (es'.flatten.map (fun n => (n.key, n.val))).filter (fun p => !H.eq p.1 k)
        = es'.flatten.map (fun n => (n.key, n.val)) := by
      rw [List.filter_eq_self]
      intro p hp
      obtain ⟨n, hn, rfl⟩ := List.mem_map.1 hp
      have hne := (List.pairwise_cons.1 hd).1 n hn
      cases he : H.eq n.key k with
      | false => simp [he]
      | true =>
        have := L.trans _ _ _ hx (L.symm _ _ he)
        simp_all
    simp only [List.filter_cons, hx, Bool.not_true, Bool.false_eq_true, if_false, h4] at h3
    exact h3

theorem removeKey_ok {H : HashEq K} (L : H.Lawful) {m : MapSt K V} {s : AMap K V} (h : Rel H m s)
    (k : K) : ∃ m', removeKey H m k = .ok (m', s.has H k) ∧ Rel H m' (s.erase H k) ∧
      m'.entries.length = m.entries.length ∧ m'.next = m.next ∧
      (∀ n ∈ m.nodes, H.eq n.key k = false → n ∈ m'.nodes) := by
  by_cases h0 : m.size = 0
  · have hs := h.nil_of_size h0
    subst hs
    exact ⟨m, by simp [removeKey, h0, AMap.has], by simpa [AMap.erase] using h, rfl, rfl, fun n hn _ => hn⟩
  · have hc := h.cap_pos h0
    have hl := loc_lt H hc k
    -- the chain of `k`
    generalize hb : m.entries[loc H m.entries.length k] = l
    have hpl : ∀ n ∈ l, loc H m.entries.length n.key = loc H m.entries.length k := by
      intro n hn; subst hb; exact h.inv.placed _ hl _ hn
    have hmiss : (∀ n ∈ l, H.eq n.key k = false) → s.has H k = false := by
      intro hm
      rcases h.find L hc k with ⟨n, hn, he, hf, hs, hh⟩ | ⟨hn, hf, hs, hh⟩
      · have := (findNode_some hf).1
        rw [hb] at this
        rw [hm n this] at he; simp at he
      · exact hh
    have step : ∀ x l', H.eq x.key k = true → l.Perm (x :: l') →
        s.has H k = true ∧
        Rel H { m with entries := m.entries.set (loc H m.entries.length k) l', size := m.size - 1 } (s.erase H k) ∧
        (∀ n ∈ m.nodes, H.eq n.key k = false →
          n ∈ (m.entries.set (loc H m.entries.length k) l').flatten) := by
      intro x l' hx hp
      obtain ⟨rest, q1, q2⟩ := flatten_set_perm hl l'
      have q : m.nodes.Perm (x :: (m.entries.set (loc H m.entries.length k) l').flatten) := by
        rw [hb] at q2
        exact q2.trans ((hp.append_right rest).trans (by simpa using q1.symm.cons x))
      refine ⟨?_, ?_, ?_⟩
      · exact (h.hit L (q.mem_iff.2 (by simp)) hx).2
      · refine remove_rel L h hx ?_ q
        apply placed_set h.inv.placed
        intro n hn
        exact hpl n (hp.mem_iff.2 (List.mem_cons_of_mem _ hn))
      · intro n hn hne
        rcases List.mem_cons.1 (q.mem_iff.1 hn) with rfl | hn
        · simp_all
        · exact hn
    unfold removeKey
    simp only [h0, if_false, location_eq H hc, bucket_eq hl, hb, R.ok_bind]
    cases l with
    | nil =>
      have hh := hmiss (by simp)
      exact ⟨m, by simp [hh], by rw [erase_of_not_has hh]; exact h, rfl, rfl, fun n hn _ => hn⟩
    | cons n ns =>
      by_cases he : H.eq n.key k = true
      · obtain ⟨h1, h2, h3⟩ := step n ns he (.refl _)
        exact ⟨_, by simp [he, h1], h2, by simp, rfl, h3⟩
      · cases hE : eraseAfterLoop H k n ns with
        | some l' =>
          obtain ⟨x, hx, hxe, hp⟩ := eraseAfterLoop_some hE
          obtain ⟨h1, h2, h3⟩ := step x l' hxe hp
          exact ⟨_, by simp [he, hE, h1], h2, by simp, rfl, h3⟩
        | none =>
          have hh := hmiss (by
            intro y hy
            rcases List.mem_cons.1 hy with rfl | hy
            · simpa using he
            · exact eraseAfterLoop_none hE y hy)
          exact ⟨m, by simp [he, hE, hh], by rw [erase_of_not_has hh]; exact h, rfl, rfl, fun n hn _ => hn⟩

/-! ### clear, copy -/

theorem flatten_map_nil {α : Type _} (es : List (List α)) :
    (es.map (fun _ => ([] : List α))).flatten = [] := by
  induction es with
  | nil => rfl
  | cons l ls ih => simpa using ih

theorem clear_rel {H : HashEq K} {m : MapSt K V} : Rel H (clear m) [] := by
  have hn : (clear m).nodes = [] := flatten_map_nil m.entries
  refine ⟨⟨?_, ?_, ?_, ?_, ?_⟩, ?_⟩
  · intro i hi n hx; simp [clear] at hx
  · simp [hn]; rfl
  · simp [hn, Distinct]
  · simp [hn]
  · simp [hn]
  · simp [ents, hn]

theorem copyChain_kv (a : Nat) (l : List (Node K V)) :
    (copyChain a l).map (fun n => (n.key, n.val)) = l.map (fun n => (n.key, n.val)) := by
  induction l generalizing a with
  | nil => rfl
  | cons n ns ih => simp [copyChain, ih]

theorem copyChain_key (a : Nat) (l : List (Node K V)) :
    (copyChain a l).map Node.key = l.map Node.key := by
  induction l generalizing a with
  | nil => rfl
  | cons n ns ih => simp [copyChain, ih]

theorem copyChain_addr (a : Nat) (l : List (Node K V)) :
    (copyChain a l).map Node.addr = List.range' a l.length := by
  induction l generalizing a with
  | nil => rfl
  | cons n ns ih => simp [copyChain, ih, List.range'_succ]

theorem copyEntries_kv (a : Nat) (es : List (List (Node K V))) :
    (copyEntries a es).flatten.map (fun n => (n.key, n.val)) =
      es.flatten.map (fun n => (n.key, n.val)) := by
  induction es generalizing a with
  | nil => rfl
  | cons l ls ih => simp [copyEntries, ih, copyChain_kv]

theorem copyEntries_addr (a : Nat) (es : List (List (Node K V))) :
    (copyEntries a es).flatten.map Node.addr = List.range' a (es.map List.length).sum := by
  induction es generalizing a with
  | nil => rfl
  | cons l ls ih =>
    simp only [copyEntries, List.flatten_cons, List.map_append, ih, copyChain_addr, List.map_cons,
      List.sum_cons]
    have := List.range'_append (s := a) (m := l.length) (n := (ls.map List.length).sum) (step := 1)
    simpa using this

theorem copyEntries_length (a : Nat) (es : List (List (Node K V))) :
    (copyEntries a es).length = es.length := by
  induction es generalizing a with
  | nil => rfl
  | cons l ls ih => simp [copyEntries, ih]

theorem copyEntries_get (a : Nat) (es : List (List (Node K V))) (i : Nat) (hi : i < es.length) :
    ∃ b, (copyEntries a es)[i]'(by rw [copyEntries_length]; exact hi) = copyChain b es[i] := by
  induction es generalizing a i with
  | nil => simp at hi
  | cons l ls ih =>
    cases i with
    | zero => exact ⟨a, rfl⟩
    | succ i => exact ih (a + l.length) i (by simpa using hi)

theorem distinct_iff_keys {H : HashEq K} (ns : List (Node K V)) :
    Distinct H ns ↔ (ns.map (fun n => (n.key, n.val))).Pairwise (fun a b => H.eq a.1 b.1 = false) := by
  simp [Distinct, List.pairwise_map]

theorem copy_rel {H : HashEq K} {m : MapSt K V} {s : AMap K V} (h : Rel H m s) (a : Nat) :
    Rel H (copy m a) s ∧ (copy m a).entries.length = m.entries.length := by
  have hkv := copyEntries_kv a m.entries
  refine ⟨⟨⟨?_, ?_, ?_, ?_, ?_⟩, ?_⟩, copyEntries_length a _⟩
  · intro i hi n hn
    have hi' : i < m.entries.length := by simpa [copy, copyEntries_length] using hi
    obtain ⟨b, hb⟩ := copyEntries_get a m.entries i hi'
    simp only [copy, copyEntries_length] at hn ⊢
    rw [hb] at hn
    have : n.key ∈ (copyChain b m.entries[i]).map Node.key := List.mem_map.2 ⟨n, hn, rfl⟩
    rw [copyChain_key] at this
    obtain ⟨y, hy, hyk⟩ := List.mem_map.1 this
    rw [← hyk]
    exact h.inv.placed i hi' y hy
  · have := congrArg List.length hkv
    simp only [List.length_map] at this
    simp only [copy, MapSt.nodes, this]; exact h.inv.size_eq
  · rw [distinct_iff_keys]
    have := h.inv.distinct
    rw [distinct_iff_keys] at this
    simpa only [copy, MapSt.nodes, hkv] using this
  · simp only [copy, MapSt.nodes, copyEntries_addr]
    exact List.nodup_range'
  · intro n hn
    have : n.addr ∈ (copyEntries a m.entries).flatten.map Node.addr := List.mem_map.2 ⟨n, hn, rfl⟩
    rw [copyEntries_addr, List.mem_range'_1] at this
    simpa [copy] using this.2
  · simpa only [ents, copy, MapSt.nodes, hkv] using h.perm

/-! ### one step -/

theorem upsert_hit {H : HashEq K} {k : K} {s : AMap K V} (h : s.has H k = true) (d : V) (f : V → V) :
    s.upsert H k d f = s.map (fun p => if H.eq p.1 k then (p.1, f p.2) else p) := by
  simp [AMap.upsert, h]

theorem upsert_miss {H : HashEq K} {k : K} {s : AMap K V} (h : s.has H k = false) (d : V) (f : V → V) :
    s.upsert H k d f = (k, f d) :: s := by
  simp [AMap.upsert, h]

theorem upsert_id {H : HashEq K} {k : K} {s : AMap K V} (h : s.has H k = true) (d : V) :
    s.upsert H k d id = s := by
  rw [upsert_hit h]
  conv => rhs; rw [← List.map_id s]
  apply List.map_congr_left
  intro p _
  simp

theorem map_fresh {H : HashEq K} {k : K} {s : AMap K V} (h : s.has H k = false) (f : V → V) :
    s.map (fun p => if H.eq p.1 k then (p.1, f p.2) else p) = s := by
  conv => rhs; rw [← List.map_id s]
  apply List.map_congr_left
  intro p hp
  cases he : H.eq p.1 k with
  | false => simp
  | true => have := has_iff.2 ⟨p, hp, he⟩; simp_all

theorem has_perm {H : HashEq K} {k : K} {s t : AMap K V} (h : s.Perm t) : s.has H k = t.has H k := by
  rw [Bool.eq_iff_iff, has_iff, has_iff]
  simp [h.mem_iff]

/-- `m[k]` followed by a write through the reference is the abstract `upsert`. -/
theorem index_modify_ok {H : HashEq K} (L : H.Lawful) {m : MapSt K V} {s : AMap K V}
    (h : Rel H m s) (k : K) (d : V) (f : V → V) :
    ∃ m' a m'', index H m k d = .ok (m', a) ∧ modifyRef m' a f = .ok m'' ∧
      Rel H m'' (s.upsert H k d f) ∧
      (m.entries ≠ [] → m.size ≤ m.entries.length → m''.entries.length = m.entries.length) := by
  obtain ⟨m', a, e1, hcase, hlen⟩ := index_ok L h k d
  rcases hcase with ⟨n, hn, ha, he, R1, hh, -, -⟩ | ⟨n, ha, hk, hv, hp, I1, hh, R1, -, -⟩
  · obtain ⟨m'', e2, R2, hl2, -, -⟩ := modifyRef_rel L R1 hn he f
    refine ⟨m', a, m'', e1, by rw [← ha]; exact e2, by rw [upsert_hit hh]; exact R2, ?_⟩
    intro h1 h2; rw [hl2, hlen h1 h2]
  · have hn : n ∈ m'.nodes := hp.mem_iff.2 (by simp)
    have he : H.eq n.key k = true := by rw [hk]; exact L.refl k
    obtain ⟨m'', e2, R2, hl2, -, -⟩ := modifyRef_rel L R1 hn he f
    refine ⟨m', a, m'', e1, by rw [← ha]; exact e2, ?_, ?_⟩
    · rw [upsert_miss hh]
      have : ((k, d) :: s).map (fun p => if H.eq p.1 k then (p.1, f p.2) else p) = (k, f d) :: s := by
        simp [L.refl k, map_fresh hh]
      rw [← this]; exact R2
    · intro h1 h2; rw [hl2, hlen h1 h2]

/-- One operation of the model simulates the abstract map: it either faults exactly where the
abstract map is undefined or gives the same observation and a related state. -/
theorem step_ok {H : HashEq K} (L : H.Lawful) {m : MapSt K V} {s : AMap K V} (h : Rel H m s)
    (op : Op K V) :
    (specStep H s op = none ∧ ∃ e, implStep H m op = .error e) ∨
    (∃ s' m' o, specStep H s op = some (s', o) ∧ implStep H m op = .ok (m', o) ∧ Rel H m' s') := by
  cases op with
  | index k d f =>
    obtain ⟨m', a, m'', e1, e2, R2, -⟩ := index_modify_ok L h k d f
    exact .inr ⟨_, m'', .unit, rfl, by simp [implStep, e1, e2], R2⟩
  | getOrCreate k v =>
    right
    obtain ⟨m', a, e1, hcase, -⟩ := index_ok L h k v
    rcases hcase with ⟨n, hn, ha, he, R1, hh, -, -⟩ | ⟨n, ha, hk, hv, hp, I1, hh, R1, -, -⟩
    · have hr := readRef_ok R1.inv hn
      have hs := R1.hit L hn he
      refine ⟨s, m', .val n.val, ?_, ?_, R1⟩
      · simp [specStep, upsert_id hh, hs.1]
      · simp [implStep, e1, ← ha, hr]
    · have hn : n ∈ m'.nodes := hp.mem_iff.2 (by simp)
      have hr := readRef_ok R1.inv hn
      refine ⟨(k, v) :: s, m', .val v, ?_, ?_, R1⟩
      · simp [specStep, upsert_miss hh, AMap.lookup, L.refl k]
      · simp [implStep, e1, ← ha, hr, hv]
  | removeKey k =>
    obtain ⟨m', e, R1, -⟩ := removeKey_ok L h k
    exact .inr ⟨_, m', _, rfl, by simp [implStep, e], R1⟩
  | reserve n =>
    obtain ⟨m', e, I, p, -⟩ := reserve_ok L h.inv n
    exact .inr ⟨s, m', .unit, rfl, by simp [implStep, e], ⟨I, (ents_perm p).trans h.perm⟩⟩
  | clear => exact .inr ⟨[], _, .unit, rfl, rfl, clear_rel⟩
  | copySelf => exact .inr ⟨s, _, .unit, rfl, rfl, (copy_rel h _).1⟩
  | containsKey k =>
    exact .inr ⟨s, m, _, rfl, by simp [implStep, containsKey_ok L h k], h⟩
  | getPtr k =>
    right
    rcases getPtr_ok L h k with ⟨n, hn, he, e, hs, hh⟩ | ⟨e, -, hs, hh⟩
    · exact ⟨s, m, _, rfl, by simp [implStep, e, hs], h⟩
    · exact ⟨s, m, _, rfl, by simp [implStep, e, hs], h⟩
  | get k =>
    rcases get_ok L h k with ⟨n, hn, he, e, hs⟩ | ⟨e, hs⟩
    · exact .inr ⟨s, m, .val n.val, by simp [specStep, hs], by simp [implStep, e], h⟩
    · exact .inl ⟨by simp [specStep, hs], .assert, by simp [implStep, e]⟩
  | getOr k d =>
    right
    rcases getPtr_ok L h k with ⟨n, hn, he, e, hs, hh⟩ | ⟨e, -, hs, hh⟩
    · exact ⟨s, m, _, rfl, by simp [implStep, getOr, e, hs], h⟩
    · exact ⟨s, m, _, rfl, by simp [implStep, getOr, e, hs], h⟩
  | getTo k out =>
    right
    rcases getPtr_ok L h k with ⟨n, hn, he, e, hs, hh⟩ | ⟨e, -, hs, hh⟩
    · exact ⟨s, m, _, rfl, by simp [implStep, getTo, e, hs, hh], h⟩
    · exact ⟨s, m, _, rfl, by simp [implStep, getTo, e, hs, hh], h⟩
  | size => exact .inr ⟨s, m, _, rfl, by simp [implStep, h.size_eq], h⟩

theorem empty_rel (H : HashEq K) : Rel H (empty : MapSt K V) [] := by
  refine ⟨⟨?_, rfl, List.Pairwise.nil, List.nodup_nil, by simp [empty]⟩, by simp [ents, empty]⟩
  intro i hi; simp [empty] at hi

theorem run_ok {H : HashEq K} (L : H.Lawful) (ops : List (Op K V)) {m : MapSt K V} {s : AMap K V}
    (h : Rel H m s) :
    (specRun H s ops = none ∧ ∃ e, implRun H m ops = .error e) ∨
    (∃ s' m' os, specRun H s ops = some (s', os) ∧ implRun H m ops = .ok (m', os) ∧ Rel H m' s') := by
  induction ops generalizing m s with
  | nil => exact .inr ⟨s, m, [], rfl, rfl, h⟩
  | cons op ops ih =>
    rcases step_ok L h op with ⟨h1, e, h2⟩ | ⟨s1, m1, o, h1, h2, R1⟩
    · left; exact ⟨by simp [specRun, h1], e, by simp [implRun, h2]⟩
    · rcases ih R1 with ⟨h3, e, h4⟩ | ⟨s2, m2, os, h3, h4, R2⟩
      · left; exact ⟨by simp [specRun, h1, h3], e, by simp [implRun, h2, h4]⟩
      · right; exact ⟨s2, m2, o :: os, by simp [specRun, h1, h3], by simp [implRun, h2, h4], R2⟩

end Verif.Map
