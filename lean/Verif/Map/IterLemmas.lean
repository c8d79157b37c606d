import Verif.Map.Lemmas

/-! Helper lemmas for iteration, equality, reference stability and reservation of the map. -/
namespace Verif.Map

variable {K V : Type _}

/-- The nodes an iterator still has to visit. -/
def Iter.rest (i : Iter K V) : List (Node K V) := i.it ++ i.curr.tail.flatten

/-- Iterator invariant: at the end, or standing on a node. -/
def Iter.WF (i : Iter K V) : Prop := (i.curr = [] ∧ i.it = []) ∨ (i.curr ≠ [] ∧ i.it ≠ [])

theorem findNextIt_wf (es : List (List (Node K V))) :
    (findNextIt es []).WF ∧ (findNextIt es []).rest = es.flatten := by
  induction es with
  | nil => simp [findNextIt, Iter.WF, Iter.rest]
  | cons l ls ih =>
    cases l with
    | nil => simpa [findNextIt] using ih
    | cons n ns => simp [findNextIt, Iter.WF, Iter.rest]

theorem inc_ok {i : Iter K V} (h : i.WF) (hm : i.more = true) :
    ∃ n i', i.deref = .ok n ∧ i.inc = .ok i' ∧ i'.WF ∧ i.rest = n :: i'.rest := by
  obtain ⟨curr, it⟩ := i
  simp only [Iter.WF, Iter.more] at h hm
  cases curr with
  | nil => simp at hm
  | cons c cs =>
    cases it with
    | nil => simp at h
    | cons n ns =>
      cases ns with
      | nil =>
        have := findNextIt_wf cs
        exact ⟨n, findNextIt cs [], rfl, rfl, this.1, by rw [this.2]; simp [Iter.rest]⟩
      | cons n' ns' =>
        exact ⟨n, { curr := c :: cs, it := n' :: ns' }, rfl, rfl, .inr (by simp), by simp [Iter.rest]⟩

theorem iterate_ok (fuel : Nat) (i : Iter K V) (h : i.WF) (hf : i.rest.length ≤ fuel) :
    iterate fuel i = .ok i.rest := by
  induction fuel generalizing i with
  | zero =>
    rcases h with ⟨h1, h2⟩ | ⟨h1, h2⟩
    · simp [iterate, Iter.more, Iter.rest, h1, h2]
    · exfalso
      have : i.it.length = 0 := by simp [Iter.rest] at hf; simp [hf]
      exact h2 (List.length_eq_zero_iff.1 this)
  | succ fuel ih =>
    cases hm : i.more with
    | true =>
      obtain ⟨n, i', h1, h2, h3, h4⟩ := inc_ok h hm
      have := ih i' h3 (by rw [h4] at hf; simp at hf; omega)
      simp [iterate, hm, h1, h2, this, h4]
    | false =>
      rcases h with ⟨h1, h2⟩ | ⟨h1, h2⟩
      · simp [iterate, Iter.more, Iter.rest, h1, h2]
      · simp [Iter.more, h1] at hm

theorem iterAll_ok (m : MapSt K V) : iterAll m = .ok m.nodes := by
  have := findNextIt_wf m.entries
  unfold iterAll Iter.begin
  rw [iterate_ok _ _ this.1 (by rw [this.2]; exact Nat.le_refl _), this.2]

/-! ### equality -/

theorem eqLoop_ok {H : HashEq K} (L : H.Lawful) {ne : V → V → Bool} {m : MapSt K V} {s : AMap K V}
    (h : Rel H m s) (ns : List (Node K V)) :
    ∃ b, eqLoop H ne m ns = .ok b ∧
      (b = true ↔ ∀ n ∈ ns, ∃ v, s.lookup H n.key = some v ∧ ne v n.val = false) := by
  induction ns with
  | nil => exact ⟨true, rfl, by simp⟩
  | cons n ns ih =>
    obtain ⟨b, e, hb⟩ := ih
    unfold eqLoop
    simp only [containsKey_ok L h, R.ok_bind]
    rcases get_ok L h n.key with ⟨x, hx, he, eg, hs⟩ | ⟨eg, hs⟩
    · have hh := (h.hit L hx he).2
      simp only [hh, if_true, eg, R.ok_bind]
      cases hne : ne x.val n.val with
      | true => exact ⟨false, rfl, by simp [hs, hne]⟩
      | false => exact ⟨b, by simpa using e, by simp [hs, hne, hb]⟩
    · have hh : s.has H n.key = false := by
        cases hc : s.has H n.key with
        | false => rfl
        | true =>
          obtain ⟨p, hp, he⟩ := has_iff.1 hc
          obtain ⟨y, hy, rfl⟩ := List.mem_map.1 (h.perm.mem_iff.2 hp)
          have := (h.hit L hy he).1
          simp [hs] at this
      exact ⟨false, by simp [hh], by simp [hs]⟩

/-- Pigeonhole for lists without duplicate keys. -/
theorem keys_cover {H : HashEq K} (L : H.Lawful) {s t : AMap K V}
    (hs : s.Pairwise (fun a b => H.eq a.1 b.1 = false))
    (hlen : t.length ≤ s.length) (hst : ∀ p ∈ s, t.has H p.1 = true) (ht : t.Pairwise (fun a b => H.eq a.1 b.1 = false)) :
    ∀ q ∈ t, s.has H q.1 = true := by
  induction s generalizing t with
  | nil =>
    have : t = [] := List.length_eq_zero_iff.1 (by simpa using hlen)
    simp [this]
  | cons p s ih =>
    obtain ⟨q0, hq0, he0⟩ := has_iff.1 (hst p (by simp))
    obtain ⟨a, b, rfl⟩ := List.append_of_mem hq0
    have hsym : ∀ {x y : K × V}, H.eq x.1 y.1 = false → H.eq y.1 x.1 = false := by
      intro x y h
      cases h' : H.eq y.1 x.1 with
      | false => rfl
      | true => rw [L.symm _ _ h'] at h; exact h
    have hperm : (a ++ q0 :: b).Perm (q0 :: (a ++ b)) := List.perm_middle
    have ht' := hperm.pairwise ht hsym
    rw [List.pairwise_cons] at ht' hs
    have hrest := ih (t := a ++ b) hs.2 (by simp at hlen ⊢; omega) (by
      intro p' hp'
      obtain ⟨q', hq', he'⟩ := has_iff.1 (hst p' (by simp [hp']))
      rcases List.mem_cons.1 (hperm.mem_iff.1 hq') with rfl | hq''
      · have := hs.1 p' hp'
        have e : H.eq p.1 p'.1 = true := L.trans _ _ _ (L.symm _ _ he0) he'
        simp_all
      · exact has_iff.2 ⟨q', hq'', he'⟩) ht'.2
    intro q hq
    rcases List.mem_cons.1 (hperm.mem_iff.1 hq) with rfl | hq'
    · exact has_iff.2 ⟨p, by simp, L.symm _ _ he0⟩
    · obtain ⟨x, hx, hxe⟩ := has_iff.1 (hrest q hq')
      exact has_iff.2 ⟨x, by simp [hx], hxe⟩

theorem Rel.pairwise {H : HashEq K} (L : H.Lawful) {m : MapSt K V} {s : AMap K V} (h : Rel H m s) :
    s.Pairwise (fun a b => H.eq a.1 b.1 = false) := by
  have h1 := (distinct_iff_keys m.nodes).1 h.inv.distinct
  refine h.perm.pairwise h1 ?_
  intro x y hxy
  cases h' : H.eq y.1 x.1 with
  | false => rfl
  | true => rw [L.symm _ _ h'] at hxy; exact hxy

theorem lookup_isSome {H : HashEq K} {k : K} {s : AMap K V} :
    (s.lookup H k).isSome = s.has H k := by
  induction s with
  | nil => rfl
  | cons p s ih =>
    simp only [AMap.lookup, AMap.has, List.any_cons]
    cases H.eq p.1 k with
    | true => simp
    | false => simpa [AMap.has] using ih

theorem lookup_mem {H : HashEq K} {k : K} {s : AMap K V} {v : V} (h : s.lookup H k = some v) :
    ∃ p ∈ s, H.eq p.1 k = true ∧ p.2 = v := by
  induction s with
  | nil => simp [AMap.lookup] at h
  | cons p s ih =>
    simp only [AMap.lookup] at h
    split at h
    · rename_i he; exact ⟨p, by simp, he, by simpa using h⟩
    · obtain ⟨q, hq, hh⟩ := ih h
      exact ⟨q, by simp [hq], hh⟩

theorem lookup_of_mem {H : HashEq K} (L : H.Lawful) {s : AMap K V}
    (hs : s.Pairwise (fun a b => H.eq a.1 b.1 = false)) {p : K × V} (hp : p ∈ s) {k : K}
    (he : H.eq p.1 k = true) : s.lookup H k = some p.2 := by
  induction s with
  | nil => simp at hp
  | cons q s ih =>
    rw [List.pairwise_cons] at hs
    simp only [AMap.lookup]
    rcases List.mem_cons.1 hp with rfl | hp
    · simp [he]
    · have h1 := hs.1 p hp
      have : H.eq q.1 k = false := by
        cases hq : H.eq q.1 k with
        | false => rfl
        | true =>
          have := L.trans _ _ _ hq (L.symm _ _ he)
          simp_all
      simp [this, ih hs.2 hp]

/-! ### stability of references -/

/-- A node with this address and a key equal to `k` is linked in the map. -/
def Holds (H : HashEq K) (m : MapSt K V) (a : Nat) (k : K) : Prop :=
  ∃ n ∈ m.nodes, n.addr = a ∧ H.eq n.key k = true

theorem Holds.perm {H : HashEq K} {m m' : MapSt K V} {a : Nat} {k : K} (h : Holds H m a k)
    (p : m'.nodes.Perm m.nodes) : Holds H m' a k := by
  obtain ⟨n, hn, h1, h2⟩ := h
  exact ⟨n, p.mem_iff.2 hn, h1, h2⟩

/-- Operations that end the life of the entry of `k`. -/
def Op.kills (H : HashEq K) (k : K) : Op K V → Prop
  | .removeKey k' => H.eq k k' = true
  | .clear => True
  | .copySelf => True
  | _ => False

theorem modify_holds {H : HashEq K} {m m' : MapSt K V} {b : Nat} {f : V → V}
    (e : modifyRef m b f = .ok m') {a : Nat} {k : K} (h : Holds H m a k) : Holds H m' a k := by
  unfold modifyRef at e
  split at e
  · simp only [Except.ok.injEq] at e; subst e
    obtain ⟨n, hn, h1, h2⟩ := h
    refine ⟨if n.addr == b then { n with val := f n.val } else n, ?_, ?_, ?_⟩
    · simp only [MapSt.nodes, flatten_map_map]
      exact List.mem_map.2 ⟨n, hn, rfl⟩
    · split <;> exact h1
    · split <;> exact h2
  · simp at e

theorem step_holds {H : HashEq K} (L : H.Lawful) {m m' : MapSt K V} {s : AMap K V} (h : Rel H m s)
    {op : Op K V} {o : Out V} (e : implStep H m op = .ok (m', o)) {a : Nat} {k : K}
    (hk : ¬ op.kills H k) (hh : Holds H m a k) : Holds H m' a k := by
  have idx : ∀ k' v m1 a1, index H m k' v = .ok (m1, a1) → Holds H m1 a k ∧ Inv H m1 := by
    intro k' v m1 a1 e1
    obtain ⟨m2, a2, e2, hcase, -⟩ := index_ok L h k' v
    rw [e2] at e1
    simp only [Except.ok.injEq, Prod.mk.injEq] at e1
    obtain ⟨rfl, rfl⟩ := e1
    rcases hcase with ⟨n, hn, ha, he, R1, -, p, -⟩ | ⟨n, ha, hk, hv, hp, I1, -⟩
    · exact ⟨hh.perm p, R1.inv⟩
    · obtain ⟨x, hx, h1, h2⟩ := hh
      exact ⟨⟨x, hp.mem_iff.2 (by simp [hx]), h1, h2⟩, I1⟩
  cases op with
  | index k' d f =>
    simp only [implStep] at e
    obtain ⟨⟨m1, a1⟩, e1, e2⟩ := R.bind_eq_ok.1 e
    obtain ⟨m2, e3, e4⟩ := R.bind_eq_ok.1 e2
    simp at e4
    rw [← e4.1]
    exact modify_holds e3 (idx _ _ _ _ e1).1
  | getOrCreate k' v =>
    simp only [implStep] at e
    obtain ⟨⟨m1, a1⟩, e1, e2⟩ := R.bind_eq_ok.1 e
    obtain ⟨r, e3, e4⟩ := R.bind_eq_ok.1 e2
    simp at e4
    rw [← e4.1]
    exact (idx _ _ _ _ e1).1
  | removeKey k' =>
    simp only [implStep] at e
    obtain ⟨⟨m1, b⟩, e1, e2⟩ := R.bind_eq_ok.1 e
    simp at e2
    rw [← e2.1]
    obtain ⟨m2, e3, -, -, -, hkeep⟩ := removeKey_ok L h k'
    rw [e3] at e1; simp at e1
    rw [← e1.1]
    obtain ⟨n, hn, h1, h2⟩ := hh
    refine ⟨n, hkeep n hn ?_, h1, h2⟩
    cases hx : H.eq n.key k' with
    | false => rfl
    | true =>
      exact absurd (L.trans _ _ _ (L.symm _ _ h2) hx) hk
  | reserve n =>
    simp only [implStep] at e
    obtain ⟨m1, e1, e2⟩ := R.bind_eq_ok.1 e
    simp at e2
    rw [← e2.1]
    obtain ⟨m2, e3, -, p, -⟩ := reserve_ok L h.inv n
    rw [e3] at e1; simp at e1
    rw [← e1]
    exact hh.perm p
  | clear => exact absurd trivial hk
  | copySelf => exact absurd trivial hk
  | containsKey k' =>
    simp only [implStep] at e
    obtain ⟨b, e1, e2⟩ := R.bind_eq_ok.1 e
    simp at e2; rw [← e2.1]; exact hh
  | getPtr k' =>
    simp only [implStep] at e
    obtain ⟨b, e1, e2⟩ := R.bind_eq_ok.1 e
    simp at e2; rw [← e2.1]; exact hh
  | get k' =>
    simp only [implStep] at e
    obtain ⟨b, e1, e2⟩ := R.bind_eq_ok.1 e
    simp at e2; rw [← e2.1]; exact hh
  | getOr k' d =>
    simp only [implStep] at e
    obtain ⟨b, e1, e2⟩ := R.bind_eq_ok.1 e
    simp at e2; rw [← e2.1]; exact hh
  | getTo k' d =>
    simp only [implStep] at e
    obtain ⟨b, e1, e2⟩ := R.bind_eq_ok.1 e
    simp at e2; rw [← e2.1]; exact hh
  | size =>
    simp only [implStep, Except.ok.injEq, Prod.mk.injEq] at e
    rw [← e.1]; exact hh

theorem run_holds {H : HashEq K} (L : H.Lawful) (ops : List (Op K V)) {m m' : MapSt K V}
    {s : AMap K V} {os : List (Out V)} (h : Rel H m s) (e : implRun H m ops = .ok (m', os))
    {a : Nat} {k : K} (hk : ∀ op ∈ ops, ¬ op.kills H k) (hh : Holds H m a k) :
    Holds H m' a k := by
  induction ops generalizing m s os with
  | nil => simp only [implRun, Except.ok.injEq, Prod.mk.injEq] at e; rw [← e.1]; exact hh
  | cons op ops ih =>
    simp only [implRun] at e
    obtain ⟨⟨m1, o⟩, e1, e2⟩ := R.bind_eq_ok.1 e
    obtain ⟨⟨m2, os2⟩, e3, e4⟩ := R.bind_eq_ok.1 e2
    simp at e4
    rcases step_ok L h op with ⟨_, _, h2⟩ | ⟨s1, m1', o', h1, h2, R1⟩
    · rw [h2] at e1; simp at e1
    · rw [h2] at e1; simp only [Except.ok.injEq, Prod.mk.injEq] at e1
      obtain ⟨rfl, rfl⟩ := e1
      have e5 : implRun H m1' ops = .ok (m', os2) := by rw [← e4.1]; exact e3
      exact ih R1 e5 (fun op hop => hk op (by simp [hop]))
        (step_holds L h h2 (hk op (by simp)) hh)

/-! ### reservation -/

/-- Operations that ask for more room than `n` explicitly. -/
def Op.asksBeyond (n : Nat) : Op K V → Prop
  | .reserve n' => n < n'
  | _ => False

theorem step_cap {H : HashEq K} (L : H.Lawful) {m m' : MapSt K V} {s : AMap K V} (h : Rel H m s)
    {op : Op K V} {o : Out V} (e : implStep H m op = .ok (m', o)) {n : Nat}
    (hn : n ≤ m.entries.length) (h0 : 0 < m.entries.length) (hs : m.size ≤ n)
    (ha : ¬ op.asksBeyond n) : m'.entries.length = m.entries.length := by
  have hne : m.entries ≠ [] := by intro hc; simp [hc] at h0
  have hle : m.size ≤ m.entries.length := by omega
  have idx : ∀ k' v m1 a1, index H m k' v = .ok (m1, a1) → m1.entries.length = m.entries.length := by
    intro k' v m1 a1 e1
    obtain ⟨m2, a2, e2, -, hl⟩ := index_ok L h k' v
    rw [e2] at e1
    simp only [Except.ok.injEq, Prod.mk.injEq] at e1
    obtain ⟨rfl, rfl⟩ := e1
    exact hl hne hle
  cases op with
  | index k' d f =>
    obtain ⟨m1, a1, m2, e1, e2, -, hl⟩ := index_modify_ok L h k' d f
    simp only [implStep, e1, e2, R.ok_bind, R.pure_eq, Except.ok.injEq, Prod.mk.injEq] at e
    rw [← e.1]; exact hl hne hle
  | getOrCreate k' v =>
    simp only [implStep] at e
    obtain ⟨⟨m1, a1⟩, e1, e2⟩ := R.bind_eq_ok.1 e
    obtain ⟨r, e3, e4⟩ := R.bind_eq_ok.1 e2
    simp at e4
    rw [← e4.1]; exact idx _ _ _ _ e1
  | removeKey k' =>
    simp only [implStep] at e
    obtain ⟨⟨m1, b⟩, e1, e2⟩ := R.bind_eq_ok.1 e
    simp at e2
    obtain ⟨m2, e3, -, hl, -⟩ := removeKey_ok L h k'
    rw [e3] at e1; simp at e1
    rw [← e2.1, ← e1.1]; exact hl
  | reserve n' =>
    simp only [implStep] at e
    obtain ⟨m1, e1, e2⟩ := R.bind_eq_ok.1 e
    simp at e2
    rw [← e2.1]
    simp only [Op.asksBeyond] at ha
    obtain ⟨m2, e3, -, -, -, -, -, hsame⟩ := reserve_ok L h.inv n'
    rw [e3] at e1; simp at e1
    rw [← e1, hsame (by omega)]
  | clear =>
    simp only [implStep, Except.ok.injEq, Prod.mk.injEq] at e
    rw [← e.1]; simp [clear]
  | copySelf =>
    simp only [implStep, Except.ok.injEq, Prod.mk.injEq] at e
    rw [← e.1]; exact (copy_rel h _).2
  | containsKey k' =>
    simp only [implStep] at e
    obtain ⟨b, e1, e2⟩ := R.bind_eq_ok.1 e
    simp at e2; rw [← e2.1]
  | getPtr k' =>
    simp only [implStep] at e
    obtain ⟨b, e1, e2⟩ := R.bind_eq_ok.1 e
    simp at e2; rw [← e2.1]
  | get k' =>
    simp only [implStep] at e
    obtain ⟨b, e1, e2⟩ := R.bind_eq_ok.1 e
    simp at e2; rw [← e2.1]
  | getOr k' d =>
    simp only [implStep] at e
    obtain ⟨b, e1, e2⟩ := R.bind_eq_ok.1 e
    simp at e2; rw [← e2.1]
  | getTo k' d =>
    simp only [implStep] at e
    obtain ⟨b, e1, e2⟩ := R.bind_eq_ok.1 e
    simp at e2; rw [← e2.1]
  | size =>
    simp only [implStep, Except.ok.injEq, Prod.mk.injEq] at e
    rw [← e.1]

/-! ### equality of maps -/

/-- Two lookup results agree with respect to the value comparison. -/
def Agree (ne : V → V → Bool) : Option V → Option V → Prop
  | none, none => True
  | some a, some b => ne b a = false
  | _, _ => False

theorem mapEq_ok {H : HashEq K} (L : H.Lawful) {ne : V → V → Bool} {m1 m2 : MapSt K V}
    {s1 s2 : AMap K V} (h1 : Rel H m1 s1) (h2 : Rel H m2 s2) :
    ∃ b, mapEq H ne m1 m2 = .ok b ∧
      (b = true ↔ ∀ k, Agree ne (s1.lookup H k) (s2.lookup H k)) := by
  have P1 := h1.pairwise L
  have P2 := h2.pairwise L
  -- if the keys of one side are covered by the other, sizes compare
  have cover : ∀ {s t : AMap K V}, s.Pairwise (fun a b => H.eq a.1 b.1 = false) →
      (∀ p ∈ s, t.has H p.1 = true) → s.length ≤ t.length := by
    intro s
    induction s with
    | nil => intros; simp
    | cons p s ih =>
      intro t hs hst
      rw [List.pairwise_cons] at hs
      obtain ⟨q0, hq0, he0⟩ := has_iff.1 (hst p (by simp))
      obtain ⟨a, b, rfl⟩ := List.append_of_mem hq0
      have hperm : (a ++ q0 :: b).Perm (q0 :: (a ++ b)) := List.perm_middle
      have := ih (t := a ++ b) hs.2 (by
        intro p' hp'
        obtain ⟨q', hq', he'⟩ := has_iff.1 (hst p' (by simp [hp']))
        rcases List.mem_cons.1 (hperm.mem_iff.1 hq') with rfl | hq''
        · have := hs.1 p' hp'
          have e : H.eq p.1 p'.1 = true := L.trans _ _ _ (L.symm _ _ he0) he'
          simp_all
        · exact has_iff.2 ⟨q', hq'', he'⟩)
      simp at this ⊢; omega
  have agree_has : ∀ {k}, Agree ne (s1.lookup H k) (s2.lookup H k) → s1.has H k = s2.has H k := by
    intro k ha
    rw [← lookup_isSome, ← lookup_isSome]
    cases hx : s1.lookup H k <;> cases hy : s2.lookup H k <;> simp_all [Agree]
  unfold mapEq
  by_cases hsz : m1.size = m2.size
  · simp only [ne_eq, hsz, not_true_eq_false, if_false, iterAll_ok, R.ok_bind]
    obtain ⟨b, e, hb⟩ := eqLoop_ok (ne := ne) L h2 m1.nodes
    refine ⟨b, e, hb.trans ⟨?_, ?_⟩⟩
    · intro hall
      have hlen : s2.length ≤ s1.length := by rw [← h1.size_eq, ← h2.size_eq]; omega
      have hcov := keys_cover L P1 hlen (by
        intro p hp
        obtain ⟨n, hn, rfl⟩ := List.mem_map.1 (h1.perm.mem_iff.2 hp)
        obtain ⟨v, hv, -⟩ := hall n hn
        rw [← lookup_isSome]; simp [hv]) P2
      intro k
      cases hk : s1.lookup H k with
      | some v =>
        obtain ⟨p, hp, he, rfl⟩ := lookup_mem hk
        obtain ⟨n, hn, rfl⟩ := List.mem_map.1 (h1.perm.mem_iff.2 hp)
        obtain ⟨w, hw, hne⟩ := hall n hn
        obtain ⟨q, hq, hqe, rfl⟩ := lookup_mem hw
        rw [lookup_of_mem L P2 hq (L.trans _ _ _ hqe he)]
        exact hne
      | none =>
        cases hk2 : s2.lookup H k with
        | none => trivial
        | some v =>
          exfalso
          obtain ⟨q, hq, hqe, rfl⟩ := lookup_mem hk2
          obtain ⟨p, hp, hpe⟩ := has_iff.1 (hcov q hq)
          rw [lookup_of_mem L P1 hp (L.trans _ _ _ hpe hqe)] at hk
          simp at hk
    · intro hall n hn
      have := hall n.key
      rw [(h1.hit L hn (L.refl _)).1] at this
      cases hx : s2.lookup H n.key with
      | none => rw [hx] at this; exact this.elim
      | some v => rw [hx] at this; exact ⟨v, rfl, this⟩
  · refine ⟨false, by simp [hsz], ?_⟩
    simp only [Bool.false_eq_true, false_iff]
    intro hall
    apply hsz
    rw [h1.size_eq, h2.size_eq]
    apply Nat.le_antisymm
    · apply cover P1
      intro p hp
      rw [← agree_has (hall p.1)]
      exact has_iff.2 ⟨p, hp, L.refl _⟩
    · apply cover P2
      intro p hp
      rw [agree_has (hall p.1)]
      exact has_iff.2 ⟨p, hp, L.refl _⟩

end Verif.Map
