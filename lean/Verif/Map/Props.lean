import Verif.Map.IterLemmas

/-!
Property theorems for `cc::map`: C01 – C05.

`implRun H empty ops` is the modelled `cc::map` (Model.lean) driven by a history of user calls;
`specRun H [] ops` is the abstract finite map (Spec.lean) driven by the same history.
-/
namespace Verif.Map

variable {K V : Type _}

/-- A concrete hash for the examples: three values collide in every table of up to 8 buckets. -/
def natHash : HashEq Nat where
  hash k := BitVec.ofNat 64 (k % 2)
  eq a b := a == b

theorem natHash_lawful : natHash.Lawful where
  refl := by simp [natHash]
  symm := by intro a b; simp [natHash]; exact Eq.symm
  trans := by intro a b c; simp [natHash]; exact Eq.trans
  hash_eq := by intro a b; simp [natHash]; intro h; rw [h]

/-- A history with collisions, growth, removal and a copy, used in the examples. -/
def demoOps : List (Op Nat Nat) :=
  [.index 1 0 (fun _ => 10), .index 3 0 (fun _ => 30), .index 5 0 (fun _ => 50),
   .index 7 0 (fun _ => 70), .index 9 0 (fun _ => 90), .index 11 0 (fun _ => 110),
   .index 3 0 (· + 1), .removeKey 7, .removeKey 7, .getOrCreate 2 22, .reserve 20,
   .getPtr 3, .getPtr 7, .copySelf, .size, .get 5]

/-- **C01.** For every history the modelled map gives exactly the observations of the abstract
finite map; it fails exactly when the history calls `get` for a missing key. -/
theorem C01_map_refines_finite_map (H : HashEq K) (L : H.Lawful) (ops : List (Op K V)) :
    (implRun H empty ops).toOption.map Prod.snd = (specRun H [] ops).map Prod.snd := by
  rcases run_ok L ops (empty_rel H) with ⟨h1, e, h2⟩ | ⟨s, m, os, h1, h2, -⟩
  · simp [h1, h2, Except.toOption]
  · simp [h1, h2, Except.toOption]

/-- **C01**, no internal failure: a history that never calls `get` for a missing key raises no
assertion and no undefined behaviour. -/
theorem C01_map_no_fault (H : HashEq K) (L : H.Lawful) (ops : List (Op K V))
    (h : (specRun H [] ops).isSome) : ∃ r, implRun H empty ops = .ok r := by
  rcases run_ok L ops (empty_rel H) with ⟨h1, e, h2⟩ | ⟨s, m, os, h1, h2, -⟩
  · simp [h1] at h
  · exact ⟨_, h2⟩

example : (specRun natHash [] demoOps).isSome = true := by decide

/-- **C02.** Iterating any reachable map visits every entry of the abstract map exactly once (the
visited list is a permutation of the abstract map's entries, whose keys are pairwise different),
and the number of visits is `size()`. -/
theorem C02_map_iteration (H : HashEq K) (L : H.Lawful) (ops : List (Op K V)) {m : MapSt K V}
    {os : List (Out V)} (h : implRun H empty ops = .ok (m, os)) :
    ∃ s os', specRun H [] ops = some (s, os') ∧
      ∃ ns, iterAll m = .ok ns ∧ (ns.map (fun n => (n.key, n.val))).Perm s ∧
        ns.length = m.size ∧ ns.Pairwise (fun a b => H.eq a.key b.key = false) ∧
        ∀ k v, s.lookup H k = some v ↔ ∃ n ∈ ns, H.eq n.key k = true ∧ n.val = v := by
  rcases run_ok L ops (empty_rel H) with ⟨h1, e, h2⟩ | ⟨s, m', os', h1, h2, R⟩
  · rw [h2] at h; simp at h
  · rw [h2] at h; simp only [Except.ok.injEq, Prod.mk.injEq] at h
    obtain ⟨rfl, rfl⟩ := h
    refine ⟨s, os', h1, m'.nodes, iterAll_ok m', R.perm, R.inv.size_eq.symm, R.inv.distinct, ?_⟩
    intro k v
    constructor
    · intro hk
      obtain ⟨p, hp, he, rfl⟩ := lookup_mem hk
      obtain ⟨n, hn, rfl⟩ := List.mem_map.1 (R.perm.mem_iff.2 hp)
      exact ⟨n, hn, he, rfl⟩
    · rintro ⟨n, hn, he, rfl⟩
      exact (R.hit L hn he).1

/-- **C03.** A pointer obtained from `get_ptr` keeps designating the current value of its key
through every later history that does not remove the key, clear or replace the map: it can be
read, `get_ptr` still returns the same address, and the value read is the abstract map's. -/
theorem C03_map_pointer_stability (H : HashEq K) (L : H.Lawful) (ops0 ops : List (Op K V))
    {m0 m : MapSt K V} {os0 os : List (Out V)} {k : K} {a : Nat} {v0 : V}
    (h0 : implRun H empty ops0 = .ok (m0, os0)) (hp : getPtr H m0 k = .ok (some (a, v0)))
    (hk : ∀ op ∈ ops, ¬ op.kills H k) (h : implRun H m0 ops = .ok (m, os)) :
    ∃ v, readRef m a = .ok v ∧ getPtr H m k = .ok (some (a, v)) ∧
      ∃ s os', specRun H [] (ops0 ++ ops) = some (s, os') ∧ s.lookup H k = some v := by
  rcases run_ok L ops0 (empty_rel H) with ⟨h1, e, h2⟩ | ⟨s0, m0', os0', h1, h2, R0⟩
  · rw [h2] at h0; simp at h0
  rw [h2] at h0; simp only [Except.ok.injEq, Prod.mk.injEq] at h0
  obtain ⟨rfl, rfl⟩ := h0
  have hh : Holds H m0' a k := by
    rcases getPtr_ok L R0 k with ⟨n, hn, he, e, -⟩ | ⟨e, -⟩
    · rw [e] at hp; simp at hp
      exact ⟨n, hn, hp.1, he⟩
    · rw [e] at hp; simp at hp
  obtain ⟨n, hn, ha, he⟩ := run_holds L ops R0 h hk hh
  rcases run_ok L ops R0 with ⟨_, e', h4⟩ | ⟨s1, m1, os1, h3, h4, R1⟩
  · rw [h4] at h; simp at h
  rw [h4] at h; simp only [Except.ok.injEq, Prod.mk.injEq] at h
  obtain ⟨rfl, rfl⟩ := h
  refine ⟨n.val, by rw [← ha]; exact readRef_ok R1.inv hn, ?_, s1, os0' ++ os1, ?_, (R1.hit L hn he).1⟩
  · rcases getPtr_ok L R1 k with ⟨x, hx, hxe, e, -⟩ | ⟨-, hall, -⟩
    · have : x = n := R1.inv.distinct.unique L hx hn hxe he
      subst this
      rw [e, ha]
    · rw [hall n hn] at he; simp at he
  · have app : ∀ (l1 : List (Op K V)) (s : AMap K V) (o1 : List (Out V)) (s' : AMap K V),
        specRun H s l1 = some (s', o1) → specRun H s' ops = some (s1, os1) →
        specRun H s (l1 ++ ops) = some (s1, o1 ++ os1) := by
      intro l1
      induction l1 with
      | nil =>
        intro s o1 s' ha hb
        simp only [specRun, Option.some.injEq, Prod.mk.injEq] at ha
        obtain ⟨rfl, rfl⟩ := ha
        simpa using hb
      | cons op l1 ih =>
        intro s o1 s' ha hb
        simp only [specRun, List.cons_append, Option.bind_eq_bind] at ha ⊢
        cases hs : specStep H s op with
        | none => simp [hs] at ha
        | some p =>
          obtain ⟨s2, o⟩ := p
          simp only [hs, Option.bind_some] at ha ⊢
          cases hr : specRun H s2 l1 with
          | none => simp [hr] at ha
          | some q =>
            obtain ⟨s3, o3⟩ := q
            simp only [hr, Option.bind_some, Option.pure_def, Option.some.injEq, Prod.mk.injEq] at ha
            obtain ⟨rfl, rfl⟩ := ha
            simp [ih s2 o3 s3 hr hb]
    exact app ops0 [] os0' s0 h1 h3

/-- **C03**, for references returned by `operator[]` / `get_or_create`: right after the call the
reference designates the entry that `get_ptr` finds, so the theorem above applies to it. -/
theorem C03_map_reference_is_pointer (H : HashEq K) (L : H.Lawful) (ops0 : List (Op K V))
    {m0 m1 : MapSt K V} {os0 : List (Out V)} {k : K} {d : V} {a : Nat}
    (h0 : implRun H empty ops0 = .ok (m0, os0)) (hi : index H m0 k d = .ok (m1, a)) :
    ∃ v, readRef m1 a = .ok v ∧ getPtr H m1 k = .ok (some (a, v)) := by
  rcases run_ok L ops0 (empty_rel H) with ⟨h1, e, h2⟩ | ⟨s0, m0', os0', h1, h2, R0⟩
  · rw [h2] at h0; simp at h0
  rw [h2] at h0; simp only [Except.ok.injEq, Prod.mk.injEq] at h0
  obtain ⟨rfl, rfl⟩ := h0
  have key : ∀ {s} {n : Node K V}, Rel H m1 s → n ∈ m1.nodes → n.addr = a → H.eq n.key k = true →
      ∃ v, readRef m1 a = .ok v ∧ getPtr H m1 k = .ok (some (a, v)) := by
    intro s n R1 hn ha he
    refine ⟨n.val, by rw [← ha]; exact readRef_ok R1.inv hn, ?_⟩
    rcases getPtr_ok L R1 k with ⟨x, hx, hxe, e, -⟩ | ⟨-, hall, -⟩
    · have : x = n := R1.inv.distinct.unique L hx hn hxe he
      subst this
      rw [e, ha]
    · rw [hall n hn] at he; simp at he
  obtain ⟨m2, a2, e2, hcase, -⟩ := index_ok L R0 k d
  rw [e2] at hi; simp only [Except.ok.injEq, Prod.mk.injEq] at hi
  obtain ⟨rfl, rfl⟩ := hi
  rcases hcase with ⟨n, hn, ha, he, R1, -⟩ | ⟨n, ha, hk, hv, hp, I1, -, R1, -⟩
  · exact key R1 hn ha he
  · exact key R1 (hp.mem_iff.2 (by simp)) ha (by rw [hk]; exact L.refl k)

/-- **C04.** After `reserve(n)` the table has at least `n` buckets, and no later history that keeps
the map at no more than `n` elements (and does not itself ask for more) rebuilds the table. -/
theorem C04_map_reserve (H : HashEq K) (L : H.Lawful) (ops0 ops : List (Op K V)) {n : Nat}
    (hn : 0 < n) {m0 m1 m2 : MapSt K V} {os0 os : List (Out V)}
    (h0 : implRun H empty ops0 = .ok (m0, os0)) (h1 : reserve H m0 n = .ok m1)
    (h2 : implRun H m1 ops = .ok (m2, os)) (hask : ∀ op ∈ ops, ¬ op.asksBeyond n)
    (hsize : ∀ pre, pre <+: ops → ∀ mp osp, implRun H m1 pre = .ok (mp, osp) → mp.size ≤ n) :
    n ≤ m1.entries.length ∧ m2.entries.length = m1.entries.length := by
  rcases run_ok L ops0 (empty_rel H) with ⟨_, e, h4⟩ | ⟨s0, m0', os0', h3, h4, R0⟩
  · rw [h4] at h0; simp at h0
  rw [h4] at h0; simp only [Except.ok.injEq, Prod.mk.injEq] at h0
  obtain ⟨rfl, rfl⟩ := h0
  obtain ⟨m1', e, I, p, hge, -, -, -⟩ := reserve_ok L R0.inv n
  rw [e] at h1; simp only [Except.ok.injEq] at h1; subst h1
  have R1 : Rel H m1' s0 := ⟨I, (ents_perm p).trans R0.perm⟩
  refine ⟨hge, ?_⟩
  have main : ∀ (ops : List (Op K V)) (m : MapSt K V) (s : AMap K V) (os : List (Out V)),
      Rel H m s → n ≤ m.entries.length → implRun H m ops = .ok (m2, os) →
      (∀ op ∈ ops, ¬ op.asksBeyond n) →
      (∀ pre, pre <+: ops → ∀ mp osp, implRun H m pre = .ok (mp, osp) → mp.size ≤ n) →
      m2.entries.length = m.entries.length := by
    intro ops
    induction ops with
    | nil =>
      intro m s os _ _ h2 _ _
      simp only [implRun, Except.ok.injEq, Prod.mk.injEq] at h2
      rw [h2.1]
    | cons op ops ih =>
      intro m s os R hge h2 hask hsize
      have hsz : m.size ≤ n := hsize [] (List.nil_prefix) m [] rfl
      simp only [implRun] at h2
      obtain ⟨⟨m3, o⟩, e1, e2⟩ := Verif.R.bind_eq_ok.1 h2
      obtain ⟨⟨m4, os4⟩, e3, e4⟩ := Verif.R.bind_eq_ok.1 e2
      simp only [Verif.R.pure_eq, Except.ok.injEq, Prod.mk.injEq] at e4
      rcases step_ok L R op with ⟨_, _, h6⟩ | ⟨s1, m1', o', h5, h6, R1⟩
      · rw [h6] at e1; simp at e1
      · rw [h6] at e1; simp only [Except.ok.injEq, Prod.mk.injEq] at e1
        obtain ⟨rfl, rfl⟩ := e1
        have hc := step_cap L R h6 hge (by omega) hsz (hask op (by simp))
        have e5 : implRun H m1' ops = .ok (m2, os4) := by rw [← e4.1]; exact e3
        rw [← hc]
        refine ih m1' s1 os4 R1 (by omega) e5 (fun op hop => hask op (by simp [hop])) ?_
        intro pre hpre mp osp hrun
        refine hsize (op :: pre) (by simpa using hpre) mp (o' :: osp) ?_
        simp [implRun, h6, hrun]
  exact main ops m1' s0 os R1 hge h2 hask hsize

/-- **C05.** `operator==` never fails on reachable maps and returns true iff the two abstract maps
agree at every key (`ne b a` is the value comparison `b != a` the code uses). -/
theorem C05_map_equality (H : HashEq K) (L : H.Lawful) (ne : V → V → Bool) (ops1 ops2 : List (Op K V))
    {m1 m2 : MapSt K V} {os1 os2 : List (Out V)}
    (h1 : implRun H empty ops1 = .ok (m1, os1)) (h2 : implRun H empty ops2 = .ok (m2, os2)) :
    ∃ s1 s2, (specRun H [] ops1).map Prod.fst = some s1 ∧ (specRun H [] ops2).map Prod.fst = some s2 ∧
      ∃ b, mapEq H ne m1 m2 = .ok b ∧
        (b = true ↔ ∀ k, Agree ne (s1.lookup H k) (s2.lookup H k)) := by
  rcases run_ok L ops1 (empty_rel H) with ⟨_, e, h4⟩ | ⟨s1, m1', os1', h3, h4, R1⟩
  · rw [h4] at h1; simp at h1
  rw [h4] at h1; simp only [Except.ok.injEq, Prod.mk.injEq] at h1
  obtain ⟨rfl, rfl⟩ := h1
  rcases run_ok L ops2 (empty_rel H) with ⟨_, e, h6⟩ | ⟨s2, m2', os2', h5, h6, R2⟩
  · rw [h6] at h2; simp at h2
  rw [h6] at h2; simp only [Except.ok.injEq, Prod.mk.injEq] at h2
  obtain ⟨rfl, rfl⟩ := h2
  exact ⟨s1, s2, by simp [h3], by simp [h5], mapEq_ok L R1 R2⟩

/-- The demo history runs on the modelled map with the abstract map's observations, and the model
ends with 6 elements in 32 buckets (it rehashed from 4 to 8 to 32). -/
example : ∃ m os, implRun natHash empty demoOps = .ok (m, os) ∧ m.size = 6 ∧
    m.entries.length = 32 := by
  have : ((implRun natHash empty demoOps).toOption.map (fun r => (r.1.size, r.1.entries.length)))
      = some (6, 32) := by decide +kernel
  cases h : implRun natHash empty demoOps with
  | error e => rw [h] at this; simp [Except.toOption] at this
  | ok r => rw [h] at this; simp [Except.toOption] at this; exact ⟨r.1, r.2, rfl, this⟩

/-- Hypotheses of C03 are met: key 3 has a pointer that survives growth and another key's removal. -/
example : ∃ m0 os0 a v m os, implRun natHash empty (demoOps.take 2) = .ok (m0, os0) ∧
    getPtr natHash m0 3 = .ok (some (a, v)) ∧
    (∀ op ∈ (demoOps.drop 2).take 9, ¬ op.kills natHash 3) ∧
    implRun natHash m0 ((demoOps.drop 2).take 9) = .ok (m, os) ∧ m.entries.length = 32 := by
  have h : ((implRun natHash empty (demoOps.take 2)).toOption.bind (fun r =>
      (getPtr natHash r.1 3).toOption.bind (fun p =>
        (implRun natHash r.1 ((demoOps.drop 2).take 9)).toOption.map
          (fun q => (p.isSome, q.1.entries.length))))) = some (true, 32) := by decide +kernel
  cases h0 : implRun natHash empty (demoOps.take 2) with
  | error e => rw [h0] at h; simp [Except.toOption] at h
  | ok r =>
    rw [h0] at h
    cases h1 : getPtr natHash r.1 3 with
    | error e => simp [Except.toOption, h1] at h
    | ok p =>
      cases h2 : implRun natHash r.1 ((demoOps.drop 2).take 9) with
      | error e => simp [Except.toOption, h1, h2] at h
      | ok q =>
        simp [Except.toOption, h1, h2] at h
        obtain ⟨hp, hq⟩ := h
        cases p with
        | none => simp at hp
        | some p =>
          refine ⟨r.1, r.2, p.1, p.2, q.1, q.2, rfl, h1, ?_, h2, hq⟩
          simp [demoOps, Op.kills, natHash]

/-- **C63 is false of the code.** A moved-from map keeps its old `size()` but has no table, so
looking up any key in it trips the assertion in `_get_location` (map.hh:404). -/
theorem C63_map_moved_from_not_usable :
    ∃ (ops : List (Op Nat Nat)) (m : MapSt Nat Nat) (os : List (Out Nat)) (k : Nat),
      implRun natHash empty ops = .ok (m, os) ∧ (movedFrom m).size ≠ 0 ∧
      getPtr natHash (movedFrom m) k = .error .assert := by
  have h : ((implRun natHash empty [.index 1 0 (fun _ => 10)]).toOption.map
      (fun r => decide ((movedFrom r.1).size ≠ 0) && (getPtr natHash (movedFrom r.1) 1).toOption.isNone
        && (match getPtr natHash (movedFrom r.1) 1 with | .error .assert => true | _ => false)))
      = some true := by decide +kernel
  cases h0 : implRun natHash empty [.index 1 0 (fun _ => 10)] with
  | error e => rw [h0] at h; simp [Except.toOption] at h
  | ok r =>
    rw [h0] at h
    simp only [Except.toOption, Option.map_some, Option.some.injEq, Bool.and_eq_true,
      decide_eq_true_eq] at h
    refine ⟨_, r.1, r.2, 1, h0, h.1.1, ?_⟩
    have := h.2
    split at this <;> simp_all

/-- **C63, what holds** (partial): after `clear()` a moved-from map is a correct empty map again. -/
theorem C63_map_moved_from_clear_partial (H : HashEq K) (L : H.Lawful) (m : MapSt K V)
    (ops : List (Op K V)) :
    (implRun H (clear (movedFrom m)) ops).toOption.map Prod.snd = (specRun H [] ops).map Prod.snd := by
  rcases run_ok L ops (clear_rel (H := H) (m := movedFrom m)) with ⟨h1, e, h2⟩ | ⟨s, m, os, h1, h2, -⟩
  · simp [h1, h2, Except.toOption]
  · simp [h1, h2, Except.toOption]

end Verif.Map
