import Verif.DSet.Lemmas

/-! Property theorems for `cc::disjoint_set`: C22. -/
namespace Verif.DSet
open Spec

/-- A history with chains, repeated merges and queries, used in the examples. -/
def demoOps : List Op :=
  [.mergeByElement 0 1, .mergeByElement 2 3, .mergeByElement 1 3, .mergeByElement 3 0, .sameSet 1 2, .sameSet 1 4,
   .sizeByElement 3, .mergeByElement 5 4, .numberOfPartitions, .representative 3, .mergeByRepresentative 5 0,
   .sizeByRepresentative 0, .numberOfPartitions]

/-- **C22**, histories: for every number of elements below 2^31 and every history, the data structure gives the results of the
abstract partition (Spec.lean); calls with an unknown element, or with an element that should be a representative and is not, end in
a contract failure; nothing undefined happens (no endless recursion, no overflow). -/
theorem C22_disjoint_set_refines_partition (n : Nat) (hn : n < 2 ^ 31) (ops : List Op) :
    match Spec.run (Spec.init n) ops with
    | none => run (init n) ops = .error .assert
    | some (_, os) => ∃ ds, run (init n) ops = .ok (ds, os) := by
  have h := run_ok ops (Rel.init hn)
  cases hs : Spec.run (Spec.init n) ops with
  | none => rw [hs] at h; exact h
  | some p =>
    rw [hs] at h
    obtain ⟨ds, d, e, -⟩ := h
    exact ⟨ds, e⟩

example : (Spec.run (Spec.init 6) demoOps).map Prod.snd =
    some [.bool true, .bool true, .bool true, .bool false, .bool true, .bool false, .nat 4, .bool true, .nat 2, .nat 0, .bool true,
      .nat 6, .nat 1] := by decide +kernel

/-- What holds after a history that ran without contract failure. -/
theorem run_cases {n : Nat} (hn : n < 2 ^ 31) {ops : List Op} {ds : DS} {os : List Obs} (h : run (init n) ops = .ok (ds, os)) :
    ∃ s d, Spec.run (Spec.init n) ops = some (s, os) ∧ Rel ds s d ∧ RepOK s (pairs ops) ∧ s.n = n := by
  have hr := run_ok ops (Rel.init hn)
  cases hs : Spec.run (Spec.init n) ops with
  | none => rw [hs] at hr; simp only at hr; rw [hr] at h; simp at h
  | some p =>
    obtain ⟨s, os'⟩ := p
    rw [hs] at hr
    obtain ⟨ds', d, e, rel⟩ := hr
    rw [e] at h
    simp only [Except.ok.injEq, Prod.mk.injEq] at h
    obtain ⟨rfl, rfl⟩ := h
    obtain ⟨r, hn'⟩ := repOK_run ops (RepOK.init n) hs
    exact ⟨s, d, rfl, rel, by simpa using r, by simpa [Spec.init] using hn'⟩

/-- **C22**, connectivity: after any history, two elements are reported to be in the same set iff they are connected by the merged
pairs. -/
theorem C22_same_set_iff_connected (n : Nat) (hn : n < 2 ^ 31) (ops : List Op) {ds : DS} {os : List Obs}
    (h : run (init n) ops = .ok (ds, os)) (a b : Nat) (ha : a < n) (hb : b < n) :
    ∃ v ds', sameSet ds a b = .ok (v, ds') ∧ (v = true ↔ Conn (pairs ops) a b) := by
  obtain ⟨s, d, -, rel, rok, hsn⟩ := run_cases hn h
  subst hsn
  obtain ⟨ds1, e1, h1⟩ := getRep_ok rel ha
  obtain ⟨ds2, e2, h2⟩ := getRep_ok h1 hb
  refine ⟨s.rep a == s.rep b, ds2, ?_, ?_⟩
  · unfold sameSet
    rw [e1]; simp only [R.ok_bind]; rw [e2]; rfl
  · rw [beq_iff_eq]
    constructor
    · intro he
      have := rok.conn a ha
      rw [he] at this
      exact .trans this (.symm (rok.conn b hb))
    · exact rok.eq a b

example : (match run (init 6) demoOps with | .ok (_, _) => true | _ => false) = true ∧
    Conn (pairs demoOps) 3 4 ∧ pairs (demoOps.take 3) = [(0, 1), (2, 3), (1, 3)] := by
  refine ⟨by decide +kernel, ?_, rfl⟩
  have p1 : Conn (pairs demoOps) 3 0 := .pair (by decide)
  have p2 : Conn (pairs demoOps) 5 0 := .pair (by decide)
  have p3 : Conn (pairs demoOps) 5 4 := .pair (by decide)
  exact .trans p1 (.trans (.symm p2) p3)

/-- **C22**, representatives: after any history, every element has a representative, which is an element connected to it; connected
elements have the same one; asking for it changes neither any representative nor the number of sets. -/
theorem C22_representative (n : Nat) (hn : n < 2 ^ 31) (ops : List Op) {ds : DS} {os : List Obs}
    (h : run (init n) ops = .ok (ds, os)) :
    ∃ rep : Nat → Nat, (∀ a, a < n → rep a < n ∧ Conn (pairs ops) a (rep a)) ∧
      (∀ a b, a < n → b < n → (rep a = rep b ↔ Conn (pairs ops) a b)) ∧
      ∀ a, a < n → ∃ ds', getRepresentative ds a = .ok (rep a, ds') ∧ ds'.count = ds.count ∧
        ∀ b, b < n → ∃ ds'', getRepresentative ds' b = .ok (rep b, ds'') := by
  obtain ⟨s, d, -, rel, rok, hsn⟩ := run_cases hn h
  subst hsn
  refine ⟨s.rep, fun a ha => ⟨rok.lt a ha, rok.conn a ha⟩, ?_, ?_⟩
  · intro a b ha hb
    constructor
    · intro he
      have := rok.conn a ha
      rw [he] at this
      exact .trans this (.symm (rok.conn b hb))
    · exact rok.eq a b
  · intro a ha
    obtain ⟨ds1, e1, h1⟩ := getRep_ok rel ha
    refine ⟨ds1, e1, by rw [h1.count, rel.count], fun b hb => ?_⟩
    obtain ⟨ds2, e2, -⟩ := getRep_ok h1 hb
    exact ⟨ds2, e2⟩

/-- **C22**, sizes: after any history, the size reported for an element is the number of elements connected to it. -/
theorem C22_set_size (n : Nat) (hn : n < 2 ^ 31) (ops : List Op) {ds : DS} {os : List Obs}
    (h : run (init n) ops = .ok (ds, os)) (e : Nat) (he : e < n) :
    ∃ l : List Nat, l.Nodup ∧ (∀ x, x ∈ l ↔ x < n ∧ Conn (pairs ops) e x) ∧
      ∃ ds', sizeByElement ds e = .ok (l.length, ds') := by
  obtain ⟨s, d, -, rel, rok, hsn⟩ := run_cases hn h
  subst hsn
  refine ⟨(List.range s.n).filter fun x => s.rep x == s.rep e, List.Pairwise.filter _ List.nodup_range, ?_, ?_⟩
  · intro x
    simp only [List.mem_filter, List.mem_range, beq_iff_eq]
    constructor
    · rintro ⟨hx, hxe⟩
      refine ⟨hx, ?_⟩
      have := rok.conn e he
      rw [← hxe] at this
      exact .trans this (.symm (rok.conn x hx))
    · rintro ⟨hx, hc⟩
      exact ⟨hx, (rok.eq _ _ hc).symm⟩
  · obtain ⟨ds1, e1, h1⟩ := getRep_ok rel he
    obtain ⟨x, ex, -, ok⟩ := entry_ok h1 (rel.rep_lt e he)
    refine ⟨ds1, ?_⟩
    unfold sizeByElement
    rw [e1]; simp only [R.ok_bind]; rw [ex]
    simp only [R.ok_bind]
    rw [ok.size (rel.idem e he), ← List.countP_eq_length_filter]
    rfl

example : (match run (init 6) (demoOps.take 4) with
    | .ok (ds, _) => (match sizeByElement ds 3 with | .ok (k, _) => k | _ => 0) | _ => 0) = 4 := by decide +kernel

/-- **C22**, set count: after any history, the reported number of sets is the number of classes of connected elements: there is a
list of that length with exactly one element of each class. -/
theorem C22_set_count (n : Nat) (hn : n < 2 ^ 31) (ops : List Op) {ds : DS} {os : List Obs}
    (h : run (init n) ops = .ok (ds, os)) :
    ∃ l : List Nat, l.Nodup ∧ l.length = ds.count ∧ (∀ r ∈ l, r < n) ∧
      (∀ r ∈ l, ∀ r' ∈ l, Conn (pairs ops) r r' → r = r') ∧ ∀ x, x < n → ∃ r ∈ l, Conn (pairs ops) x r := by
  obtain ⟨s, d, -, rel, rok, hsn⟩ := run_cases hn h
  subst hsn
  refine ⟨(List.range s.n).filter fun x => s.rep x == x, List.Pairwise.filter _ List.nodup_range, ?_, ?_, ?_, ?_⟩
  · rw [rel.count, ← List.countP_eq_length_filter]; rfl
  · intro r hr
    simp only [List.mem_filter, List.mem_range] at hr
    exact hr.1
  · intro r hr r' hr' hc
    simp only [List.mem_filter, List.mem_range, beq_iff_eq] at hr hr'
    rw [← hr.2, ← hr'.2]
    exact rok.eq _ _ hc
  · intro x hx
    refine ⟨s.rep x, ?_, rok.conn x hx⟩
    simp only [List.mem_filter, List.mem_range, beq_iff_eq]
    exact ⟨rok.lt x hx, rok.idem x hx⟩

/-- **C22**, merging: after any history, merging two elements reports whether they were in different sets. -/
theorem C22_merge_result (n : Nat) (hn : n < 2 ^ 31) (ops : List Op) {ds : DS} {os : List Obs}
    (h : run (init n) ops = .ok (ds, os)) (a b : Nat) (ha : a < n) (hb : b < n) :
    ∃ v ds', mergeByElement ds a b = .ok (v, ds') ∧ (v = true ↔ ¬ Conn (pairs ops) a b) ∧
      ds'.count = ds.count - (if v then 1 else 0) ∧ ∃ ds'', sameSet ds' a b = .ok (true, ds'') := by
  obtain ⟨s, d, hs, rel, rok, hsn⟩ := run_cases hn h
  have hconn : s.rep a = s.rep b ↔ Conn (pairs ops) a b := by
    constructor
    · intro he
      have := rok.conn a (by omega)
      rw [he] at this
      exact .trans this (.symm (rok.conn b (by omega)))
    · exact rok.eq a b
  have hst := step_ok rel (.mergeByElement a b)
  have hrun2 : ∀ ds' v, mergeByElement ds a b = .ok (v, ds') →
      run (init n) (ops ++ [.mergeByElement a b]) = .ok (ds', os ++ [.bool v]) := by
    intro ds' v hm
    have : ∀ (ops : List Op) (d0 ds : DS) (os : List Obs), run d0 ops = .ok (ds, os) → mergeByElement ds a b = .ok (v, ds') →
        run d0 (ops ++ [.mergeByElement a b]) = .ok (ds', os ++ [.bool v]) := by
      intro ops
      induction ops with
      | nil =>
        intro d0 ds os h1 h2
        simp only [run, Except.ok.injEq, Prod.mk.injEq] at h1
        obtain ⟨rfl, rfl⟩ := h1
        simp [run, step, callB, h2]
      | cons op ops ih =>
        intro d0 ds os h1 h2
        simp only [run, R.bind_eq_ok, List.cons_append] at h1 ⊢
        obtain ⟨⟨d1, o1⟩, e1, ⟨d2, o2⟩, e2, h1⟩ := h1
        simp only [Except.ok.injEq, Prod.mk.injEq] at h1
        obtain ⟨rfl, rfl⟩ := h1
        exact ⟨_, e1, _, ih _ _ _ e2 h2, rfl⟩
    exact this ops _ _ _ h hm
  simp only [Spec.step, hsn, ha, hb, and_self, if_true] at hst
  have key : ∃ v ds' s' d', mergeByElement ds a b = .ok (v, ds') ∧ v = decide (s.rep a ≠ s.rep b) ∧ Rel ds' s' d' ∧
      s' = (if s.rep a = s.rep b then s else s.merge (s.rep a) (s.rep b)) := by
    split at hst
    · rename_i heq
      split at heq <;> simp at heq
    · rename_i s' o heq
      obtain ⟨ds', d', e, r⟩ := hst
      simp only [step, callB, R.bind_eq_ok] at e
      obtain ⟨⟨v, ds1⟩, e1, e2⟩ := e
      simp only [Except.ok.injEq, Prod.mk.injEq] at e2
      obtain ⟨rfl, rfl⟩ := e2
      refine ⟨v, ds1, s', d', e1, ?_, r, ?_⟩
      · split at heq <;> rename_i hc <;> simp only [Option.some.injEq, Prod.mk.injEq, Obs.bool.injEq] at heq <;>
          rw [← heq.2] <;> simp [hc]
      · split at heq <;> rename_i hc <;> simp only [Option.some.injEq, Prod.mk.injEq] at heq <;>
          rw [← heq.1] <;> simp [hc]
  obtain ⟨v, ds', s', d', e, hv, r, hs'⟩ := key
  refine ⟨v, ds', e, ?_, ?_, ?_⟩
  · rw [hv, decide_eq_true_eq, ← hconn]
  · subst hv
    by_cases hc : s.rep a = s.rep b
    · rw [if_pos hc] at hs'
      subst hs'
      simp [hc, r.count, rel.count]
    · simp only [ne_eq, hc, not_false_eq_true, decide_true, if_true]
      rw [if_neg hc] at hs'
      subst hs'
      rw [r.count, rel.count]
      have hrel : ∀ big small, big < s.n → small < s.n → s.rep big = big → s.rep small = small → big ≠ small →
          (relabel s big small).sets = s.sets - 1 := by
        intro big small hb hs rb rs hne
        have hcnt : (relabel s big small).sets + 1 = s.sets := by
          unfold S.sets
          refine countP_remove (fun x => s.rep x == x) _ small s.n hs ?_ (by simpa using rs)
          intro x hx
          simp only [relabel]
          by_cases hc : s.rep x = small
          · rw [if_pos hc, hc]
            by_cases hxs : x = small
            · subst hxs; simpa using hne
            · have : big ≠ x := by
                intro hbx; subst hbx; rw [rb] at hc; exact hne hc
              have e1 : (big == x) = false := by simpa using this
              have e2 : (small == x) = false := by simpa using Ne.symm hxs
              rw [e1, e2]; rfl
          · rw [if_neg hc]
            by_cases hxs : x = small
            · subst hxs; exact absurd rs hc
            · simp [hxs]
        omega
      unfold S.merge
      split
      · exact hrel _ _ (rok.lt b (by omega)) (rok.lt a (by omega)) (rok.idem b (by omega)) (rok.idem a (by omega)) (Ne.symm hc)
      · exact hrel _ _ (rok.lt a (by omega)) (rok.lt b (by omega)) (rok.idem a (by omega)) (rok.idem b (by omega)) hc
  · obtain ⟨v', ds'', e', hv'⟩ := C22_same_set_iff_connected n hn (ops ++ [.mergeByElement a b]) (hrun2 ds' v e) a b ha hb
    refine ⟨ds'', ?_⟩
    have : v' = true := by
      rw [hv']
      apply Conn.pair
      have : ∀ l : List Op, pairs (l ++ [.mergeByElement a b]) = pairs l ++ [(a, b)] := by
        intro l
        induction l with
        | nil => rfl
        | cons op l ih => rw [List.cons_append, pairs_cons, pairs_cons op l, ih, List.append_assoc]
      rw [this]; simp
    rw [this] at e'
    exact e'

example : (match run (init 6) (demoOps.take 3) with
    | .ok (ds, _) => (match mergeByElement ds 3 0, mergeByElement ds 3 5 with | .ok (v, _), .ok (v', _) => (v, v') | _, _ => (true, true))
    | _ => (true, true)) = (false, true) := by decide +kernel

/-- **C22**, running time: after any history, `get_representative` recurses at most log2(n) + 1 deep (so at most 31 levels). -/
theorem C22_find_depth (n : Nat) (hn : n < 2 ^ 31) (ops : List Op) {ds : DS} {os : List Obs}
    (h : run (init n) ops = .ok (ds, os)) (e : Nat) (he : e < n) :
    find (n.log2 + 1) ds e = getRepresentative ds e ∧ n.log2 + 1 ≤ 31 := by
  obtain ⟨s, d, -, rel, rok, hsn⟩ := run_cases hn h
  subst hsn
  have hd : d e ≤ s.n.log2 := by
    rw [Nat.le_log2 (by omega)]
    exact rel.depth he
  have hmono : ∀ f f', f ≤ f' → ∀ ds e p, find f ds e = .ok p → find f' ds e = .ok p := by
    intro f
    induction f with
    | zero => intro f' _ ds e p hp; simp [find] at hp
    | succ f ih =>
      intro f' hf ds e p hp
      obtain ⟨g, rfl⟩ : ∃ g, f' = g + 1 := ⟨f' - 1, by omega⟩
      simp only [find, R.bind_eq_ok] at hp ⊢
      obtain ⟨x, hx, hp⟩ := hp
      refine ⟨x, hx, ?_⟩
      split at hp
      · rename_i hc
        rw [if_pos hc]
        rw [R.bind_eq_ok] at hp ⊢
        obtain ⟨y, hy, hp⟩ := hp
        exact ⟨y, ih g (by omega) _ _ _ hy, hp⟩
      · rename_i hc
        rw [if_neg hc]; exact hp
  obtain ⟨ds', e', -⟩ := find_ok (s.n.log2 + 1) rel he (by omega)
  refine ⟨?_, ?_⟩
  · have hlog : s.n.log2 ≤ s.n := by
      have := Nat.log2_self_le (n := s.n) (by omega)
      have h2 : s.n.log2 < 2 ^ s.n.log2 := Nat.lt_two_pow_self
      omega
    rw [e', getRepresentative, rel.len]
    exact (hmono _ _ (by omega) _ _ _ e').symm
  · have := (Nat.log2_lt (n := s.n) (k := 31) (by omega)).2 hn
    omega

/-- **C22**, parents: after any history, `get_parent(e)` is an element of the set of `e`, and equals `e` iff `e` is the
representative. -/
theorem C22_parent (n : Nat) (hn : n < 2 ^ 31) (ops : List Op) {ds : DS} {os : List Obs}
    (h : run (init n) ops = .ok (ds, os)) (e : Nat) (he : e < n) :
    ∃ p r ds', getParent ds e = .ok p ∧ getRepresentative ds e = .ok (r, ds') ∧ (p = e ↔ r = e) ∧ p < n ∧ Conn (pairs ops) e p := by
  obtain ⟨s, d, -, rel, rok, hsn⟩ := run_cases hn h
  subst hsn
  obtain ⟨x, ex, -, ok⟩ := entry_ok rel he
  obtain ⟨ds', e', -⟩ := getRep_ok rel he
  refine ⟨x.parent, s.rep e, ds', by unfold getParent; rw [ex]; rfl, e', ok.root, ok.lt, ?_⟩
  have := rok.conn x.parent ok.lt
  rw [ok.rep] at this
  exact .trans (rok.conn e he) (.symm this)

example : (match run (init 6) (demoOps.take 3) with
    | .ok (ds, _) => (getParent ds 3, find 3 ds 3 == getRepresentative ds 3) | _ => (.error .ub, false)) = (.ok 2, true) := by
  decide +kernel

end Verif.DSet
