import Verif.Mpmc.SizeLemmas
import Verif.Mpmc.SizeSpec

/-! C126: the size that an mpmc queue reports. -/
namespace Verif.Mpmc.Size
open Verif.Mpmc.Spec (content values Published Done)
open Size.Spec

variable {α : Type}

/-- The part of the changes still owed. -/
def debt (l : List (Nat × Int)) : Int := (l.map (·.2)).sum

/-- The number of owed increments. -/
def owedE (l : List (Nat × Int)) : Nat := l.countP (fun x => x.2 == 1)
/-- The number of owed decrements. -/
def owedD (l : List (Nat × Int)) : Nat := l.countP (fun x => x.2 == -1)

/-- Queue and counter; `k` is the count at the beginning. -/
structure SInv (k : BitVec 64) (s : State α) : Prop where
  inv : Inv s.q
  idle : ∀ x ∈ s.owed, (s.q.threads x.1).pc = .idle
  nodup : (s.owed.map (·.1)).Nodup
  vals : ∀ x ∈ s.owed, x.2 = 1 ∨ x.2 = -1
  size : s.size = k + BitVec.ofInt 64 ((pubs s.q : Int) - dones s.q - debt s.owed)
  cE : owedE s.owed ≤ pubs s.q
  cD : owedD s.owed ≤ dones s.q

/-- Who owes. -/
structure SRoles (P C : List Nat) (s : State α) : Prop where
  roles : Roles P C s.q
  owed : ∀ x ∈ s.owed, (x.2 = 1 → x.1 ∈ P) ∧ (x.2 = -1 → x.1 ∈ C)

theorem filter_of_not_mem : ∀ (l : List (Nat × Int)) {t : Nat}, t ∉ l.map (·.1) → l.filter (fun x => x.1 != t) = l
  | [], _, _ => rfl
  | x :: l, t, h => by
    have h1 : x.1 ≠ t := fun e => h (by rw [List.map_cons, e]; exact List.mem_cons_self)
    have h2 : t ∉ l.map (·.1) := fun e => h (List.mem_cons_of_mem _ e)
    rw [List.filter_cons_of_pos (by simpa using h1), filter_of_not_mem l h2]

theorem debt_filter : ∀ (l : List (Nat × Int)) {t : Nat} {d : Int}, (l.map (·.1)).Nodup → l.lookup t = some d → debt (l.filter (fun x => x.1 != t)) = debt l - d
  | [], _, _, _, h => by cases h
  | x :: l, t, d, hn, h => by
    rw [List.map_cons, List.nodup_cons] at hn
    rw [List.lookup_cons] at h
    by_cases e : t = x.1
    · rw [beq_iff_eq.2 e] at h
      have hd : x.2 = d := Option.some.inj h
      rw [List.filter_cons_of_neg (by simp [e]), filter_of_not_mem l (by rw [e]; exact hn.1)]
      unfold debt
      rw [List.map_cons, List.sum_cons, hd]
      omega
    · rw [beq_eq_false_iff_ne.2 e] at h
      rw [List.filter_cons_of_pos (by simpa using Ne.symm e)]
      have := debt_filter l hn.2 h
      unfold debt at this ⊢
      rw [List.map_cons, List.sum_cons, List.map_cons, List.sum_cons, this]
      omega

theorem lookup_mem : ∀ (l : List (Nat × Int)) {t : Nat} {d : Int}, l.lookup t = some d → (t, d) ∈ l
  | [], _, _, h => by cases h
  | x :: l, t, d, h => by
    rw [List.lookup_cons] at h
    by_cases e : t = x.1
    · rw [beq_iff_eq.2 e] at h
      have hd : x.2 = d := Option.some.inj h
      rw [e, ← hd]
      exact List.mem_cons_self
    · rw [beq_eq_false_iff_ne.2 e] at h
      exact List.mem_cons_of_mem _ (lookup_mem l h)

theorem lookup_none : ∀ (l : List (Nat × Int)) {t : Nat}, l.lookup t = none → t ∉ l.map (·.1)
  | [], _, _ => by simp
  | x :: l, t, h => by
    rw [List.lookup_cons] at h
    by_cases e : t = x.1
    · rw [beq_iff_eq.2 e] at h
      cases h
    · rw [beq_eq_false_iff_ne.2 e] at h
      rw [List.map_cons, List.mem_cons]
      rintro (h' | h')
      · exact e h'
      · exact lookup_none l h h'

/-! ### one step -/

theorem stepQueue_ok {k : BitVec 64} {s : State α} (S : SInv k s) {t : Nat} (a : Act α) (hl : s.owed.lookup t = none)
    (hs : ∀ s', stepQueue s t a = .ok s' → s'.q.enqLog.length + s.q.n < 2 ^ 63) :
    ∃ s', stepQueue s t a = .ok s' ∧ SInv k s' ∧ s'.q.n = s.q.n ∧ Mpmc.step s.q t a = .ok s'.q ∧
      ∀ P C, SRoles P C s → (∀ v, a = .enqueue v → t ∈ P) → (a = .dequeue → t ∈ C) → SRoles P C s' := by
  have hnm := lookup_none _ hl
  unfold stepQueue at hs ⊢
  obtain ⟨q, hq, Iq⟩ := step_ok S.inv t a (fun q hq => by
    rw [hq, R.ok_bind] at hs
    exact hs _ rfl)
  have hn := (step_n S.inv hq).1
  rw [hq, R.ok_bind]
  have key : (∃ c d, a = .go c ∧ change (s.q.threads t).pc = some d ∧ (∀ P C, Roles P C s.q → Roles P C q) ∧ (∀ t', t' ≠ t → q.threads t' = s.q.threads t') ∧
        (q.threads t).pc = .idle ∧
        ((d = 1 ∧ (∃ p i, (s.q.threads t).pc = .ePub p i) ∧ pubs q = pubs s.q + 1 ∧ dones q = dones s.q) ∨
         (d = -1 ∧ (∃ p i v, (s.q.threads t).pc = .dRel p i v) ∧ pubs q = pubs s.q ∧ dones q = dones s.q + 1))) ∨
      (owing t a (change (s.q.threads t).pc) s.owed = s.owed ∧ Quiet s.q q t ∧
        ∀ P C, Roles P C s.q → (∀ v, a = .enqueue v → t ∈ P) → (a = .dequeue → t ∈ C) → Roles P C q) := by
    cases a with
    | enqueue v =>
      obtain ⟨e1, e2⟩ := begin_eff rfl (show begin s.q t (.eLoad v) (s.q.threads t).pc = .ok q from hq)
      exact .inr ⟨rfl, e1, fun P C H hP _ => e2 P C H (hP v rfl)⟩
    | dequeue =>
      obtain ⟨e1, e2⟩ := begin_eff rfl (show begin s.q t .dLoad (s.q.threads t).pc = .ok q from hq)
      exact .inr ⟨rfl, e1, fun P C H _ hC => e2 P C H (hC rfl)⟩
    | go c =>
      obtain ⟨e1, e2⟩ := advance_eff S.inv rfl (show advance s.q t c (s.q.threads t).pc = .ok q from hq)
      cases hc : change (s.q.threads t).pc with
      | none =>
        rw [hc] at e2
        exact .inr ⟨rfl, e2, fun P C H _ _ => e1 P C H⟩
      | some d =>
        rw [hc] at e2
        exact .inl ⟨c, d, rfl, rfl, e1, e2.1, e2.2.1, e2.2.2⟩
  have hne : ∀ x ∈ s.owed, x.1 ≠ t := fun x hx e => hnm (by rw [← e]; exact List.mem_map_of_mem hx)
  rcases key with ⟨c, d, ha, hc, hR, ho, hidle, heff⟩ | ⟨hm, hQ, hR⟩
  · subst ha
    rw [hc]
    refine ⟨_, rfl, ⟨Iq, ?_, ?_, ?_, ?_, ?_, ?_⟩, hn, rfl, ?_⟩
    · intro x hx
      rcases List.mem_cons.1 hx with h | h
      · rw [h]; exact hidle
      · change (q.threads x.1).pc = .idle
        rw [ho _ (hne x h)]; exact S.idle x h
    · change (((t, d) :: s.owed).map (·.1)).Nodup
      rw [List.map_cons, List.nodup_cons]
      exact ⟨hnm, S.nodup⟩
    · intro x hx
      rcases List.mem_cons.1 hx with h | h
      · rw [h]
        rcases heff with h' | h'
        · exact .inl h'.1
        · exact .inr h'.1
      · exact S.vals x h
    · dsimp only
      rw [S.size]
      congr 2
      change _ = (pubs q : Int) - dones q - debt ((t, d) :: s.owed)
      unfold debt
      rw [List.map_cons, List.sum_cons]
      rcases heff with ⟨h1, _, h2, h3⟩ | ⟨h1, _, h2, h3⟩ <;> rw [h1, h2, h3] <;> push_cast <;> omega
    · change owedE ((t, d) :: s.owed) ≤ pubs q
      have := S.cE
      unfold owedE at this ⊢
      rcases heff with ⟨h1, _, h2, h3⟩ | ⟨h1, _, h2, h3⟩
      · rw [h1, h2, List.countP_cons_of_pos rfl]; omega
      · rw [h1, h2, List.countP_cons_of_neg (fun h => by cases h)]; exact this
    · change owedD ((t, d) :: s.owed) ≤ dones q
      have := S.cD
      unfold owedD at this ⊢
      rcases heff with ⟨h1, _, h2, h3⟩ | ⟨h1, _, h2, h3⟩
      · rw [h1, h3, List.countP_cons_of_neg (fun h => by cases h)]; exact this
      · rw [h1, h3, List.countP_cons_of_pos rfl]; omega
    · intro P C H _ _
      refine ⟨hR P C H.roles, fun x hx => ?_⟩
      rcases List.mem_cons.1 hx with h | h
      · rw [h]
        have hr := H.roles.thr t
        rcases heff with ⟨h1, ⟨p, i, h2⟩, _⟩ | ⟨h1, ⟨p, i, v, h2⟩, _⟩
        · rw [h2] at hr
          rw [h1]
          exact ⟨fun _ => hr, fun e => by cases e⟩
        · rw [h2] at hr
          rw [h1]
          exact ⟨(fun e => by cases e), fun _ => hr⟩
      · exact H.owed x h
  · rw [hm]
    refine ⟨_, rfl, ⟨Iq, ?_, S.nodup, S.vals, ?_, ?_, ?_⟩, hn, rfl, ?_⟩
    · intro x hx
      change (q.threads x.1).pc = .idle
      rw [hQ.other _ (hne x hx)]; exact S.idle x hx
    · change s.size = k + BitVec.ofInt 64 ((pubs q : Int) - dones q - debt s.owed)
      rw [hQ.pubs, hQ.dones]; exact S.size
    · change owedE s.owed ≤ pubs q
      rw [hQ.pubs]; exact S.cE
    · change owedD s.owed ≤ dones q
      rw [hQ.dones]; exact S.cD
    · intro P C H hP hC
      exact ⟨hR P C H.roles hP hC, H.owed⟩

theorem fetchAdd_ok {k : BitVec 64} {s : State α} (S : SInv k s) {t : Nat} {d : Int} (hl : s.owed.lookup t = some d) : SInv k (fetchAdd s t d) := by
  have hsub : (s.owed.filter (fun x => x.1 != t)).Sublist s.owed := List.filter_sublist
  refine ⟨S.inv, fun x hx => S.idle x (hsub.subset hx), ?_, fun x hx => S.vals x (hsub.subset hx), ?_, ?_, ?_⟩
  · exact S.nodup.sublist (hsub.map _)
  · change s.size + BitVec.ofInt 64 d = k + BitVec.ofInt 64 ((pubs s.q : Int) - dones s.q - debt (s.owed.filter (fun x => x.1 != t)))
    rw [S.size, debt_filter _ S.nodup hl, BitVec.add_assoc, ← BitVec.ofInt_add]
    congr 2
    omega
  · exact Nat.le_trans (hsub.countP_le) S.cE
  · exact Nat.le_trans (hsub.countP_le) S.cD

theorem step_all {k : BitVec 64} {s : State α} (S : SInv k s) (t : Nat) (a : Act α)
    (hs : ∀ s', step s t a = .ok s' → s'.q.enqLog.length + s.q.n < 2 ^ 63) :
    ∃ s', step s t a = .ok s' ∧ SInv k s' ∧ s'.q.n = s.q.n ∧ (s'.q = s.q ∨ Mpmc.step s.q t a = .ok s'.q) ∧
      ∀ P C, SRoles P C s → (∀ v, a = .enqueue v → t ∈ P) → (a = .dequeue → t ∈ C) → SRoles P C s' := by
  unfold step at hs ⊢
  cases hl : s.owed.lookup t with
  | none =>
    rw [hl] at hs
    obtain ⟨s', h1, h2, h3, h4, h5⟩ := stepQueue_ok S a hl hs
    exact ⟨s', h1, h2, h3, .inr h4, h5⟩
  | some d =>
    cases a with
    | go c =>
      refine ⟨_, rfl, fetchAdd_ok S hl, rfl, .inl rfl, fun P C H _ _ => ⟨H.roles, fun x hx => ?_⟩⟩
      exact H.owed x ((List.filter_sublist (l := s.owed)).subset hx)
    | enqueue v => exact ⟨s, rfl, S, rfl, .inl rfl, fun P C H _ _ => H⟩
    | dequeue => exact ⟨s, rfl, S, rfl, .inl rfl, fun P C H _ _ => H⟩

theorem run_cons' {s s' : State α} {t : Nat} {a : Act α} (h : step s t a = .ok s') (as : List (Nat × Act α)) : run s ((t, a) :: as) = run s' as := by
  show (step s t a >>= fun s => run s as) = _
  rw [h, R.ok_bind]

theorem run_all {k : BitVec 64} : ∀ (sched : List (Nat × Act α)) {s : State α}, SInv k s →
    (∀ pre s', pre <+: sched → run s pre = .ok s' → s'.q.enqLog.length + s.q.n < 2 ^ 63) →
    ∃ s', run s sched = .ok s' ∧ SInv k s' ∧ s'.q.n = s.q.n ∧ (∃ sched', sched'.Sublist sched ∧ Mpmc.run s.q sched' = .ok s'.q) ∧
      ∀ P C, SRoles P C s → Uses P C sched → SRoles P C s'
  | [], s, S, _ => ⟨s, rfl, S, rfl, ⟨[], .slnil, rfl⟩, fun P C H _ => H⟩
  | (t, a) :: as, s, S, hf => by
    obtain ⟨s1, h1, S1, n1, q1, r1⟩ := step_all S t a (fun s' h => hf [(t, a)] s' (List.prefix_iff_eq_take.2 rfl) (by rw [run_cons' h]; rfl))
    obtain ⟨s2, h2, S2, n2, ⟨sc, q2, q3⟩, r2⟩ := run_all as S1 (fun pre s' hp hr => by
      rw [n1]
      exact hf ((t, a) :: pre) s' (List.prefix_cons_inj _ |>.2 hp) (by rw [run_cons' h1, hr]))
    refine ⟨s2, by rw [run_cons' h1, h2], S2, n2.trans n1, ?_, fun P C H hU => r2 P C (r1 P C H ?_ ?_) ⟨?_, ?_⟩⟩
    · rcases q1 with q1 | q1
      · rw [q1] at q3
        exact ⟨sc, q2.cons _, q3⟩
      · exact ⟨(t, a) :: sc, q2.cons₂ _, by rw [run_cons q1, q3]⟩
    · intro v e
      exact hU.1 t v (by rw [e]; exact List.mem_cons_self)
    · intro e
      exact hU.2 t (by rw [e]; exact List.mem_cons_self)
    · exact fun t v h => hU.1 t v (List.mem_cons_of_mem _ h)
    · exact fun t h => hU.2 t (List.mem_cons_of_mem _ h)

theorem start_all {n j : Nat} (d0 : α) (k : BitVec 64) (h2 : 2 ≤ n) (hk : n = 2 ^ j) (hn : n < 2 ^ 63) (sched : List (Nat × Act α)) (hf : Fits n d0 k sched) :
    ∃ s, start n d0 k sched = .ok s ∧ SInv k s ∧ s.q.n = n ∧ (∃ sched', sched'.Sublist sched ∧ Mpmc.start n d0 sched' = .ok s.q) ∧
      ∀ P C, Uses P C sched → SRoles P C s := by
  obtain ⟨q, h0, I0, n0, Q0, e0, d0', r0⟩ := init_ok d0 h2 hk hn
  have hinit : init n d0 k = .ok { q := q, size := k, owed := [] } := by unfold init; rw [h0, R.ok_bind]
  have S0 : SInv k ({ q := q, size := k, owed := [] } : State α) := by
    refine ⟨I0, (fun x hx => by cases hx), List.nodup_nil, fun x hx => (by cases hx), ?_, Nat.zero_le _, Nat.zero_le _⟩
    change k = k + BitVec.ofInt 64 ((pubs q : Int) - dones q - debt [])
    unfold pubs dones
    rw [e0, d0']
    exact (BitVec.add_zero k).symm
  obtain ⟨s, hs, S, nn, ⟨sc, q1, q2⟩, RR⟩ := run_all sched S0 (fun pre s' hp hr => by
    change s'.q.enqLog.length + q.n < 2 ^ 63
    rw [n0]
    exact hf pre s' hp (by unfold start; rw [hinit, R.ok_bind, hr]))
  refine ⟨s, by unfold start; rw [hinit, R.ok_bind, hs], S, nn.trans n0, ⟨sc, q1, by unfold Mpmc.start; rw [h0, R.ok_bind, q2]⟩, fun P C hU => RR P C ⟨⟨?_, ?_, ?_⟩, fun x hx => (by cases hx)⟩ hU⟩
  · change ∀ e ∈ q.enqLog, _
    rw [e0]; intro e he; cases he
  · change ∀ e ∈ q.deqLog, _
    rw [d0']; intro e he; cases he
  · intro t
    change Role P C t (q.threads t).pc
    rw [Q0 t]; trivial

/-! ### counting -/

theorem length_le_of_nodup : ∀ {l P : List Nat}, l.Nodup → (∀ x ∈ l, x ∈ P) → l.length ≤ P.length
  | [], _, _, _ => Nat.zero_le _
  | x :: l, P, hn, h => by
    rw [List.nodup_cons] at hn
    have hx := h x List.mem_cons_self
    have := length_le_of_nodup (P := P.erase x) hn.2 (fun y hy => (List.mem_erase_of_ne (fun e => hn.1 (by rw [← e]; exact hy))).2 (h y (List.mem_cons_of_mem _ hy)))
    rw [List.length_erase_of_mem hx] at this
    have : 0 < P.length := List.length_pos_of_mem hx
    rw [List.length_cons]
    omega

/-- The threads whose enqueue has a position and is not finished. -/
def unfinishedE (s : State α) : List Nat := (s.q.enqLog.filter (fun e => !isPub e)).map (·.thread) ++ (s.owed.filter (fun x => x.2 == 1)).map (·.1)
/-- The threads whose dequeue has a position and is not finished. -/
def unfinishedD (s : State α) : List Nat := (s.q.deqLog.filter (fun e => !isDone e)).map (·.thread) ++ (s.owed.filter (fun x => x.2 == -1)).map (·.1)

theorem pcE {s : Mpmc.State α} (I : Inv s) {p : Nat} {e : EnqE α} (h : s.enqLog[p]? = some e) (hp : isPub e = false) :
    (∃ v, (s.threads e.thread).pc = .eWrite v p p) ∨ (s.threads e.thread).pc = .ePub p p := by
  obtain ⟨h1, h2⟩ := I.ownE p e h
  unfold isPub at hp
  cases hs : e.stage with
  | claimed => exact .inl ⟨_, h1 hs⟩
  | written => exact .inr (h2 hs)
  | published => rw [hs] at hp; cases hp

theorem pcD {s : Mpmc.State α} (I : Inv s) {p : Nat} {e : DeqE α} (h : s.deqLog[p]? = some e) (hp : isDone e = false) :
    (s.threads e.thread).pc = .dRead p p ∨ ∃ v, (s.threads e.thread).pc = .dRel p p v := by
  obtain ⟨h1, h2⟩ := I.ownD p e h
  unfold isDone at hp
  cases hs : e.stage with
  | claimed => exact .inl (h1 hs)
  | read v => exact .inr ⟨v, h2 v hs⟩
  | done v => rw [hs] at hp; cases hp

theorem nodupE {k : BitVec 64} {s : State α} (S : SInv k s) : (unfinishedE s).Nodup := by
  unfold unfinishedE
  rw [List.nodup_append]
  refine ⟨?_, S.nodup.sublist ((List.filter_sublist).map _), ?_⟩
  · unfold List.Nodup
    rw [List.pairwise_map, List.pairwise_filter, List.pairwise_iff_getElem]
    intro i j hi hj hij h1 h2 e
    rw [Bool.not_eq_true'] at h1 h2
    have a := pcE S.inv (List.getElem?_eq_getElem hi) h1
    have b := pcE S.inv (List.getElem?_eq_getElem hj) h2
    rw [e] at a
    have : i = j := by
      rcases a with ⟨v, a⟩ | a <;> rcases b with ⟨w, b⟩ | b <;> rw [a] at b
      · injection b
      · cases b
      · cases b
      · injection b
    omega
  · intro x hx y hy hxy
    obtain ⟨e, he, rfl⟩ := List.mem_map.1 hx
    obtain ⟨o, ho, hoy⟩ := List.mem_map.1 hy
    rw [List.mem_filter] at he ho
    obtain ⟨i, hi, hei⟩ := List.getElem_of_mem he.1
    have a := pcE S.inv (List.getElem?_eq_some_iff.2 ⟨hi, hei⟩) (by simpa using he.2)
    have b := S.idle o ho.1
    rw [hoy, ← hxy] at b
    rcases a with ⟨v, a⟩ | a <;> rw [a] at b <;> cases b

theorem nodupD {k : BitVec 64} {s : State α} (S : SInv k s) : (unfinishedD s).Nodup := by
  unfold unfinishedD
  rw [List.nodup_append]
  refine ⟨?_, S.nodup.sublist ((List.filter_sublist).map _), ?_⟩
  · unfold List.Nodup
    rw [List.pairwise_map, List.pairwise_filter, List.pairwise_iff_getElem]
    intro i j hi hj hij h1 h2 e
    rw [Bool.not_eq_true'] at h1 h2
    have a := pcD S.inv (List.getElem?_eq_getElem hi) h1
    have b := pcD S.inv (List.getElem?_eq_getElem hj) h2
    rw [e] at a
    have : i = j := by
      rcases a with a | ⟨v, a⟩ <;> rcases b with b | ⟨w, b⟩ <;> rw [a] at b
      · injection b
      · cases b
      · cases b
      · injection b
    omega
  · intro x hx y hy hxy
    obtain ⟨e, he, rfl⟩ := List.mem_map.1 hx
    obtain ⟨o, ho, hoy⟩ := List.mem_map.1 hy
    rw [List.mem_filter] at he ho
    obtain ⟨i, hi, hei⟩ := List.getElem_of_mem he.1
    have a := pcD S.inv (List.getElem?_eq_some_iff.2 ⟨hi, hei⟩) (by simpa using he.2)
    have b := S.idle o ho.1
    rw [hoy, ← hxy] at b
    rcases a with a | ⟨v, a⟩ <;> rw [a] at b <;> cases b

theorem debt_counts : ∀ (l : List (Nat × Int)), (∀ x ∈ l, x.2 = 1 ∨ x.2 = -1) → debt l = (owedE l : Int) - owedD l
  | [], _ => rfl
  | x :: l, h => by
    have ih := debt_counts l (fun y hy => h y (List.mem_cons_of_mem _ hy))
    unfold debt owedE owedD at ih ⊢
    rw [List.map_cons, List.sum_cons, ih]
    rcases h x List.mem_cons_self with e | e
    · rw [List.countP_cons_of_pos (by rw [e]; rfl), List.countP_cons_of_neg (by rw [e]; decide), e]
      omega
    · rw [List.countP_cons_of_neg (by rw [e]; decide), List.countP_cons_of_pos (by rw [e]; rfl), e]
      omega

theorem lengthE (s : State α) : (unfinishedE s).length + pubs s.q = s.q.enqLog.length + owedE s.owed := by
  unfold unfinishedE pubs owedE
  rw [List.length_append, List.length_map, List.length_map, ← List.countP_eq_length_filter, ← List.countP_eq_length_filter,
    List.length_eq_countP_add_countP isPub (l := s.q.enqLog)]
  have : s.q.enqLog.countP (fun e => !isPub e) = s.q.enqLog.countP (fun e => decide ¬ isPub e = true) := by
    congr 1; funext e; cases isPub e <;> rfl
  omega

theorem lengthD (s : State α) : (unfinishedD s).length + dones s.q = s.q.deqLog.length + owedD s.owed := by
  unfold unfinishedD dones owedD
  rw [List.length_append, List.length_map, List.length_map, ← List.countP_eq_length_filter, ← List.countP_eq_length_filter,
    List.length_eq_countP_add_countP isDone (l := s.q.deqLog)]
  have : s.q.deqLog.countP (fun e => !isDone e) = s.q.deqLog.countP (fun e => decide ¬ isDone e = true) := by
    congr 1; funext e; cases isDone e <;> rfl
  omega

/-- The reported size of a queue that counts from zero: the number of stored values, less the enqueues and more the dequeues that are not finished. -/
theorem size_eq {s : State α} (S : SInv 0 s) : approximateSize s = (content s.q).length - (unfinishedE s).length + (unfinishedD s).length := by
  have hle := S.inv.core.le
  have hsm := S.inv.core.small
  have h1 := lengthE s
  have h2 := lengthD s
  have h3 := S.cE
  have h4 := S.cD
  have h5 : pubs s.q ≤ s.q.enqLog.length := List.countP_le_length
  have h6 : dones s.q ≤ s.q.deqLog.length := List.countP_le_length
  unfold approximateSize
  rw [S.size, show (0 : BitVec 64) = 0#64 from rfl, BitVec.zero_add, BitVec.toInt_ofInt, debt_counts _ S.vals, content_length]
  rw [Int.bmod_eq_of_le (by omega) (by omega)]
  omega

theorem quiet_nil {k : BitVec 64} {s : State α} (S : SInv k s) (hq : Quiescent s) : unfinishedE s = [] ∧ unfinishedD s = [] := by
  have hE : unfinishedE s = [] := by
    unfold unfinishedE
    rw [hq.2]
    refine List.append_eq_nil_iff.2 ⟨?_, rfl⟩
    rw [List.map_eq_nil_iff, List.filter_eq_nil_iff]
    intro e he hp
    obtain ⟨i, hi, hei⟩ := List.getElem_of_mem he
    have a := pcE S.inv (List.getElem?_eq_some_iff.2 ⟨hi, hei⟩) (by simpa using hp)
    rw [hq.1] at a
    rcases a with ⟨v, a⟩ | a <;> cases a
  have hD : unfinishedD s = [] := by
    unfold unfinishedD
    rw [hq.2]
    refine List.append_eq_nil_iff.2 ⟨?_, rfl⟩
    rw [List.map_eq_nil_iff, List.filter_eq_nil_iff]
    intro e he hp
    obtain ⟨i, hi, hei⟩ := List.getElem_of_mem he
    have a := pcD S.inv (List.getElem?_eq_some_iff.2 ⟨hi, hei⟩) (by simpa using hp)
    rw [hq.1] at a
    rcases a with a | ⟨v, a⟩ <;> cases a
  exact ⟨hE, hD⟩

/-! ### theorems -/

/-- **C126** Counting does not change the queue: what it does, it does without the counter as well. -/
theorem C126_same_queue [DecidableEq α] {n j : Nat} (d0 : α) (k : BitVec 64) (h2 : 2 ≤ n) (hk : n = 2 ^ j) (hn : n < 2 ^ 63) (sched : List (Nat × Act α))
    (hf : Fits n d0 k sched) : ∃ s sched', start n d0 k sched = .ok s ∧ sched'.Sublist sched ∧ Mpmc.start n d0 sched' = .ok s.q := by
  obtain ⟨s, h1, _, _, ⟨sc, h3, h4⟩, _⟩ := start_all d0 k h2 hk hn sched hf
  exact ⟨s, sc, h1, h3, h4⟩

/-- **C126**, the part that holds: a queue that was initialized once reports, whenever no call is running, exactly the number of stored values. -/
theorem C126_exact_partial {n j : Nat} (d0 : α) (h2 : 2 ≤ n) (hk : n = 2 ^ j) (hn : n < 2 ^ 63) (sched : List (Nat × Act α)) (hf : Fits n d0 0 sched)
    {s : State α} (hs : start n d0 0 sched = .ok s) (hq : Quiescent s) : approximateSize s = (content s.q).length := by
  obtain ⟨s', h1, S, _⟩ := start_all d0 0 h2 hk hn sched hf
  rw [hs] at h1
  cases h1
  rw [size_eq S]
  obtain ⟨hE, hD⟩ := quiet_nil S hq
  rw [hE, hD]
  simp

/-- **C126** At any moment the reported size is at most the number of threads that enqueue too small, and at most the number of threads that dequeue
too big. -/
theorem C126_error {n j : Nat} (d0 : α) (h2 : 2 ≤ n) (hk : n = 2 ^ j) (hn : n < 2 ^ 63) (sched : List (Nat × Act α)) (hf : Fits n d0 0 sched)
    (P C : List Nat) (hU : Uses P C sched) :
    ∃ s, start n d0 0 sched = .ok s ∧ ((content s.q).length : Int) - P.length ≤ approximateSize s ∧ approximateSize s ≤ (content s.q).length + C.length := by
  obtain ⟨s, h1, S, _, _, R⟩ := start_all d0 0 h2 hk hn sched hf
  have H := R P C hU
  have hE : (unfinishedE s).length ≤ P.length := length_le_of_nodup (nodupE S) (fun x hx => by
    rcases List.mem_append.1 hx with h | h
    · obtain ⟨e, he, rfl⟩ := List.mem_map.1 h
      exact H.roles.enq e (List.mem_filter.1 he).1
    · obtain ⟨o, ho, rfl⟩ := List.mem_map.1 h
      exact (H.owed o (List.mem_filter.1 ho).1).1 (by simpa using (List.mem_filter.1 ho).2))
  have hD : (unfinishedD s).length ≤ C.length := length_le_of_nodup (nodupD S) (fun x hx => by
    rcases List.mem_append.1 hx with h | h
    · obtain ⟨e, he, rfl⟩ := List.mem_map.1 h
      exact H.roles.deq e (List.mem_filter.1 he).1
    · obtain ⟨o, ho, rfl⟩ := List.mem_map.1 h
      exact (H.owed o (List.mem_filter.1 ho).1).2 (by simpa using (List.mem_filter.1 ho).2))
  refine ⟨s, h1, ?_, ?_⟩ <;> rw [size_eq S] <;> omega

/-- **C126** `initialize` does not reset the counter: a queue initialized when the counter was `k` reports, whenever no call is running, the number of
stored values and `k` more (modulo `2^64`), for ever. -/
theorem C126_initialized_again {n j : Nat} (d0 : α) (k : BitVec 64) (h2 : 2 ≤ n) (hk : n = 2 ^ j) (hn : n < 2 ^ 63) (sched : List (Nat × Act α))
    (hf : Fits n d0 k sched) {s : State α} (hs : start n d0 k sched = .ok s) (hq : Quiescent s) :
    s.size = k + BitVec.ofNat 64 (content s.q).length ∧ (approximateSize s = (content s.q).length ↔ k = 0) := by
  obtain ⟨s', h1, S, _⟩ := start_all d0 k h2 hk hn sched hf
  rw [hs] at h1
  cases h1
  obtain ⟨hE, hD⟩ := quiet_nil S hq
  have hle := S.inv.core.le
  have hsm := S.inv.core.small
  have l1 := lengthE s
  have l2 := lengthD s
  rw [hE] at l1
  rw [hD] at l2
  have ho : s.owed = [] := hq.2
  rw [ho] at l1 l2
  have e : s.size = k + BitVec.ofNat 64 (content s.q).length := by
    rw [S.size, ho, content_length, show BitVec.ofNat 64 (s.q.enqLog.length - s.q.deqLog.length) = BitVec.ofInt 64 ((s.q.enqLog.length - s.q.deqLog.length : Nat) : Int) from
      (BitVec.ofInt_natCast 64 _).symm]
    congr 2
    unfold debt
    unfold owedE at l1
    unfold owedD at l2
    simp only [List.length_nil, List.countP_nil, List.map_nil, List.sum_nil] at l1 l2 ⊢
    omega
  refine ⟨e, ?_, ?_⟩
  · intro h
    have hc : (BitVec.ofNat 64 (content s.q).length).toInt = (content s.q).length := by
      rw [content_length, ← BitVec.ofInt_natCast, BitVec.toInt_ofInt, Int.bmod_eq_of_le (by omega) (by omega)]
    have h' : s.size = BitVec.ofNat 64 (content s.q).length := BitVec.eq_of_toInt_eq (by rw [hc]; exact h)
    rw [h'] at e
    have h3 : BitVec.ofNat 64 (content s.q).length - BitVec.ofNat 64 (content s.q).length = k := by
      rw [show BitVec.ofNat 64 (content s.q).length - BitVec.ofNat 64 (content s.q).length
        = (k + BitVec.ofNat 64 (content s.q).length) - BitVec.ofNat 64 (content s.q).length from congrArg (· - _) e]
      exact BitVec.add_sub_cancel _ _
    rw [BitVec.sub_self] at h3
    exact h3.symm
  · intro h
    subst h
    unfold approximateSize
    rw [e, show (0 : BitVec 64) = 0#64 from rfl, BitVec.zero_add, content_length, ← BitVec.ofInt_natCast, BitVec.toInt_ofInt, Int.bmod_eq_of_le (by omega) (by omega)]

/-- The length of the schedule bounds the positions: the hypothesis of the theorems is met by every schedule of fewer than `2^63 - n` steps. -/
theorem C126_fits {n j : Nat} (d0 : α) (k : BitVec 64) (h2 : 2 ≤ n) (hk : n = 2 ^ j) (sched : List (Nat × Act α)) (hl : sched.length + n < 2 ^ 63) : Fits n d0 k sched := by
  obtain ⟨q, h0, I0, n0, Q0, e0, d0', r0⟩ := init_ok d0 h2 hk (by omega)
  have hinit : init n d0 k = .ok { q := q, size := k, owed := [] } := by unfold init; rw [h0, R.ok_bind]
  have key : ∀ (as : List (Nat × Act α)) (s s' : State α), Inv s.q → s.q.enqLog.length + as.length + s.q.n < 2 ^ 63 → run s as = .ok s' →
      s'.q.enqLog.length ≤ s.q.enqLog.length + as.length := by
    intro as
    induction as with
    | nil => intro s s' _ _ h; cases h; exact Nat.le_refl _
    | cons x as ih =>
      intro s s' I hb h
      obtain ⟨t, a⟩ := x
      rw [List.length_cons] at hb ⊢
      have h' : (step s t a >>= fun s => run s as) = .ok s' := h
      rw [R.bind_eq_ok] at h'
      obtain ⟨s1, g1, g2⟩ := h'
      have g3 : Inv s1.q ∧ s1.q.enqLog.length ≤ s.q.enqLog.length + 1 ∧ s1.q.n = s.q.n := by
        unfold step at g1
        split at g1
        · unfold stepQueue at g1
          rw [R.bind_eq_ok] at g1
          obtain ⟨q1, g4, g5⟩ := g1
          cases g5
          obtain ⟨q2, g6, I2⟩ := step_ok I t a (fun q2 g6 => by
            have := (step_n I g6).2
            omega)
          rw [g4] at g6
          cases g6
          exact ⟨I2, (step_n I g4).2, (step_n I g4).1⟩
        · split at g1 <;> cases g1 <;> exact ⟨I, Nat.le_succ _, rfl⟩
      have := ih s1 s' g3.1 (by rw [g3.2.2]; omega) g2
      omega
  intro pre s hp hs
  unfold start at hs
  rw [hinit, R.ok_bind] at hs
  have hpl := hp.length_le
  have := key pre _ s I0 (by show q.enqLog.length + pre.length + q.n < 2 ^ 63; rw [e0, n0]; simp only [List.length_nil]; omega) hs
  change s.q.enqLog.length ≤ q.enqLog.length + pre.length at this
  rw [e0] at this
  simp only [List.length_nil] at this
  omega

/-- A call of `enqueue` up to the store of the sequence number. -/
def almostEnqueue (t v : Nat) : List (Nat × Act Nat) := Mpmc.Spec.soloEnqueue t v
/-- A call of `dequeue` up to the store of the sequence number. -/
def almostDequeue (t : Nat) : List (Nat × Act Nat) := Mpmc.Spec.soloDequeue t

/-- **C126** The reported size can be negative: the consumer subtracts before the producer adds … -/
theorem C126_negative : (start 2 0 0 (almostEnqueue 0 10 ++ almostDequeue 1 ++ [(1, .go 0)])).map (fun s => (approximateSize s, content s.q)) = .ok (-1, []) := by
  decide +kernel

/-- **C126** … and bigger than the capacity: a producer fills the cell before the consumer that emptied it subtracts. -/
theorem C126_above_capacity :
    (start 2 0 0 (almostEnqueue 0 10 ++ [(0, .go 0)] ++ almostEnqueue 0 20 ++ [(0, .go 0)] ++ almostDequeue 1 ++ almostEnqueue 0 30 ++ [(0, .go 0)])).map
      (fun s => (approximateSize s, content s.q)) = .ok (3, [20, 30]) := by
  decide +kernel

/-- **C126** The property fails as stated: one value is enqueued, then the queue is initialized again; it is empty and reports 1. -/
theorem C126_wrong_after_initialize :
    (start 2 0 0 (almostEnqueue 0 10 ++ [(0, .go 0)])).map (·.size) = .ok 1#64 ∧
    (start 2 0 1#64 []).map (fun s => (approximateSize s, content s.q)) = .ok (1, ([] : List Nat)) := by
  decide +kernel

/-! ### examples -/

/-- Two producers and a consumer. -/
def demo : List (Nat × Act Nat) :=
  almostEnqueue 0 10 ++ almostEnqueue 1 20 ++ [(1, .go 0)] ++ almostDequeue 2 ++ [(0, .go 0), (2, .go 0)]

example : ∃ s, start 4 0 0 (demo.take 13) = .ok s ∧ ((content s.q).length : Int) - 2 ≤ approximateSize s ∧ approximateSize s ≤ (content s.q).length + 1 :=
  C126_error (j := 2) 0 (by decide) rfl (by decide) _ (C126_fits (j := 2) 0 0 (by decide) rfl _ (by decide)) [0, 1] [2]
    ⟨by intro t v h; simp [demo, almostEnqueue, almostDequeue, Mpmc.Spec.soloEnqueue, Mpmc.Spec.soloDequeue] at h; rcases h with h | h <;> rw [h.1] <;> decide,
     by intro t h; simp [demo, almostEnqueue, almostDequeue, Mpmc.Spec.soloEnqueue, Mpmc.Spec.soloDequeue] at h⟩

/-- One value is left, and the size is 1; in between it was 1 with two values stored. -/
example : (start 4 0 0 demo).map (fun s => (approximateSize s, content s.q, s.owed)) = .ok (1, [20], []) ∧
    (start 4 0 0 (demo.take 13)).map (fun s => (approximateSize s, content s.q, s.owed)) = .ok (1, [10, 20], [(0, 1)]) := by decide +kernel

end Verif.Mpmc.Size
