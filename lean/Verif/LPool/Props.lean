import Verif.LPool.Steps

/-!
Properties of `cc::atomic_linked_pool`: C28 (no slot is handed out twice), C29 (stale handles) and C30 (initialisation).
-/
namespace Verif.LPool
open Spec

variable {α : Type}

/-! ## C30 -/

/-- **C30** is false: `initialize` writes one entry behind its free list, for every capacity that it accepts. -/
theorem C30_init_overflows (size : Nat) (h1 : 1 < size) (h2 : size ≤ 2 ^ 16 - 1) : (init size 0 : R (State α)) = .error .ub := by
  unfold init initFreeList
  rw [ccAssert_true (decide_eq_true h2)]
  simp only [R.ok_bind]
  rw [ccAssert_true (decide_eq_true h1)]
  simp only [R.ok_bind]
  rw [if_neg (by omega)]
  rfl

/-- **C30**: the other capacities are refused by an assertion. -/
theorem C30_init_refuses (size slack : Nat) (h : size ≤ 1 ∨ 2 ^ 16 - 1 < size) : (init size slack : R (State α)) = .error .assert := by
  unfold init
  by_cases h2 : size ≤ 2 ^ 16 - 1
  · rw [ccAssert_true (decide_eq_true h2)]
    simp only [R.ok_bind]
    rw [ccAssert_false (decide_eq_false (by omega))]
    rfl
  · rw [ccAssert_false (decide_eq_false h2)]
    rfl

theorem chain_init {size : Nat} : ∀ (k i : Nat), i + k = size → 0 < k →
    Chain (fun i => if i + 1 < size then (i : Int) + 1 else -1) i (List.range' i k)
  | 0, _, _, h => absurd h (by omega)
  | 1, i, e, _ => ⟨rfl, by
      simp only [List.range'_zero]
      rw [if_neg (by omega)]
      rfl⟩
  | k + 2, i, e, _ => by
      rw [List.range'_succ]
      refine ⟨rfl, ?_⟩
      have := chain_init (size := size) (k + 1) (i + 1) (by omega) (by omega)
      simp only
      rw [if_pos (by omega)]
      exact this

/-- The fresh pool. -/
theorem init_ok {size slack : Nat} (h1 : 1 < size) (h2 : size ≤ 2 ^ 16 - 1) (h3 : 1 ≤ slack) :
    ∃ s : State α, init size slack = .ok s ∧ Inv s (List.range size) (fun _ => .free) ∧ s.n = size ∧ Quiescent s ∧ s.given = [] ∧ s.head.ver = 1 ∧ s.log = [] := by
  unfold init initFreeList
  rw [ccAssert_true (decide_eq_true h2)]
  simp only [R.ok_bind]
  rw [ccAssert_true (decide_eq_true h1)]
  simp only [R.ok_bind]
  rw [if_pos (by omega)]
  simp only [R.ok_bind]
  refine ⟨_, rfl, ⟨⟨h1, by omega, by simp only; omega, ?_, List.nodup_range, ?_, fun _ _ => rfl⟩, ?_, ?_, ?_, ?_⟩, rfl, fun _ => rfl, rfl, rfl, rfl⟩
  · rw [List.range_eq_range']
    exact chain_init size 0 (by omega) (by omega)
  · intro j
    rw [List.mem_range]
    exact ⟨fun h => ⟨h, rfl⟩, fun h => h.1⟩
  · refine ⟨fun _ _ => Nat.le_refl _, fun _ _ _ => rfl, fun _ _ => rfl, ?_⟩
    intro h hh j
    simp only [List.mem_singleton] at hh
    rw [hh]
    exact Nat.le_refl _
  · refine ⟨?_, ?_, ?_, ?_, ?_, ?_⟩
    · intro g hg; cases hg
    · exact List.nodup_nil
    · intro j t h; cases h
    · intro j t; exact ⟨fun h => (by cases h), fun h => by cases h⟩
    · intro j h; cases h
    · intro t j h; cases h
  · refine ⟨?_, fun _ => trivial⟩
    intro h hh
    simp only [List.mem_singleton] at hh
    rw [hh]
    exact ⟨Nat.le_refl _, fun _ => rfl, Or.inr ⟨by simp, by simp only; omega⟩⟩
  · exact ⟨fun j => rfl, trivial⟩

/-- **C30** (partial): with one usable entry behind the free list the initialisation writes only there; it then makes an empty pool. Missing: the allocation as
it is requested has no such entry. -/
theorem C30_init_partial (size slack : Nat) (h1 : 1 < size) (h2 : size ≤ 2 ^ 16 - 1) (h3 : 1 ≤ slack) :
    ∃ s : State α, init size slack = .ok s ∧ s.given = [] ∧ s.n = size := by
  obtain ⟨s, h, _, hn, _, hg, _⟩ := init_ok (α := α) h1 h2 h3
  exact ⟨s, h, hg, hn⟩

/-! ## C28 -/

theorem run_ok {d0 : α} : ∀ (sched : List (Nat × Act α)) {s : State α} {fl : List Nat} {φ : Nat → Own}, Inv s fl φ → Proper s d0 sched →
    (∃ s' fl' φ', run s d0 sched = .ok s' ∧ Inv s' fl' φ' ∧ s'.n = s.n) ∨ run s d0 sched = .error .assert
  | [], s, fl, φ, I, _ => Or.inl ⟨s, fl, φ, rfl, I, rfl⟩
  | (t, a) :: as, s, fl, φ, I, hp => by
    simp only [run]
    rcases I.step d0 t a hp.1 hp.2.1 with ⟨s1, fl1, φ1, e, I1, hn⟩ | ⟨e, _⟩
    · rw [e]
      simp only [R.ok_bind]
      rcases run_ok as I1 (hp.2.2 s1 e) with ⟨s2, fl2, φ2, e2, I2, hn2⟩ | e2
      · exact Or.inl ⟨s2, fl2, φ2, e2, I2, hn2.trans hn⟩
      · exact Or.inr e2
    · rw [e]
      exact Or.inr rfl

theorem Inv.disjoint {s : State α} {fl : List Nat} {φ : Nat → Own} (I : Inv s fl φ) : Disjoint s := by
  refine ⟨I.objs.givn, ?_, fun g hg => (I.objs.giv g hg).2.2, ?_, ?_⟩
  · intro g hg
    exact (I.has ⟨g, hg, rfl, rfl⟩).2.1
  · intro g hg
    have h := I.has ⟨g, hg, rfl, rfl⟩
    have := isAlive_mk (s := s) (s.gen (slot g.handle)) h.2.1 I.shape.n2
    rw [← h.2.2.1] at this
    rw [this]
    simp
  · intro i hi
    rcases I.objs.some i hi with ⟨t, h⟩ | ⟨t, h, _⟩
    · exact Or.inl (I.objs.held i t h)
    · exact Or.inr ⟨t, (I.objs.busy i t).mp h⟩

/-- **C28**: whatever the threads do, live handles designate different slots, each with an object of its own that nobody else changes, and nothing undefined
happens; the only failure is the assertion in `acquire`. -/
theorem C28_no_double_allocation {size slack : Nat} (h1 : 1 < size) (h2 : size ≤ 2 ^ 16 - 1) (h3 : 1 ≤ slack) {s0 : State α} (h0 : init size slack = .ok s0)
    (d0 : α) (sched : List (Nat × Act α)) (hp : Proper s0 d0 sched) :
    (∃ s, run s0 d0 sched = .ok s ∧ Disjoint s ∧ s.n = size) ∨ run s0 d0 sched = .error .assert := by
  obtain ⟨s, h, I, hn, _⟩ := init_ok (α := α) h1 h2 h3
  rw [h0] at h
  cases h
  rcases run_ok sched I hp with ⟨s', fl', φ', e, I', hn'⟩ | e
  · exact Or.inl ⟨s', e, I'.disjoint, hn'.trans hn⟩
  · exact Or.inr e

/-- A state that the pool can get into. -/
def Reach (size : Nat) (d0 : α) (s : State α) : Prop :=
  ∃ slack s0 sched, 1 < size ∧ size ≤ 2 ^ 16 - 1 ∧ 1 ≤ slack ∧ init size slack = .ok s0 ∧ Proper s0 d0 sched ∧ run s0 d0 sched = .ok s

theorem Reach.inv {size : Nat} {d0 : α} {s : State α} (h : Reach size d0 s) : ∃ fl φ, Inv s fl φ ∧ s.n = size := by
  obtain ⟨slack, s0, sched, h1, h2, h3, h0, hp, hr⟩ := h
  obtain ⟨s', h, I, hn, _⟩ := init_ok (α := α) h1 h2 h3
  rw [h0] at h
  cases h
  rcases run_ok sched I hp with ⟨s1, fl', φ', e, I', hn'⟩ | e
  · rw [hr] at e
    cases e
    exact ⟨fl', φ', I', hn'.trans hn⟩
  · rw [hr] at e
    cases e

theorem Inv.inUse {s : State α} {fl : List Nat} {φ : Nat → Own} (I : Inv s fl φ) {i : Nat} (hi : i < s.n) (hf : i ∉ fl) : InUse s i := by
  cases h : φ i with
  | free => exact absurd ((I.shape.free i).mpr ⟨hi, h⟩) hf
  | held t => exact Or.inl (I.objs.held i t h)
  | busy t => exact Or.inr ⟨t, (I.objs.busy i t).mp h⟩

/-- **C28**: the assertion in `acquire` fails only when all slots are in use (provided that the value it read is the newest one). -/
theorem C28_refuses_only_when_full {size : Nat} {d0 : α} {s : State α} (h : Reach size d0 s) (hf : Fresh s) (t : Nat)
    (he : step s d0 t (.go 0) = .error .assert) : ∀ i, i < size → InUse s i := by
  obtain ⟨fl, φ, I, hn⟩ := h.inv
  subst hn
  intro i hi
  rcases I.step d0 t (.go 0) trivial hf with ⟨s1, fl1, φ1, e, _⟩ | ⟨_, hfl⟩
  · rw [he] at e; cases e
  · exact I.inUse hi (by rw [hfl rfl]; simp)

/-- **C28**: what is read through a handle is what was last written through it, whatever other threads did since. -/
theorem C28_private {size : Nat} {d0 : α} {s : State α} (h : Reach size d0 s) {t : Nat} (ht : (s.threads t).pc = .idle) {g : Given α} (hg : g ∈ s.given) (hgt : g.thread = t) :
    ∃ s', step s d0 t (.read g.handle) = .ok s' ∧ s'.reads = (t, g.val) :: s.reads := by
  obtain ⟨fl, φ, I, hn⟩ := h.inv
  obtain ⟨s', h1, _, _, h2⟩ := I.read ht hg hgt
  refine ⟨s', ?_, h2⟩
  unfold step
  simp only [if_pos ht]
  exact h1

/-! ### capacity -/

theorem Inv.count {s : State α} {fl : List Nat} {φ : Nat → Own} (I : Inv s fl φ) (hq : Quiescent s) : fl.length + s.given.length = s.n := by
  have hnb : ∀ j t, φ j ≠ .busy t := by
    intro j t h
    have := (I.objs.busy j t).mp h
    simp only [hq t] at this
    cases this
  have hp : (fl ++ s.given.map (fun g => slot g.handle)).Perm (List.range s.n) := by
    rw [List.perm_ext_iff_of_nodup]
    · intro j
      rw [List.mem_append, List.mem_range]
      constructor
      · intro h
        rcases h with h | h
        · exact ((I.shape.free j).mp h).1
        · obtain ⟨g, hg, rfl⟩ := List.mem_map.mp h
          exact (I.has ⟨g, hg, rfl, rfl⟩).2.1
      · intro h
        cases e : φ j with
        | free => exact Or.inl ((I.shape.free j).mpr ⟨h, e⟩)
        | held t =>
          obtain ⟨g, hg, eg⟩ := I.objs.held j t e
          exact Or.inr (List.mem_map.mpr ⟨g, hg, eg⟩)
        | busy t => exact absurd e (hnb j t)
    · rw [List.nodup_append]
      refine ⟨I.shape.nodup, I.objs.givn, ?_⟩
      intro a ha b hb e
      subst e
      obtain ⟨g, hg, eg⟩ := List.mem_map.mp hb
      have h1 := (I.objs.giv g hg).1
      rw [eg, ((I.shape.free a).mp ha).2] at h1
      cases h1
    · exact List.nodup_range
  have := hp.length_eq
  simp only [List.length_append, List.length_map, List.length_range] at this
  exact this

theorem goto_pc (s : State α) (t : Nat) (p : Pc) : ((s.goto t p).threads t).pc = p := congrArg Thread.pc (upd_same _ _ _)
theorem learn_pc (s : State α) (t : Nat) (m : Head) (p : Pc) : ((s.learn t m p).threads t).pc = p := congrArg Thread.pc (upd_same _ _ _)
theorem goto_other (s : State α) {t u : Nat} (p : Pc) (h : u ≠ t) : ((s.goto t p).threads u).pc = (s.threads u).pc := congrArg Thread.pc (upd_ne _ _ h)
theorem learn_other (s : State α) {t u : Nat} (m : Head) (p : Pc) (h : u ≠ t) : ((s.learn t m p).threads u).pc = (s.threads u).pc := congrArg Thread.pc (upd_ne _ _ h)

theorem go_step {s : State α} {d0 : α} {t c : Nat} {p : Pc} (h : (s.threads t).pc = p) : step s d0 t (.go c) = advance s d0 t c p := by
  unfold step
  rw [h]

theorem soloAcquire_ok {s : State α} {fl : List Nat} {φ : Nat → Own} (I : Inv s fl φ) (d0 : α) (t : Nat) (ht : (s.threads t).pc = .idle) :
    (fl = [] → run s d0 (soloAcquire t) = .error .assert) ∧
    (fl ≠ [] → ∃ s' fl' φ' i, run s d0 (soloAcquire t) = .ok s' ∧ Inv s' fl' φ' ∧ s'.n = s.n ∧ (s'.threads t).pc = .idle ∧ (∀ u, u ≠ t → (s'.threads u).pc = (s.threads u).pc) ∧
      s'.given = { thread := t, handle := mkHandle i (s.gen i), val := d0 } :: s.given ∧ i ∈ fl) := by
  have I1 : Inv (s.goto t .aLoad) fl φ := I.goto t .aLoad (by rw [ht]; rfl) (fun j => by rw [ht]; simp) (fun j => by simp) trivial
  have e1 : step s d0 t .acquire = .ok (s.goto t .aLoad) := by
    unfold step
    simp only [if_pos ht]
  have e2 : step (s.goto t .aLoad) d0 t (.go 0) = candidate (s.goto t .aLoad) t s.head := by
    rw [go_step (goto_pc s t _)]
    rfl
  constructor
  · intro h
    subst h
    have hx : s.head.idx = -1 := I.shape.chain
    simp only [run, Spec.soloAcquire, e1, R.ok_bind, e2]
    unfold candidate
    rw [ccAssert_false (by simp [hx])]
    rfl
  · intro h
    obtain ⟨i, l, rfl⟩ : ∃ i l, fl = i :: l := by
      cases fl with
      | nil => exact absurd rfl h
      | cons i l => exact ⟨i, l, rfl⟩
    have hx : s.head.idx = i := I.shape.chain.1
    have hin := (I.shape.free i).mp (by simp)
    have hcap := I.shape.capn
    -- the candidate
    have e3 : candidate (s.goto t .aLoad) t s.head = .ok ((s.goto t .aLoad).learn t s.head (.aNext s.head.idx s.head.ver)) := by
      unfold candidate
      rw [ccAssert_true (decide_eq_true (by rw [hx]; omega))]
      rfl
    have I2 := I1.learn t (m := s.head) (by simp [State.goto]) (.aNext s.head.idx s.head.ver) (by rw [goto_pc]; rfl) (fun j => by rw [goto_pc]; simp) (fun j => by simp)
      ⟨⟨Nat.le_refl _, fun _ => rfl, by rw [hx]; right; exact ⟨by omega, by simp only [State.goto]; omega⟩⟩, by rw [hx]; omega⟩
    generalize hs2 : (s.goto t .aLoad).learn t s.head (.aNext s.head.idx s.head.ver) = s2 at e3 I2
    have p2 : (s2.threads t).pc = .aNext s.head.idx s.head.ver := by rw [← hs2]; exact learn_pc _ _ _ _
    have q2 : ∀ u, u ≠ t → (s2.threads u).pc = (s.threads u).pc := fun u hu => by rw [← hs2, learn_other _ _ _ hu, goto_other _ _ hu]
    have f2 : s2.head = s.head ∧ s2.cap = s.cap ∧ s2.n = s.n ∧ s2.given = s.given ∧ s2.gen = s.gen := by rw [← hs2]; exact ⟨rfl, rfl, rfl, rfl, rfl⟩
    clear hs2
    -- the next index
    have e4 : step s2 d0 t (.go 0) = .ok (s2.goto t (.aCas s.head.idx s.head.ver (s2.next s.head.idx.toNat))) := by
      rw [go_step p2]
      change aNext s2 t _ _ = _
      unfold aNext
      rw [if_pos (by rw [f2.2.1, hx]; omega)]
    have I3 := I2.goto t (.aCas s.head.idx s.head.ver (s2.next s.head.idx.toNat)) (by rw [p2]; rfl) (fun j => by rw [p2]; simp) (fun j => by simp)
      ⟨⟨by rw [f2.1]; exact Nat.le_refl _, fun _ => by rw [f2.1], by rw [hx]; right; exact ⟨by omega, by rw [f2.2.2.1]; omega⟩⟩, by rw [hx]; omega, fun _ => rfl⟩
    generalize hs3 : s2.goto t (.aCas s.head.idx s.head.ver (s2.next s.head.idx.toNat)) = s3 at e4 I3
    have p3 : (s3.threads t).pc = .aCas s.head.idx s.head.ver (s2.next s.head.idx.toNat) := by rw [← hs3]; exact goto_pc _ _ _
    have q3 : ∀ u, u ≠ t → (s3.threads u).pc = (s.threads u).pc := fun u hu => by rw [← hs3, goto_other _ _ hu, q2 u hu]
    have f3 : s3.head = s.head ∧ s3.n = s.n ∧ s3.given = s.given ∧ s3.gen = s.gen := by rw [← hs3]; exact ⟨f2.1, f2.2.2⟩
    clear hs3
    -- the exchange
    have hsame : same s3 s.head.idx s.head.ver := ⟨by rw [f3.1], by rw [f3.1]⟩
    obtain ⟨i', l', hl', hx', I4⟩ := I3.aCasOk p3 (by rw [f3.1]; omega) hsame
    cases hl'
    have e5 : step s3 d0 t (.go 0) = .ok { s3.learn t s3.head (.aCtor s.head.idx.toNat) with head := { idx := s2.next s.head.idx.toNat, ver := s3.head.ver + 1, view := s3.head.view }, older := s3.head :: s3.older } := by
      rw [go_step p3]
      change aCas s3 t _ _ _ _ = _
      unfold aCas
      rw [if_pos rfl, if_pos hsame]
    generalize hs4 : ({ s3.learn t s3.head (.aCtor s.head.idx.toNat) with head := { idx := s2.next s.head.idx.toNat, ver := s3.head.ver + 1, view := s3.head.view }, older := s3.head :: s3.older } : State α) = s4 at e5 I4
    have hti : s.head.idx.toNat = i := by rw [hx]; rfl
    have p4 : (s4.threads t).pc = .aCtor i := by rw [← hs4, ← hti]; exact learn_pc _ _ _ _
    have q4 : ∀ u, u ≠ t → (s4.threads u).pc = (s.threads u).pc := fun u hu => by rw [← hs4]; exact (learn_other _ _ _ hu).trans (q3 u hu)
    have f4 : s4.n = s.n ∧ s4.given = s.given ∧ s4.gen = s.gen := by rw [← hs4]; exact f3.2
    clear hs4
    -- the object
    obtain ⟨e6, I6⟩ := I4.aCtor d0 p4
    refine ⟨_, _, _, i, ?_, I6, f4.1, congrArg Thread.pc (upd_same _ _ _), ?_, ?_, by simp⟩
    · simp only [run, Spec.soloAcquire, e1, R.ok_bind, e2, e3, e4, e5]
      rw [go_step p4]
      change (aCtor s4 d0 t i >>= fun s => run s d0 []) = _
      rw [e6]
      rfl
    · intro u hu
      exact (congrArg Thread.pc (upd_ne _ _ hu)).trans (q4 u hu)
    · simp only [State.accessed, f4.2.1, f4.2.2]

/-- **C28**: the pool hands out exactly its capacity: undisturbed, `acquire` succeeds and gives one more handle as long as fewer than `size` are live, and fails when
`size` handles are live. -/
theorem C28_capacity {size : Nat} {d0 : α} {s : State α} (h : Reach size d0 s) (hq : Quiescent s) (t : Nat) :
    s.given.length ≤ size ∧
    (s.given.length = size → run s d0 (soloAcquire t) = .error .assert) ∧
    (s.given.length < size → ∃ s' hd, run s d0 (soloAcquire t) = .ok s' ∧ Quiescent s' ∧ Disjoint s' ∧
      s'.given = { thread := t, handle := hd, val := d0 } :: s.given) := by
  obtain ⟨fl, φ, I, hn⟩ := h.inv
  have hc := I.count hq
  obtain ⟨k1, k2⟩ := soloAcquire_ok I d0 t (hq t)
  refine ⟨by omega, fun e => k1 (List.length_eq_zero_iff.mp (by omega)), fun e => ?_⟩
  obtain ⟨s', fl', φ', i, e1, I', hn', hp, ho, hg, _⟩ := k2 (fun e' => by rw [e'] at hc; simp at hc; omega)
  refine ⟨s', _, e1, fun u => ?_, I'.disjoint, hg⟩
  by_cases eu : u = t
  · rw [eu]; exact hp
  · rw [ho u eu]; exact hq u

/-- A series of undisturbed calls of `acquire`. -/
def acquireAll (t : Nat) : Nat → List (Nat × Act α)
  | 0 => []
  | k + 1 => soloAcquire t ++ acquireAll t k

theorem run_append (d0 : α) : ∀ (s : State α) (a b : List (Nat × Act α)), run s d0 (a ++ b) = (run s d0 a >>= fun s => run s d0 b)
  | _, [], _ => rfl
  | s, (t, x) :: a, b => by
    simp only [List.cons_append, run]
    cases step s d0 t x with
    | ok s1 => simp only [R.ok_bind]; exact run_append d0 s1 a b
    | error e => rfl

theorem acquireAll_ok {d0 : α} {t : Nat} : ∀ (k : Nat) {s : State α} {fl : List Nat} {φ : Nat → Own}, Inv s fl φ → Quiescent s → s.given.length + k ≤ s.n →
    ∃ s' fl' φ', run s d0 (acquireAll t k) = .ok s' ∧ Inv s' fl' φ' ∧ Quiescent s' ∧ s'.given.length = s.given.length + k ∧ s'.n = s.n
  | 0, s, fl, φ, I, hq, _ => ⟨s, fl, φ, rfl, I, hq, rfl, rfl⟩
  | k + 1, s, fl, φ, I, hq, hk => by
    have hc := I.count hq
    obtain ⟨s1, fl1, φ1, i, e1, I1, hn1, hp, ho, hg, _⟩ := (soloAcquire_ok I d0 t (hq t)).2 (fun e' => by rw [e'] at hc; simp at hc; omega)
    have hq1 : Quiescent s1 := fun u => by
      by_cases eu : u = t
      · rw [eu]; exact hp
      · rw [ho u eu]; exact hq u
    have hl : s1.given.length = s.given.length + 1 := by rw [hg]; rfl
    obtain ⟨s2, fl2, φ2, e2, I2, hq2, hl2, hn2⟩ := acquireAll_ok k I1 hq1 (by omega)
    refine ⟨s2, fl2, φ2, ?_, I2, hq2, by omega, hn2.trans hn1⟩
    unfold LPool.acquireAll
    rw [run_append, e1]
    exact e2

/-- **C28**: in particular, a fresh pool of capacity `size` gives `size` handles, and then no more. -/
theorem C28_exactly_capacity {size slack : Nat} (h1 : 1 < size) (h2 : size ≤ 2 ^ 16 - 1) (h3 : 1 ≤ slack) {s0 : State α} (h0 : init size slack = .ok s0) (d0 : α) (t : Nat) :
    ∃ s, run s0 d0 (acquireAll t size) = .ok s ∧ s.given.length = size ∧ Disjoint s ∧ run s d0 (soloAcquire t) = .error .assert := by
  obtain ⟨s', h, I, hn, hq, hg, _⟩ := init_ok (α := α) h1 h2 h3
  rw [h0] at h
  cases h
  obtain ⟨s2, fl2, φ2, e2, I2, hq2, hl2, hn2⟩ := acquireAll_ok (d0 := d0) (t := t) size I hq (by rw [hg, hn]; simp)
  rw [hg] at hl2
  simp only [List.length_nil, Nat.zero_add] at hl2
  refine ⟨s2, e2, hl2, I2.disjoint, (soloAcquire_ok I2 d0 t (hq2 t)).1 ?_⟩
  have := I2.count hq2
  exact List.length_eq_zero_iff.mp (by omega)

theorem soloRelease_ok {s : State α} {fl : List Nat} {φ : Nat → Own} (I : Inv s fl φ) (d0 : α) {t : Nat} {h : BitVec 32} (ht : (s.threads t).pc = .idle) (hh : Has s t h) :
    ∃ s' φ', run s d0 (soloRelease t h) = .ok s' ∧ Inv s' (slot h :: fl) φ' ∧ s'.n = s.n ∧ (s'.threads t).pc = .idle ∧ (∀ u, u ≠ t → (s'.threads u).pc = (s.threads u).pc) ∧
      s'.given = dropGiven s.given h := by
  obtain ⟨s1, e1, I1, n1, th1, p1, g1, hd1⟩ := I.rCall ht hh
  have e1' : step s d0 t (.release h) = .ok s1 := by
    unfold step
    simp only [if_pos ht]
    exact e1
  have q1 : ∀ u, u ≠ t → (s1.threads u).pc = (s.threads u).pc := fun u hu => by rw [th1, upd_ne _ _ hu]
  obtain ⟨e2, I2⟩ := I1.rDtor p1
  have e2' : step s1 d0 t (.go 0) = .ok (s1.accessed t (slot h) none (s1.gen (slot h)) (.rLoad (slot h))) := by rw [go_step p1]; exact e2
  generalize hs2 : s1.accessed t (slot h) none (s1.gen (slot h)) (.rLoad (slot h)) = s2 at e2' I2
  have p2 : (s2.threads t).pc = .rLoad (slot h) := by rw [← hs2]; exact congrArg Thread.pc (upd_same _ _ _)
  have q2 : ∀ u, u ≠ t → (s2.threads u).pc = (s.threads u).pc := fun u hu => by rw [← hs2]; exact (congrArg Thread.pc (upd_ne _ _ hu)).trans (q1 u hu)
  have f2 : s2.n = s.n ∧ s2.given = dropGiven s.given h := by rw [← hs2]; exact ⟨n1, g1⟩
  clear hs2
  have e3 : step s2 d0 t (.go 0) = .ok (s2.goto t (.rSwap (slot h) s2.head.idx s2.head.ver)) := by
    rw [go_step p2]
    rfl
  have I3 := I2.rRetry (m := s2.head) (t := t) (i := slot h) (by simp) (by rw [p2]; rfl) (fun j => by rw [p2]; simp)
  generalize hs3 : s2.goto t (.rSwap (slot h) s2.head.idx s2.head.ver) = s3 at e3 I3
  have p3 : (s3.threads t).pc = .rSwap (slot h) s3.head.idx s3.head.ver := by rw [← hs3]; exact goto_pc _ _ _
  have q3 : ∀ u, u ≠ t → (s3.threads u).pc = (s.threads u).pc := fun u hu => by rw [← hs3, goto_other _ _ hu, q2 u hu]
  have f3 : s3.n = s.n ∧ s3.given = dropGiven s.given h := by rw [← hs3]; exact f2
  clear hs3
  obtain ⟨e4, I4⟩ := I3.rSwap p3
  have e4' : step s3 d0 t (.go 0) = .ok { s3.goto t (.rCas (slot h) s3.head.idx s3.head.ver) with next := upd s3.next (slot h) s3.head.idx } := by rw [go_step p3]; exact e4
  generalize hs4 : ({ s3.goto t (.rCas (slot h) s3.head.idx s3.head.ver) with next := upd s3.next (slot h) s3.head.idx } : State α) = s4 at e4' I4
  have p4 : (s4.threads t).pc = .rCas (slot h) s4.head.idx s4.head.ver := by rw [← hs4]; exact goto_pc _ _ _
  have q4 : ∀ u, u ≠ t → (s4.threads u).pc = (s.threads u).pc := fun u hu => by rw [← hs4]; exact (goto_other _ _ hu).trans (q3 u hu)
  have f4 : s4.n = s.n ∧ s4.given = dropGiven s.given h := by rw [← hs4]; exact f3
  clear hs4
  have hsame : same s4 s4.head.idx s4.head.ver := ⟨rfl, rfl⟩
  have I5 := I4.rCasOk p4 hsame
  refine ⟨_, _, ?_, I5, f4.1, goto_pc _ _ _, fun u hu => (goto_other _ _ hu).trans (q4 u hu), f4.2⟩
  simp only [run, Spec.soloRelease, e1', R.ok_bind, e2', e3, e4']
  rw [go_step p4]
  change (rCas s4 t _ _ _ _ >>= fun s => run s d0 []) = _
  unfold rCas
  rw [if_pos rfl, if_pos hsame]
  rfl

/-- **C28**: an undisturbed `release` works and takes exactly this handle away; the next `acquire`, by any thread, gets the slot. -/
theorem C28_release_and_reuse {size : Nat} {d0 : α} {s : State α} (h : Reach size d0 s) (hq : Quiescent s) {t : Nat} {hd : BitVec 32} (hh : Has s t hd) (u : Nat) :
    ∃ s', run s d0 (soloRelease t hd) = .ok s' ∧ Quiescent s' ∧ Disjoint s' ∧ s'.given = dropGiven s.given hd ∧
      ∃ s'' hd', run s' d0 (soloAcquire u) = .ok s'' ∧ s''.given = { thread := u, handle := hd', val := d0 } :: s'.given := by
  obtain ⟨fl, φ, I, hn⟩ := h.inv
  obtain ⟨s', φ', e1, I', hn', hp, ho, hg⟩ := soloRelease_ok I d0 (hq t) hh
  have hq' : Quiescent s' := fun u => by
    by_cases eu : u = t
    · rw [eu]; exact hp
    · rw [ho u eu]; exact hq u
  refine ⟨s', e1, hq', I'.disjoint, hg, ?_⟩
  obtain ⟨s2, fl2, φ2, i, e2, I2, _, _, _, hg2, _⟩ := (soloAcquire_ok I' d0 u (hq' u)).2 (by simp)
  exact ⟨s2, _, e2, hg2⟩

/-! ### short schedules -/

theorem ver_step {s s' : State α} {d0 : α} {t : Nat} {a : Act α} (h : step s d0 t a = .ok s') : s'.head.ver ≤ s.head.ver + 1 := by
  have hcand : ∀ {m : Head} {s1 : State α}, candidate s t m = .ok s1 → s1.head.ver ≤ s.head.ver + 1 := by
    intro m s1 h
    unfold candidate at h
    simp only [R.bind_eq_ok] at h
    obtain ⟨_, _, h⟩ := h
    cases h
    exact Nat.le_succ _
  have hstay : (.ok s : R (State α)) = .ok s' → s'.head.ver ≤ s.head.ver + 1 := by
    intro h
    cases h
    exact Nat.le_succ _
  cases a with
  | go c =>
    simp only [step] at h
    cases hp : (s.threads t).pc with
    | idle => rw [hp] at h; exact hstay h
    | aLoad =>
      rw [hp] at h
      simp only [advance, aLoad] at h
      split at h
      · exact hcand h
      · exact hstay h
    | aNext x v =>
      rw [hp] at h
      simp only [advance, aNext] at h
      split at h
      · cases h; exact Nat.le_succ _
      · cases h
    | aCas x v nxt =>
      rw [hp] at h
      simp only [advance, aCas] at h
      split at h
      · split at h
        · cases h; exact Nat.le_refl _
        · exact hcand h
      · split at h
        · exact hcand h
        · exact hstay h
    | aCtor i =>
      rw [hp] at h
      simp only [advance, aCtor, R.bind_eq_ok] at h
      obtain ⟨_, _, _, _, h⟩ := h
      split at h
      · cases h
      · cases h; exact Nat.le_succ _
    | rDtor i =>
      rw [hp] at h
      simp only [advance, rDtor, R.bind_eq_ok] at h
      obtain ⟨_, _, h⟩ := h
      split at h
      · cases h; exact Nat.le_succ _
      · cases h
    | rLoad i =>
      rw [hp] at h
      simp only [advance, rLoad] at h
      split at h
      · cases h; exact Nat.le_succ _
      · exact hstay h
    | rSwap i x v =>
      rw [hp] at h
      simp only [advance, rSwap] at h
      split at h
      · cases h; exact Nat.le_succ _
      · cases h
    | rCas i x v =>
      rw [hp] at h
      simp only [advance, rCas] at h
      split at h
      · split at h
        · cases h; exact Nat.le_refl _
        · cases h; exact Nat.le_succ _
      · split at h
        · cases h; exact Nat.le_succ _
        · exact hstay h
  | acquire =>
    simp only [step] at h
    split at h
    · cases h; exact Nat.le_succ _
    · exact hstay h
  | release hd =>
    simp only [step] at h
    split at h
    · simp only [rCall, R.bind_eq_ok] at h
      obtain ⟨_, _, _, _, h⟩ := h
      cases h; exact Nat.le_succ _
    · exact hstay h
  | write hd v =>
    simp only [step] at h
    split at h
    · simp only [write, R.bind_eq_ok] at h
      obtain ⟨_, _, _, _, h⟩ := h
      split at h
      · cases h; exact Nat.le_succ _
      · cases h
    · exact hstay h
  | read hd =>
    simp only [step] at h
    split at h
    · simp only [read, R.bind_eq_ok] at h
      obtain ⟨_, _, _, _, h⟩ := h
      split at h
      · cases h; exact Nat.le_succ _
      · cases h
    · exact hstay h
  | give hd u =>
    simp only [step] at h
    split at h
    · cases h; exact Nat.le_succ _
    · exact hstay h

/-- The rule for clients alone. -/
def Obeys (s : State α) (d0 : α) : List (Nat × Act α) → Prop
  | [] => True
  | (t, a) :: as => allowed s t a ∧ ∀ s', step s d0 t a = .ok s' → Obeys s' d0 as

theorem proper_of_short {d0 : α} : ∀ (sched : List (Nat × Act α)) {s : State α}, Obeys s d0 sched → s.head.ver + sched.length < 2 ^ 32 → Proper s d0 sched
  | [], _, _, _ => trivial
  | (t, a) :: as, s, ho, hl => by
    simp only [List.length_cons] at hl
    refine ⟨ho.1, fun u => ?_, fun s' hs => proper_of_short as (ho.2 s' hs) ?_⟩
    · split
      · omega
      · trivial
    · have := ver_step hs
      omega

/-- **C28**: in schedules with fewer than `2^32 - 1` steps nothing but the rule for clients is needed. -/
theorem C28_short_schedules {size slack : Nat} (h1 : 1 < size) (h2 : size ≤ 2 ^ 16 - 1) (h3 : 1 ≤ slack) {s0 : State α} (h0 : init size slack = .ok s0)
    (d0 : α) (sched : List (Nat × Act α)) (hp : Obeys s0 d0 sched) (hl : sched.length < 2 ^ 32 - 1) :
    (∃ s, run s0 d0 sched = .ok s ∧ Disjoint s ∧ s.n = size) ∨ run s0 d0 sched = .error .assert := by
  refine C28_no_double_allocation h1 h2 h3 h0 d0 sched (proper_of_short sched hp ?_)
  obtain ⟨s, h, _, _, _, _, hv, _⟩ := init_ok (α := α) h1 h2 h3
  rw [h0] at h
  cases h
  rw [hv]
  omega

/-! ## C29 -/

/-- **C29**: packing an index and a generation into a handle loses nothing, and the handle is not 0. -/
theorem C29_packing (i : Nat) (g : BitVec 13) (h : i < 2 ^ 16 - 1) :
    slot (mkHandle i g) = i ∧ indexPlusOne (mkHandle i g) = i + 1 ∧ generation (mkHandle i g) = g ∧ mkHandle i g ≠ 0 ∧ (mkHandle i g).toNat / 2 ^ 29 = 0 := by
  refine ⟨slot_mk g (by omega), ?_, gen_mk g (by omega), mk_ne g (by omega), ?_⟩
  · unfold indexPlusOne
    rw [toNat_mkHandle g (by omega)]
    omega
  · have := g.isLt
    rw [toNat_mkHandle g (by omega)]
    omega

theorem releases_append (i : Nat) (a b : List Ev) : releases i (a ++ b) = releases i a + releases i b := by
  unfold releases
  exact List.countP_append

theorem LogOk.mid {n : Nat} {t : Nat} {h : BitVec 32} {pre : List Ev} : ∀ {post : List Ev}, LogOk n (post ++ .released t h :: pre) →
    h = mkHandle (slot h) (BitVec.ofNat 13 (releases (slot h) pre)) ∧ slot h < n
  | [], hl => hl.1
  | .acquired _ _ :: post, hl => LogOk.mid (post := post) hl.2
  | .released _ _ :: post, hl => LogOk.mid (post := post) hl.2

theorem ofNat_eq_iff (a b : Nat) : (BitVec.ofNat 13 a = BitVec.ofNat 13 b) ↔ a % 2 ^ 13 = b % 2 ^ 13 := by
  constructor
  · intro h
    have := congrArg BitVec.toNat h
    rwa [BitVec.toNat_ofNat, BitVec.toNat_ofNat] at this
  · intro h
    apply BitVec.eq_of_toNat_eq
    rwa [BitVec.toNat_ofNat, BitVec.toNat_ofNat]

/-- **C29**: exactly when a released handle is accepted again. Its slot was released `releases (slot h) post` times after it; all uses of the handle fail, unless
that makes a multiple of `2^13` releases. -/
theorem C29_stale {size : Nat} {d0 : α} {s : State α} (hr : Reach size d0 s) {t : Nat} {h : BitVec 32} {post pre : List Ev} (hl : s.log = post ++ .released t h :: pre) :
    isAlive s h = .ok (decide ((releases (slot h) post + 1) % 2 ^ 13 = 0)) ∧
    readIndex s h = if (releases (slot h) post + 1) % 2 ^ 13 = 0 then .ok (slot h) else .error .assert := by
  obtain ⟨fl, φ, I, hn⟩ := hr.inv
  have hlog := I.gens.log
  rw [hl] at hlog
  obtain ⟨e1, e2⟩ := hlog.mid
  have hg := I.gens.gen (slot h)
  rw [hl, releases_append, releases_released, if_pos rfl] at hg
  have hiff : (BitVec.ofNat 13 (releases (slot h) pre) = s.gen (slot h)) ↔ (releases (slot h) post + 1) % 2 ^ 13 = 0 := by
    rw [hg, ofNat_eq_iff]
    omega
  have ha := isAlive_mk (s := s) (BitVec.ofNat 13 (releases (slot h) pre)) e2 I.shape.n2
  have hi := readIndex_mk (s := s) (BitVec.ofNat 13 (releases (slot h) pre)) e2 I.shape.n2
  rw [← e1] at ha hi
  rw [ha, hi]
  refine ⟨congrArg Except.ok (decide_eq_decide.mpr hiff), ?_⟩
  by_cases e : (releases (slot h) post + 1) % 2 ^ 13 = 0
  · rw [if_pos e, if_pos (hiff.mpr e)]
  · rw [if_neg e, if_neg (fun h => e (hiff.mp h))]

/-- **C29**: so a released handle is refused by `is_alive`, `get` and `release` as long as the generation has not wrapped around. -/
theorem C29_stale_refused {size : Nat} {d0 : α} {s : State α} (hr : Reach size d0 s) {t : Nat} {h : BitVec 32} {post pre : List Ev} (hl : s.log = post ++ .released t h :: pre)
    (hw : releases (slot h) post < 2 ^ 13 - 1) {u : Nat} (hu : (s.threads u).pc = .idle) (v : α) :
    isAlive s h = .ok false ∧ step s d0 u (.release h) = .error .assert ∧ step s d0 u (.read h) = .error .assert ∧ step s d0 u (.write h v) = .error .assert := by
  obtain ⟨h1, h2⟩ := C29_stale hr hl
  have hne : ¬ (releases (slot h) post + 1) % 2 ^ 13 = 0 := by
    have hlt : releases (slot h) post + 1 < 2 ^ 13 := by omega
    rw [Nat.mod_eq_of_lt hlt]
    omega
  rw [if_neg hne] at h2
  rw [decide_eq_false hne] at h1
  refine ⟨h1, ?_, ?_, ?_⟩
  · simp only [step, if_pos hu, rCall, h2]; rfl
  · simp only [step, if_pos hu, read, h2]; rfl
  · simp only [step, if_pos hu, write, h2]; rfl

/-- **C29**: live handles are different and accepted. -/
theorem C29_live {size : Nat} {d0 : α} {s : State α} (hr : Reach size d0 s) :
    (s.given.map Given.handle).Nodup ∧ ∀ g ∈ s.given, isAlive s g.handle = .ok true ∧ readIndex s g.handle = .ok (slot g.handle) := by
  obtain ⟨fl, φ, I, hn⟩ := hr.inv
  refine ⟨?_, fun g hg => ⟨I.disjoint.alive g hg, (I.has ⟨g, hg, rfl, rfl⟩).2.2.2.1⟩⟩
  have := I.objs.givn
  have e : s.given.map (fun g => slot g.handle) = (s.given.map Given.handle).map slot := by rw [List.map_map]; rfl
  rw [e] at this
  exact List.Pairwise.of_map slot (fun a b h e => h (congrArg slot e)) this

/-! ## Examples -/

/-- Two threads, a pool of two: thread 1 takes a slot while thread 0 has read the head; thread 0 has to try again. Then thread 0 passes its handle to thread 1,
which releases its own and reads the other. -/
def demo : List (Nat × Act Nat) :=
  [(0, .acquire), (0, .go 0), (0, .go 0), (1, .acquire), (1, .go 0), (1, .go 0), (1, .go 0), (1, .go 0), (0, .go 0), (0, .go 0), (0, .go 0), (0, .go 0),
   (0, .write 2 7), (1, .write 1 5), (0, .give 2 1), (1, .read 2), (1, .release 1), (1, .go 0), (1, .go 1), (1, .go 0), (1, .go 0), (1, .go 0), (1, .go 0)]

example : (init 2 1 >>= fun s => run s 0 demo).map (fun s => (s.given, s.log, s.reads)) =
    .ok ([{ thread := 1, handle := 2, val := 7 }], [.released 1 1, .acquired 0 2, .acquired 1 1], [(1, 7)]) := by decide +kernel

/-- The released handle is stale, the other one is alive. -/
example : (init 2 1 >>= fun s => run s 0 demo).map (fun s => (s.head.idx, decide (isAlive s 1 = .ok false), decide (isAlive s 2 = .ok true))) =
    .ok (0, true, true) := by decide +kernel

example : ∃ s : State Nat, init 2 1 = .ok s ∧ Obeys s 0 demo := by
  refine ⟨_, rfl, ?_⟩
  simp [Obeys, demo, allowed, step, advance, State.goto, State.learn, aLoad, aNext, aCas, aCtor, rCall, rDtor, rLoad, rSwap, rCas, write, read, give, candidate, same,
    access, State.accessed, upd, Has, mkHandle, readIndex, indexPlusOne, generation, dropGiven, ccAssert]

end Verif.LPool
