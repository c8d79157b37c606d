import Verif.Mpmc.Size
import Verif.Mpmc.Props

/-! What one step of the queue does to the numbers of finished calls, and who is in which call. -/
namespace Verif.Mpmc.Size
open Verif.Mpmc.Spec

variable {α : Type}

/-- Is the value there? -/
def isPub (e : EnqE α) : Bool :=
  match e.stage with
  | .published => true
  | _ => false

/-- Is the cell given back? -/
def isDone (e : DeqE α) : Bool :=
  match e.stage with
  | .done _ => true
  | _ => false

/-- The number of values that were published. -/
def pubs (s : Mpmc.State α) : Nat := s.enqLog.countP isPub
/-- The number of cells that were given back. -/
def dones (s : Mpmc.State α) : Nat := s.deqLog.countP isDone

/-- A thread in `enqueue` is one of `P`, one in `dequeue` one of `C`. -/
def Role (P C : List Nat) (t : Nat) : Pc α → Prop
  | .idle => True
  | .eLoad _ | .eSeq _ _ | .eCas _ _ | .eWrite _ _ _ | .ePub _ _ => t ∈ P
  | .dLoad | .dSeq _ | .dCas _ | .dRead _ _ | .dRel _ _ _ => t ∈ C

/-- Only threads of `P` enqueue, only threads of `C` dequeue. -/
structure Roles (P C : List Nat) (s : Mpmc.State α) : Prop where
  enq : ∀ e ∈ s.enqLog, e.thread ∈ P
  deq : ∀ e ∈ s.deqLog, e.thread ∈ C
  thr : ∀ t, Role P C t (s.threads t).pc

theorem Roles.local {P C : List Nat} {s s' : Mpmc.State α} (H : Roles P C s) (t : Nat) (he : s'.enqLog = s.enqLog) (hd : s'.deqLog = s.deqLog)
    (ho : ∀ t', t' ≠ t → s'.threads t' = s.threads t') (hr : Role P C t (s'.threads t).pc) : Roles P C s' := by
  refine ⟨by rw [he]; exact H.enq, by rw [hd]; exact H.deq, fun t' => ?_⟩
  by_cases h : t' = t
  · rw [h]; exact hr
  · rw [ho t' h]; exact H.thr t'

/-- What a step that does not finish a call does. -/
structure Quiet (s s' : Mpmc.State α) (t : Nat) : Prop where
  other : ∀ t', t' ≠ t → s'.threads t' = s.threads t'
  pubs : pubs s' = pubs s
  dones : dones s' = dones s

theorem Quiet.rfl' (s : Mpmc.State α) (t : Nat) : Quiet s s t := ⟨fun _ _ => rfl, rfl, rfl⟩

theorem Quiet.of {s s' : Mpmc.State α} {t : Nat} (ho : ∀ t', t' ≠ t → s'.threads t' = s.threads t') (he : s'.enqLog = s.enqLog) (hd : s'.deqLog = s.deqLog) :
    Quiet s s' t := ⟨ho, by unfold Size.pubs; rw [he], by unfold Size.dones; rw [hd]⟩

theorem mem_set_thread {l : List (EnqE α)} {i : Nat} {e e' : EnqE α} {P : List Nat} (h : l[i]? = some e) (ht : e'.thread = e.thread) (hP : ∀ x ∈ l, x.thread ∈ P) :
    ∀ x ∈ l.set i e', x.thread ∈ P := by
  intro x hx
  rcases List.mem_or_eq_of_mem_set hx with h1 | h1
  · exact hP x h1
  · rw [h1, ht]; exact hP e (List.mem_of_getElem? h)

theorem mem_setD_thread {l : List (DeqE α)} {i : Nat} {e e' : DeqE α} {P : List Nat} (h : l[i]? = some e) (ht : e'.thread = e.thread) (hP : ∀ x ∈ l, x.thread ∈ P) :
    ∀ x ∈ l.set i e', x.thread ∈ P := by
  intro x hx
  rcases List.mem_or_eq_of_mem_set hx with h1 | h1
  · exact hP x h1
  · rw [h1, ht]; exact hP e (List.mem_of_getElem? h)

/-- Beginning a call. -/
theorem begin_eff {s s' : Mpmc.State α} {t : Nat} {pc q : Pc α} (hq : (s.threads t).pc = q) (h : begin s t pc q = .ok s') :
    Quiet s s' t ∧ ∀ P C, Roles P C s → Role P C t pc → Roles P C s' := by
  unfold begin at h
  split at h <;> cases h
  · have ho : ∀ t', t' ≠ t → (s.goto t pc).threads t' = s.threads t' := fun t' h => goto_ne s pc h
    exact ⟨Quiet.of ho rfl rfl, fun P C H hr => H.local t rfl rfl ho (by rw [goto_pc]; exact hr)⟩
  · exact ⟨Quiet.rfl' _ _, fun P C H _ => H⟩

theorem goto_eff (s : Mpmc.State α) (t : Nat) (pc : Pc α) : Quiet s (s.goto t pc) t ∧ ∀ P C, Roles P C s → Role P C t pc → Roles P C (s.goto t pc) := by
  have ho : ∀ t', t' ≠ t → (s.goto t pc).threads t' = s.threads t' := fun t' h => goto_ne s pc h
  exact ⟨Quiet.of ho rfl rfl, fun P C H hr => H.local t rfl rfl ho (by rw [goto_pc]; exact hr)⟩

theorem acq_goto_eff (s : Mpmc.State α) (t : Nat) (m : Msg) (pc : Pc α) :
    Quiet s ((s.acquire t m).goto t pc) t ∧ ∀ P C, Roles P C s → Role P C t pc → Roles P C ((s.acquire t m).goto t pc) := by
  have ho : ∀ t', t' ≠ t → ((s.acquire t m).goto t pc).threads t' = s.threads t' := fun t' h => by rw [goto_ne _ _ h]; exact upd_ne _ _ h
  exact ⟨Quiet.of ho rfl rfl, fun P C H hr => H.local t rfl rfl ho (by rw [goto_pc]; exact hr)⟩

theorem acq_ret_eff (s : Mpmc.State α) (t : Nat) (m : Msg) (r : Ret α) :
    Quiet s ((s.acquire t m).ret t r) t ∧ ∀ P C, Roles P C s → Roles P C ((s.acquire t m).ret t r) := by
  have ho : ∀ t', t' ≠ t → ((s.acquire t m).ret t r).threads t' = s.threads t' := fun t' h => by
    change ((s.acquire t m).goto t .idle).threads t' = _
    rw [goto_ne _ _ h]; exact upd_ne _ _ h
  refine ⟨Quiet.of ho rfl rfl, fun P C H => H.local t rfl rfl ho ?_⟩
  change Role P C t (((s.acquire t m).goto t .idle).threads t).pc
  rw [goto_pc]; trivial

/-- What a step of a running call does. -/
theorem advance_eff {s s' : Mpmc.State α} {t c : Nat} (I : Inv s) {pc : Pc α} (hpc : (s.threads t).pc = pc) (h : advance s t c pc = .ok s') :
    (∀ P C, Roles P C s → Roles P C s') ∧
    match change pc with
    | none => Quiet s s' t
    | some d => (∀ t', t' ≠ t → s'.threads t' = s.threads t') ∧ (s'.threads t).pc = .idle ∧
        ((d = 1 ∧ (∃ p i, pc = .ePub p i) ∧ pubs s' = pubs s + 1 ∧ dones s' = dones s) ∨
         (d = -1 ∧ (∃ p i v, pc = .dRel p i v) ∧ pubs s' = pubs s ∧ dones s' = dones s + 1)) := by
  have hT := I.thr t
  rw [hpc] at hT
  have hrole : ∀ P C, Roles P C s → Role P C t pc := fun P C H => by have := H.thr t; rwa [hpc] at this
  unfold advance at h
  cases pc with
  | idle => cases h; exact ⟨fun P C H => H, Quiet.rfl' _ _⟩
  | eLoad v =>
    simp only [enqLoad] at h
    split at h <;> cases h
    · obtain ⟨q, r⟩ := goto_eff s t (.eSeq v _)
      exact ⟨fun P C H => r P C H (hrole P C H), q⟩
    · exact ⟨fun P C H => H, Quiet.rfl' _ _⟩
  | eSeq v pos =>
    simp only [enqSeq] at h
    rw [R.bind_eq_ok] at h
    obtain ⟨_, _, h⟩ := h
    split at h
    · rename_i m _
      rw [R.bind_eq_ok] at h
      obtain ⟨d, _, h⟩ := h
      cases h
      unfold enqBranch
      split
      · obtain ⟨q, r⟩ := acq_goto_eff s t m (.eCas v pos)
        exact ⟨fun P C H => r P C H (hrole P C H), q⟩
      · split
        · obtain ⟨q, r⟩ := acq_ret_eff s t m (.enqueued false)
          exact ⟨r, q⟩
        · obtain ⟨q, r⟩ := acq_goto_eff s t m (.eLoad v)
          exact ⟨fun P C H => r P C H (hrole P C H), q⟩
    · cases h; exact ⟨fun P C H => H, Quiet.rfl' _ _⟩
  | eCas v pos =>
    simp only [enqCas] at h
    split at h
    · split at h <;> cases h
      · have ho : ∀ t', t' ≠ t → (s.goto t (.eWrite v pos s.enqLog.length)).threads t' = s.threads t' := fun t' h => goto_ne s _ h
        refine ⟨fun P C H => ⟨?_, H.deq, fun t' => ?_⟩, ⟨ho, ?_, rfl⟩⟩
        · intro e he
          rcases List.mem_append.1 he with h1 | h1
          · exact H.enq e h1
          · rw [List.mem_singleton.1 h1]; exact hrole P C H
        · change Role P C t' ((s.goto t (.eWrite v pos s.enqLog.length)).threads t').pc
          by_cases h : t' = t
          · rw [h, goto_pc]; exact hrole P C H
          · rw [ho t' h]; exact H.thr t'
        · change (s.enqLog ++ [_]).countP isPub = s.enqLog.countP isPub
          rw [List.countP_append]; rfl
      · obtain ⟨q, r⟩ := goto_eff s t (.eSeq v s.enq)
        exact ⟨fun P C H => r P C H (hrole P C H), q⟩
    · split at h <;> cases h
      · obtain ⟨q, r⟩ := goto_eff s t (.eSeq v _)
        exact ⟨fun P C H => r P C H (hrole P C H), q⟩
      · exact ⟨fun P C H => H, Quiet.rfl' _ _⟩
  | eWrite v pos i =>
    simp only [enqWrite] at h
    rw [R.bind_eq_ok] at h
    obtain ⟨_, _, h⟩ := h
    cases h
    refine ⟨fun P C H => ⟨?_, H.deq, fun t' => ?_⟩, ⟨fun t' h => upd_ne _ _ h, ?_, rfl⟩⟩
    · change ∀ e ∈ setStage s.enqLog i .written, _
      rw [setStage_eq hT.2.1]
      exact mem_set_thread hT.2.1 rfl H.enq
    · change Role P C t' (upd s.threads t _ t').pc
      by_cases h : t' = t
      · rw [h, upd_same]; exact hrole P C H
      · rw [upd_ne _ _ h]; exact H.thr t'
    · change (setStage s.enqLog i .written).countP isPub = s.enqLog.countP isPub
      rw [setStage_eq hT.2.1, countP_set' _ hT.2.1 rfl]
      rfl
  | ePub pos i =>
    simp only [enqPub] at h
    cases h
    obtain ⟨_, ⟨v, h2⟩, _⟩ := hT
    have ho : ∀ t', t' ≠ t → ((s.store t (s.idx pos) ((pos + 1) % 2 ^ 64)).goto t .idle).threads t' = s.threads t' := fun t' h => goto_ne _ _ h
    refine ⟨fun P C H => ⟨?_, H.deq, fun t' => ?_⟩, ho, goto_pc _ _ _, .inl ⟨rfl, ⟨_, _, rfl⟩, ?_, rfl⟩⟩
    · change ∀ e ∈ setStage s.enqLog i .published, _
      rw [setStage_eq h2]
      exact mem_set_thread h2 rfl H.enq
    · change Role P C t' (((s.store t (s.idx pos) ((pos + 1) % 2 ^ 64)).goto t .idle).threads t').pc
      by_cases h : t' = t
      · rw [h, goto_pc]; trivial
      · rw [ho t' h]; exact H.thr t'
    · change (setStage s.enqLog i .published).countP isPub = s.enqLog.countP isPub + 1
      rw [setStage_eq h2, countP_set' _ h2 rfl]
      rfl
  | dLoad =>
    simp only [deqLoad] at h
    split at h <;> cases h
    · obtain ⟨q, r⟩ := goto_eff s t (.dSeq _)
      exact ⟨fun P C H => r P C H (hrole P C H), q⟩
    · exact ⟨fun P C H => H, Quiet.rfl' _ _⟩
  | dSeq pos =>
    simp only [deqSeq] at h
    rw [R.bind_eq_ok] at h
    obtain ⟨_, _, h⟩ := h
    split at h
    · rename_i m _
      rw [R.bind_eq_ok] at h
      obtain ⟨d, _, h⟩ := h
      cases h
      unfold deqBranch
      split
      · obtain ⟨q, r⟩ := acq_goto_eff s t m (.dCas pos)
        exact ⟨fun P C H => r P C H (hrole P C H), q⟩
      · split
        · obtain ⟨q, r⟩ := acq_ret_eff s t m (.dequeued none)
          exact ⟨r, q⟩
        · obtain ⟨q, r⟩ := acq_goto_eff s t m .dLoad
          exact ⟨fun P C H => r P C H (hrole P C H), q⟩
    · cases h; exact ⟨fun P C H => H, Quiet.rfl' _ _⟩
  | dCas pos =>
    simp only [deqCas] at h
    split at h
    · split at h <;> cases h
      · have ho : ∀ t', t' ≠ t → (s.goto t (.dRead pos s.deqLog.length)).threads t' = s.threads t' := fun t' h => goto_ne s _ h
        refine ⟨fun P C H => ⟨H.enq, ?_, fun t' => ?_⟩, ⟨ho, rfl, ?_⟩⟩
        · intro e he
          rcases List.mem_append.1 he with h1 | h1
          · exact H.deq e h1
          · rw [List.mem_singleton.1 h1]; exact hrole P C H
        · change Role P C t' ((s.goto t (.dRead pos s.deqLog.length)).threads t').pc
          by_cases h : t' = t
          · rw [h, goto_pc]; exact hrole P C H
          · rw [ho t' h]; exact H.thr t'
        · change (s.deqLog ++ [_]).countP isDone = s.deqLog.countP isDone
          rw [List.countP_append]; rfl
      · obtain ⟨q, r⟩ := goto_eff s t (.dSeq s.deq)
        exact ⟨fun P C H => r P C H (hrole P C H), q⟩
    · split at h <;> cases h
      · obtain ⟨q, r⟩ := goto_eff s t (.dSeq _)
        exact ⟨fun P C H => r P C H (hrole P C H), q⟩
      · exact ⟨fun P C H => H, Quiet.rfl' _ _⟩
  | dRead pos i =>
    simp only [deqRead] at h
    rw [R.bind_eq_ok] at h
    obtain ⟨_, _, h⟩ := h
    cases h
    refine ⟨fun P C H => ⟨H.enq, ?_, fun t' => ?_⟩, ⟨fun t' h => upd_ne _ _ h, rfl, ?_⟩⟩
    · change ∀ e ∈ setDStage s.deqLog i (.read _), _
      rw [setDStage_eq hT.2.1]
      exact mem_setD_thread hT.2.1 rfl H.deq
    · change Role P C t' (upd s.threads t _ t').pc
      by_cases h : t' = t
      · rw [h, upd_same]; exact hrole P C H
      · rw [upd_ne _ _ h]; exact H.thr t'
    · change (setDStage s.deqLog i (.read _)).countP isDone = s.deqLog.countP isDone
      rw [setDStage_eq hT.2.1, countP_set' _ hT.2.1 rfl]
      rfl
  | dRel pos i v =>
    simp only [deqRel] at h
    cases h
    have ho : ∀ t', t' ≠ t → ((s.store t (s.idx pos) ((pos + (s.n - 1) + 1) % 2 ^ 64)).goto t .idle).threads t' = s.threads t' := fun t' h => goto_ne _ _ h
    refine ⟨fun P C H => ⟨H.enq, ?_, fun t' => ?_⟩, ho, goto_pc _ _ _, .inr ⟨rfl, ⟨_, _, _, rfl⟩, rfl, ?_⟩⟩
    · change ∀ e ∈ setDStage s.deqLog i (.done v), _
      rw [setDStage_eq hT.2.1]
      exact mem_setD_thread hT.2.1 rfl H.deq
    · change Role P C t' (((s.store t (s.idx pos) ((pos + (s.n - 1) + 1) % 2 ^ 64)).goto t .idle).threads t').pc
      by_cases h : t' = t
      · rw [h, goto_pc]; trivial
      · rw [ho t' h]; exact H.thr t'
    · change (setDStage s.deqLog i (.done v)).countP isDone = s.deqLog.countP isDone + 1
      rw [setDStage_eq hT.2.1, countP_set' _ hT.2.1 rfl]
      rfl

end Verif.Mpmc.Size
