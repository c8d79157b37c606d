import Verif.Mpmc.Lemmas

/-! Every step keeps the invariants. -/
namespace Verif.Mpmc

open Spec

variable {α : Type}

theorem Inv.ext {s s' : State α} {t : Nat} (I : Inv s) (E : Ext t s s') (C : Core s') (hacc : ∀ c, (s.cells c).acc ≤ (s'.cells c).acc)
    (ht : TInv s' t (s'.threads t).pc) (hk : ∀ c, (s'.threads t).known c ≤ (s'.cells c).acc)
    (hE : ∀ (p : Nat) (e : EnqE α), s'.enqLog[p]? = some e → e.thread = t →
      (e.stage = .claimed → (s'.threads t).pc = .eWrite e.val p p) ∧ (e.stage = .written → (s'.threads t).pc = .ePub p p))
    (hD : ∀ (p : Nat) (e : DeqE α), s'.deqLog[p]? = some e → e.thread = t →
      (e.stage = .claimed → (s'.threads t).pc = .dRead p p) ∧ (∀ v, e.stage = .read v → (s'.threads t).pc = .dRel p p v)) : Inv s' := by
  refine ⟨C, fun t' => ?_, fun t' c => ?_, fun p e he => ?_, fun p e he => ?_⟩
  · by_cases h : t' = t
    · rw [h]; exact ht
    · rw [E.thr t' h]; exact E.tinv h (I.thr t')
  · by_cases h : t' = t
    · rw [h]; exact hk c
    · rw [E.thr t' h]; exact Nat.le_trans (I.known t' c) (hacc c)
  · by_cases h : e.thread = t
    · rw [h]; exact hE p e he h
    · rw [E.thr _ h]; exact I.ownE p e (E.enq' p e he h)
  · by_cases h : e.thread = t
    · rw [h]; exact hD p e he h
    · rw [E.thr _ h]; exact I.ownD p e (E.deq' p e he h)

/-- A thread in no claim owns no unfinished entry. -/
theorem Inv.noE {s : State α} (I : Inv s) {t : Nat} (h : ∀ v p i, (s.threads t).pc ≠ .eWrite v p i) (h2 : ∀ p i, (s.threads t).pc ≠ .ePub p i)
    {p : Nat} {e : EnqE α} (he : s.enqLog[p]? = some e) (ht : e.thread = t) : e.stage = .published := by
  have h0 := I.ownE p e he
  rw [ht] at h0
  cases hs : e.stage with
  | claimed => exact (h _ _ _ (h0.1 hs)).elim
  | written => exact (h2 _ _ (h0.2 hs)).elim
  | published => rfl

theorem Inv.noD {s : State α} (I : Inv s) {t : Nat} (h : ∀ p i, (s.threads t).pc ≠ .dRead p i) (h2 : ∀ p i v, (s.threads t).pc ≠ .dRel p i v)
    {p : Nat} {e : DeqE α} (he : s.deqLog[p]? = some e) (ht : e.thread = t) : ∃ v, e.stage = .done v := by
  have h0 := I.ownD p e he
  rw [ht] at h0
  cases hs : e.stage with
  | claimed => exact (h _ _ (h0.1 hs)).elim
  | read v => exact (h2 _ _ _ (h0.2 v hs)).elim
  | done v => exact ⟨v, rfl⟩

/-! ### claiming a position for an enqueue -/

theorem Inv.enqClaim {s : State α} (I : Inv s) {t : Nat} {v : α} {pos : Nat} (hpc : (s.threads t).pc = .eCas v pos) (hpos : s.enq = pos)
    (hs : s.enqLog.length + 1 + s.n < 2 ^ 63) :
    Inv { s.goto t (.eWrite v pos s.enqLog.length) with
          enq := (pos + 1) % 2 ^ 64, enqOld := s.enq :: s.enqOld, enqLog := s.enqLog ++ [{ val := v, stage := .claimed, thread := t }] } := by
  have C := I.core
  have hT := I.thr t
  rw [hpc] at hT
  obtain ⟨h1, h2, h3⟩ := hT
  have hE : pos = s.enqLog.length := by rw [← hpos, C.enq]
  subst hE
  generalize hs' : ({ s.goto t (.eWrite v s.enqLog.length s.enqLog.length) with
          enq := (s.enqLog.length + 1) % 2 ^ 64, enqOld := s.enq :: s.enqOld,
          enqLog := s.enqLog ++ [{ val := v, stage := .claimed, thread := t }] } : State α) = s'
  have hn : s'.n = s.n := by rw [← hs']; rfl
  have hel : s'.enqLog = s.enqLog ++ [{ val := v, stage := .claimed, thread := t }] := by rw [← hs']
  have hdl : s'.deqLog = s.deqLog := by rw [← hs']; rfl
  have hc : s'.cells = s.cells := by rw [← hs']; rfl
  have ht : s'.threads = upd s.threads t { pc := .eWrite v s.enqLog.length s.enqLog.length, known := (s.threads t).known } := by rw [← hs']; rfl
  have hlen : s'.enqLog.length = s.enqLog.length + 1 := by rw [hel]; simp
  have hget : ∀ p, s'.enqLog[p]? = if p = s.enqLog.length then some { val := v, stage := .claimed, thread := t } else s.enqLog[p]? := by
    intro p; rw [hel]; exact snoc_getElem? _ _ _
  have hnone : s.enqLog[s.enqLog.length]? = none := List.getElem?_eq_none (Nat.le_refl _)
  have hpub : ∀ p, Published s' p ↔ Published s p := by
    intro p
    unfold Published
    rw [hget]
    by_cases e : p = s.enqLog.length
    · rw [if_pos e, e, hnone]
      constructor
      · rintro ⟨e, h, h'⟩; cases h; cases h'
      · rintro ⟨e, h, h'⟩; cases h
    · rw [if_neg e]
  have hdone : ∀ p, Done s' p ↔ Done s p := by intro p; unfold Done; rw [hdl]
  have hfree : ∀ p, Free s' p ↔ Free s p := by intro p; unfold Free; rw [hn, hdone]
  have hdst : ∀ p, dst s' p = dst s p := by intro p; unfold dst; rw [hdl]
  have hph : ∀ p, phase (est s' p) (dst s' p) = phase (est s p) (dst s p) := by
    intro p
    rw [hdst]
    unfold est
    rw [hget]
    by_cases e : p = s.enqLog.length
    · rw [if_pos e, e, hnone]; rfl
    · rw [if_neg e]
  have E : Ext t s s' := by
    refine ⟨hn, by omega, by rw [hdl]; exact Nat.le_refl _, fun p h => (hpub p).2 h, fun p h => (hdone p).2 h, fun i e h _ => ?_, fun i e h _ => ?_,
      fun i e h he => ?_, fun i e h _ => ?_, fun t' h => ?_⟩
    · rw [hget, if_neg (by have := lt_of_getElem? h; omega)]; exact h
    · rw [hdl]; exact h
    · rw [hget] at h
      by_cases e' : i = s.enqLog.length
      · rw [if_pos e'] at h; cases h; exact (he rfl).elim
      · rw [if_neg e'] at h; exact h
    · rw [hdl] at h; exact h
    · rw [ht, upd_ne _ _ h]
  refine I.ext E ⟨by rw [hn]; exact C.n2, by rw [hn]; exact C.pow, by rw [hlen, hn]; exact hs, ?_, ?_, ?_, ?_, ?_, ?_, ?_, ?_, ?_, ?_, ?_, ?_⟩ ?_ ?_ ?_ ?_ ?_
  · rw [hlen, ← hs']
    exact Nat.mod_eq_of_lt (by omega)
  · intro x hx
    rw [← hs'] at hx
    rw [hlen]
    rcases List.mem_cons.1 hx with h | h
    · rw [h, C.enq]; omega
    · have := C.enqOld x h; omega
  · rw [hdl, ← hs']; exact C.deq
  · intro x hx
    rw [hdl]
    rw [← hs'] at hx
    exact C.deqOld x hx
  · intro p hp
    rw [hdl] at hp
    exact (hpub p).2 (C.pub p hp)
  · intro p hp
    rw [hlen] at hp
    rw [hfree]
    by_cases e : p = s.enqLog.length
    · rw [e]; exact h2
    · exact C.free p (by omega)
  · intro c hc' m hm
    rw [hc] at hm
    rw [hn] at hc' ⊢
    rcases C.msgs c hc' m hm with ⟨a, b, d⟩ | ⟨p, a, b, d, e⟩
    · exact Or.inl ⟨a, (hfree _).2 b, d⟩
    · exact Or.inr ⟨p, a, b, (hpub _).2 d, e⟩
  · intro c c' m hm
    rw [hc] at hm ⊢
    exact C.views c c' m hm
  · intro p hp hd
    rw [hc, hn, hph]
    exact C.acc p ((hfree p).1 hp) (fun h => hd ((hdone p).2 h))
  · intro p hp hd h1
    rw [hph] at h1
    rw [hc, hn, hget, if_neg]
    · exact C.data p ((hfree p).1 hp) (fun h => hd ((hdone p).2 h)) h1
    · intro e
      rw [e] at h1
      unfold est at h1
      rw [hnone] at h1
      cases h1
  · intro p hp hd
    rw [hc, hn]
    obtain ⟨m, rest, a, b, c⟩ := C.head p ((hfree p).1 hp) (fun h => hd ((hdone p).2 h))
    exact ⟨m, rest, a, fun h => b ((hpub p).1 h), fun h => c (fun h' => h ((hpub p).2 h'))⟩
  · intro i e w he hr
    rw [hdl] at he
    rw [hget, if_neg (by have := lt_of_getElem? he; have := pub_lt (C.pub i this); omega)]
    exact C.order i e w he hr
  · intro c; rw [hc]; exact Nat.le_refl _
  · rw [ht, upd_same]
    refine ⟨rfl, by rw [hget, if_pos rfl], ?_⟩
    rw [ht, upd_same, hn]
    exact h3
  · intro c
    rw [ht, upd_same, hc]
    exact I.known t c
  · intro p e he het
    rw [ht, upd_same]
    rw [hget] at he
    by_cases e' : p = s.enqLog.length
    · rw [if_pos e'] at he
      cases he
      rw [e']
      exact ⟨fun _ => rfl, fun h => by cases h⟩
    · rw [if_neg e'] at he
      have := I.noE (t := t) (by rw [hpc]; intro _ _ _ h; cases h) (by rw [hpc]; intro _ _ h; cases h) he het
      rw [this]
      exact ⟨fun h => (by cases h), fun h => (by cases h)⟩
  · intro p e he het
    rw [hdl] at he
    obtain ⟨w, hw⟩ := I.noD (t := t) (by rw [hpc]; intro _ _ h; cases h) (by rw [hpc]; intro _ _ _ h; cases h) he het
    rw [hw]
    exact ⟨fun h => (by cases h), fun _ h => (by cases h)⟩

/-! ### writing the data -/

theorem Inv.enqWritten {s : State α} (I : Inv s) {t : Nat} {v : α} {pos i : Nat} (hpc : (s.threads t).pc = .eWrite v pos i) :
    ∃ s', enqWrite s t v pos i = .ok s' ∧ Inv s' := by
  have C := I.core
  have hT := I.thr t
  rw [hpc] at hT
  obtain ⟨h1, h2, h3⟩ := hT
  have h1' := h1.symm
  clear h1
  subst h1'
  have hi : i < s.enqLog.length := lt_of_getElem? h2
  have hn0 : 0 < s.n := by have := C.n2; omega
  have hnp : ¬ Published s i := by
    rintro ⟨e, h, h'⟩
    rw [h2] at h
    cases h
    cases h'
  have hnd : ¬ Done s i := not_done_of_not_pub C hnp
  have hdi : s.deqLog[i]? = none := by
    cases h : s.deqLog[i]? with
    | none => rfl
    | some e => exact (hnp (C.pub i (lt_of_getElem? h))).elim
  have hacc := C.acc i (C.free i hi) hnd
  have hph0 : phase (est s i) (dst s i) = 0 := by unfold est; rw [h2]; rfl
  rw [hph0, Nat.add_zero] at hacc
  have hkn : (s.threads t).known (i % s.n) = (s.cells (i % s.n)).acc := by
    have := I.known t (i % s.n)
    omega
  unfold enqWrite access
  rw [idx_eq C, if_pos hkn, R.ok_bind]
  refine ⟨_, rfl, ?_⟩
  generalize hs' : ({ accessed s t (i % s.n) v (.ePub i i) with enqLog := setStage s.enqLog i .written } : State α) = s'
  have hn : s'.n = s.n := by rw [← hs']; rfl
  have hel : s'.enqLog = s.enqLog.set i { val := v, stage := .written, thread := t } := by rw [← hs']; exact setStage_eq h2 _
  have hdl : s'.deqLog = s.deqLog := by rw [← hs']; rfl
  have hc : s'.cells = upd s.cells (i % s.n) { msgs := (s.cells (i % s.n)).msgs, data := v, acc := (s.cells (i % s.n)).acc + 1 } := by rw [← hs']; rfl
  have ht : s'.threads = upd s.threads t { pc := .ePub i i, known := upd (s.threads t).known (i % s.n) ((s.cells (i % s.n)).acc + 1) } := by
    rw [← hs']; rfl
  have hlen : s'.enqLog.length = s.enqLog.length := by rw [hel]; simp
  have hget : ∀ p, s'.enqLog[p]? = if p = i then some { val := v, stage := .written, thread := t } else s.enqLog[p]? := by
    intro p; rw [hel]; exact set_getElem? h2 _ _
  have hpub : ∀ p, Published s' p ↔ Published s p := by
    intro p
    by_cases e : p = i
    · rw [e]
      constructor
      · rintro ⟨e, h, h'⟩
        rw [hget, if_pos rfl] at h
        cases h; cases h'
      · intro h; exact (hnp h).elim
    · unfold Published
      rw [hget, if_neg e]
  have hdone : ∀ p, Done s' p ↔ Done s p := by intro p; unfold Done; rw [hdl]
  have hfree : ∀ p, Free s' p ↔ Free s p := by intro p; unfold Free; rw [hn, hdone]
  have hdst : ∀ p, dst s' p = dst s p := by intro p; unfold dst; rw [hdl]
  have hest : ∀ p, p ≠ i → est s' p = est s p := by intro p e; unfold est; rw [hget, if_neg e]
  have hph1 : phase (est s' i) (dst s' i) = 1 := by
    rw [hdst]
    unfold est dst
    rw [hget, if_pos rfl, hdi]
    rfl
  have hmsgs : ∀ c, (s'.cells c).msgs = (s.cells c).msgs := by
    intro c
    rw [hc]
    by_cases e : c = i % s.n
    · rw [e, upd_same]
    · rw [upd_ne _ _ e]
  have haccle : ∀ c, (s.cells c).acc ≤ (s'.cells c).acc := by
    intro c
    rw [hc]
    by_cases e : c = i % s.n
    · rw [e, upd_same]; exact Nat.le_succ _
    · rw [upd_ne _ _ e]; exact Nat.le_refl _
  have E : Ext t s s' := by
    refine ⟨hn, by omega, by rw [hdl]; exact Nat.le_refl _, fun p h => (hpub p).2 h, fun p h => (hdone p).2 h, fun j e h he => ?_, fun j e h _ => ?_,
      fun j e h he => ?_, fun j e h _ => ?_, fun t' h => ?_⟩
    · rw [hget]
      by_cases e' : j = i
      · subst e'
        rw [h2] at h; cases h; exact (he rfl).elim
      · rw [if_neg e']; exact h
    · rw [hdl]; exact h
    · rw [hget] at h
      by_cases e' : j = i
      · rw [if_pos e'] at h; cases h; exact (he rfl).elim
      · rw [if_neg e'] at h; exact h
    · rw [hdl] at h; exact h
    · rw [ht, upd_ne _ _ h]
  refine I.ext E ⟨by rw [hn]; exact C.n2, by rw [hn]; exact C.pow, by rw [hlen, hn]; exact C.small, ?_, ?_, ?_, ?_, ?_, ?_, ?_, ?_, ?_, ?_, ?_, ?_⟩ haccle ?_ ?_ ?_ ?_
  · rw [hlen, ← hs']; exact C.enq
  · rw [hlen, ← hs']; exact C.enqOld
  · rw [hdl, ← hs']; exact C.deq
  · rw [hdl, ← hs']; exact C.deqOld
  · intro p hp
    rw [hdl] at hp
    exact (hpub p).2 (C.pub p hp)
  · intro p hp
    rw [hlen] at hp
    exact (hfree p).2 (C.free p hp)
  · intro c hc' m hm
    rw [hmsgs] at hm
    rw [hn] at hc' ⊢
    rcases C.msgs c hc' m hm with ⟨a, b, d⟩ | ⟨p, a, b, d, e⟩
    · exact Or.inl ⟨a, (hfree _).2 b, d⟩
    · exact Or.inr ⟨p, a, b, (hpub _).2 d, e⟩
  · intro c c' m hm
    rw [hmsgs] at hm
    exact Nat.le_trans (C.views c c' m hm) (haccle c)
  · intro p hp hd
    have hp' := (hfree p).1 hp
    have hd' : ¬ Done s p := fun h => hd ((hdone p).2 h)
    rw [hn]
    by_cases e : p % s.n = i % s.n
    · have : p = i := cur_unique C hp' hd' (C.free i hi) hnd e
      rw [this, hph1, hc, upd_same]
      change (s.cells (i % s.n)).acc + 1 = _
      omega
    · have hne : p ≠ i := fun h => e (by rw [h])
      rw [hc, upd_ne _ _ e, hest p hne, hdst]
      exact C.acc p hp' hd'
  · intro p hp hd hph
    have hp' := (hfree p).1 hp
    have hd' : ¬ Done s p := fun h => hd ((hdone p).2 h)
    rw [hn]
    by_cases e : p % s.n = i % s.n
    · have : p = i := cur_unique C hp' hd' (C.free i hi) hnd e
      rw [this, hc, upd_same, hget, if_pos rfl]
      rfl
    · have hne : p ≠ i := fun h => e (by rw [h])
      rw [hest p hne, hdst] at hph
      rw [hc, upd_ne _ _ e, hget, if_neg hne]
      exact C.data p hp' hd' hph
  · intro p hp hd
    rw [hn, hmsgs]
    obtain ⟨m, rest, a, b, c⟩ := C.head p ((hfree p).1 hp) (fun h => hd ((hdone p).2 h))
    exact ⟨m, rest, a, fun h => b ((hpub p).1 h), fun h => c (fun h' => h ((hpub p).2 h'))⟩
  · intro j e w he hr
    rw [hdl] at he
    rw [hget, if_neg]
    · exact C.order j e w he hr
    · intro e'
      rw [e', hdi] at he
      cases he
  · rw [ht, upd_same]
    refine ⟨rfl, ⟨v, by rw [hget, if_pos rfl]⟩, ?_⟩
    rw [ht, upd_same, hn]
    simp only [upd_same]
    omega
  · intro c
    rw [ht, upd_same, hc]
    by_cases e : c = i % s.n
    · rw [e, upd_same]; simp only [upd_same]; exact Nat.le_refl _
    · rw [upd_ne _ _ e]; simp only [upd_ne _ _ e]; exact I.known t c
  · intro p e he het
    rw [ht, upd_same]
    rw [hget] at he
    by_cases e' : p = i
    · rw [if_pos e'] at he
      cases he
      rw [e']
      exact ⟨fun h => (by cases h), fun _ => rfl⟩
    · rw [if_neg e'] at he
      have h0 := I.ownE p e he
      rw [het, hpc] at h0
      refine ⟨fun h => ?_, fun h => ?_⟩
      · have := h0.1 h; cases this; exact (e' rfl).elim
      · have := h0.2 h; cases this
  · intro p e he het
    rw [hdl] at he
    obtain ⟨w, hw⟩ := I.noD (t := t) (by rw [hpc]; intro _ _ h; cases h) (by rw [hpc]; intro _ _ _ h; cases h) he het
    rw [hw]
    exact ⟨fun h => (by cases h), fun _ h => (by cases h)⟩

/-! ### publishing -/

theorem Inv.enqPublished {s : State α} (I : Inv s) {t : Nat} {pos i : Nat} (hpc : (s.threads t).pc = .ePub pos i) :
    ∃ s', enqPub s t pos i = .ok s' ∧ Inv s' := by
  have C := I.core
  have hT := I.thr t
  rw [hpc] at hT
  obtain ⟨h1, ⟨v, h2⟩, h3⟩ := hT
  have h1' := h1.symm
  clear h1
  subst h1'
  have hi : i < s.enqLog.length := lt_of_getElem? h2
  have hn0 : 0 < s.n := by have := C.n2; omega
  have hnp : ¬ Published s i := by
    rintro ⟨e, h, h'⟩
    rw [h2] at h
    cases h
    cases h'
  have hnd : ¬ Done s i := not_done_of_not_pub C hnp
  have hmod : (i + 1) % 2 ^ 64 = i + 1 := Nat.mod_eq_of_lt (by have := C.small; omega)
  unfold enqPub
  rw [idx_eq C, hmod]
  refine ⟨_, rfl, ?_⟩
  generalize hs' : ({ (s.store t (i % s.n) (i + 1)).ret t (.enqueued true) with enqLog := setStage s.enqLog i .published } : State α) = s'
  have hn : s'.n = s.n := by rw [← hs']; rfl
  have hel : s'.enqLog = s.enqLog.set i { val := v, stage := .published, thread := t } := by rw [← hs']; exact setStage_eq h2 _
  have hdl : s'.deqLog = s.deqLog := by rw [← hs']; rfl
  have hc : s'.cells = upd s.cells (i % s.n)
      { msgs := { seq := i + 1, view := (s.threads t).known } :: (s.cells (i % s.n)).msgs, data := (s.cells (i % s.n)).data, acc := (s.cells (i % s.n)).acc } := by
    rw [← hs']; rfl
  have ht : s'.threads = upd s.threads t { pc := .idle, known := (s.threads t).known } := by rw [← hs']; rfl
  have hlen : s'.enqLog.length = s.enqLog.length := by rw [hel]; simp
  have hget : ∀ p, s'.enqLog[p]? = if p = i then some { val := v, stage := .published, thread := t } else s.enqLog[p]? := by
    intro p; rw [hel]; exact set_getElem? h2 _ _
  have hpubi : Published s' i := ⟨_, by rw [hget, if_pos rfl], rfl⟩
  have hpubne : ∀ p, p ≠ i → (Published s' p ↔ Published s p) := by
    intro p e
    unfold Published
    rw [hget, if_neg e]
  have hpub : ∀ p, Published s p → Published s' p := by
    intro p h
    by_cases e : p = i
    · rw [e]; exact hpubi
    · exact (hpubne p e).2 h
  have hdone : ∀ p, Done s' p ↔ Done s p := by intro p; unfold Done; rw [hdl]
  have hfree : ∀ p, Free s' p ↔ Free s p := by intro p; unfold Free; rw [hn, hdone]
  have hdst : ∀ p, dst s' p = dst s p := by intro p; unfold dst; rw [hdl]
  have hph : ∀ p, phase (est s' p) (dst s' p) = phase (est s p) (dst s p) := by
    intro p
    rw [hdst]
    unfold est
    rw [hget]
    by_cases e : p = i
    · rw [if_pos e, e, h2]
      cases dst s i with
      | none => rfl
      | some x => cases x <;> rfl
    · rw [if_neg e]
  have hval : ∀ p : Nat, (s'.enqLog[p]?).map EnqE.val = (s.enqLog[p]?).map EnqE.val := by
    intro p
    rw [hget]
    by_cases e : p = i
    · rw [if_pos e, e, h2]; rfl
    · rw [if_neg e]
  have haccd : ∀ c, (s'.cells c).acc = (s.cells c).acc ∧ (s'.cells c).data = (s.cells c).data := by
    intro c
    rw [hc]
    by_cases e : c = i % s.n
    · rw [e, upd_same]; exact ⟨rfl, rfl⟩
    · rw [upd_ne _ _ e]; exact ⟨rfl, rfl⟩
  have E : Ext t s s' := by
    refine ⟨hn, by omega, by rw [hdl]; exact Nat.le_refl _, hpub, fun p h => (hdone p).2 h, fun j e h he => ?_, fun j e h _ => ?_,
      fun j e h he => ?_, fun j e h _ => ?_, fun t' h => ?_⟩
    · rw [hget]
      by_cases e' : j = i
      · subst e'
        rw [h2] at h; cases h; exact (he rfl).elim
      · rw [if_neg e']; exact h
    · rw [hdl]; exact h
    · rw [hget] at h
      by_cases e' : j = i
      · rw [if_pos e'] at h; cases h; exact (he rfl).elim
      · rw [if_neg e'] at h; exact h
    · rw [hdl] at h; exact h
    · rw [ht, upd_ne _ _ h]
  refine I.ext E ⟨by rw [hn]; exact C.n2, by rw [hn]; exact C.pow, by rw [hlen, hn]; exact C.small, ?_, ?_, ?_, ?_, ?_, ?_, ?_, ?_, ?_, ?_, ?_, ?_⟩
    (fun c => by rw [(haccd c).1]; exact Nat.le_refl _) ?_ ?_ ?_ ?_
  · rw [hlen, ← hs']; exact C.enq
  · rw [hlen, ← hs']; exact C.enqOld
  · rw [hdl, ← hs']; exact C.deq
  · rw [hdl, ← hs']; exact C.deqOld
  · intro p hp
    rw [hdl] at hp
    exact hpub p (C.pub p hp)
  · intro p hp
    rw [hlen] at hp
    exact (hfree p).2 (C.free p hp)
  · intro c hc' m hm
    rw [hn] at hc' ⊢
    rw [hc] at hm
    have hold : m ∈ (s.cells c).msgs → (m.seq % s.n = c ∧ Free s' m.seq ∧ 2 * (m.seq / s.n) ≤ m.view c) ∨
        (∃ p, m.seq = p + 1 ∧ p % s.n = c ∧ Published s' p ∧ 2 * (p / s.n) + 1 ≤ m.view c) := by
      intro hm
      rcases C.msgs c hc' m hm with ⟨a, b, d⟩ | ⟨p, a, b, d, e⟩
      · exact Or.inl ⟨a, (hfree _).2 b, d⟩
      · exact Or.inr ⟨p, a, b, hpub _ d, e⟩
    by_cases e : c = i % s.n
    · rw [e, upd_same] at hm
      rcases List.mem_cons.1 hm with h | h
      · rw [h]
        exact Or.inr ⟨i, rfl, e.symm, hpubi, by rw [e]; exact h3⟩
      · exact hold (e ▸ h)
    · rw [upd_ne _ _ e] at hm
      exact hold hm
  · intro c c' m hm
    rw [(haccd c).1]
    rw [hc] at hm
    by_cases e : c' = i % s.n
    · rw [e, upd_same] at hm
      rcases List.mem_cons.1 hm with h | h
      · rw [h]; exact I.known t c
      · exact C.views c _ m h
    · rw [upd_ne _ _ e] at hm
      exact C.views c c' m hm
  · intro p hp hd
    rw [hn, (haccd _).1, hph]
    exact C.acc p ((hfree p).1 hp) (fun h => hd ((hdone p).2 h))
  · intro p hp hd h1
    rw [hph] at h1
    rw [hn, (haccd _).2, hval]
    exact C.data p ((hfree p).1 hp) (fun h => hd ((hdone p).2 h)) h1
  · intro p hp hd
    have hp' := (hfree p).1 hp
    have hd' : ¬ Done s p := fun h => hd ((hdone p).2 h)
    rw [hn]
    by_cases e : p % s.n = i % s.n
    · have : p = i := cur_unique C hp' hd' (C.free i hi) hnd e
      rw [this, hc, upd_same]
      exact ⟨_, _, rfl, fun _ => rfl, fun h => (h hpubi).elim⟩
    · have hne : p ≠ i := fun h => e (by rw [h])
      rw [hc, upd_ne _ _ e]
      obtain ⟨m, rest, a, b, c⟩ := C.head p hp' hd'
      exact ⟨m, rest, a, fun h => b ((hpubne p hne).1 h), fun h => c (fun h' => h ((hpubne p hne).2 h'))⟩
  · intro j e w he hr
    rw [hdl] at he
    rw [hval]
    exact C.order j e w he hr
  · rw [ht, upd_same]; trivial
  · intro c
    rw [ht, upd_same, (haccd c).1]
    exact I.known t c
  · intro p e he het
    rw [ht, upd_same]
    rw [hget] at he
    by_cases e' : p = i
    · rw [if_pos e'] at he
      cases he
      exact ⟨fun h => (by cases h), fun h => (by cases h)⟩
    · rw [if_neg e'] at he
      have h0 := I.ownE p e he
      rw [het, hpc] at h0
      refine ⟨fun h => ?_, fun h => ?_⟩
      · have := h0.1 h; cases this
      · have := h0.2 h; cases this; exact (e' rfl).elim
  · intro p e he het
    rw [hdl] at he
    obtain ⟨w, hw⟩ := I.noD (t := t) (by rw [hpc]; intro _ _ h; cases h) (by rw [hpc]; intro _ _ _ h; cases h) he het
    rw [hw]
    exact ⟨fun h => (by cases h), fun _ h => (by cases h)⟩

/-! ### claiming a position for a dequeue -/

theorem Inv.deqClaim {s : State α} (I : Inv s) {t : Nat} {pos : Nat} (hpc : (s.threads t).pc = .dCas pos) (hpos : s.deq = pos) :
    Inv { s.goto t (.dRead pos s.deqLog.length) with
          deq := (pos + 1) % 2 ^ 64, deqOld := s.deq :: s.deqOld, deqLog := s.deqLog ++ [{ stage := .claimed, thread := t }] } := by
  have C := I.core
  have hT := I.thr t
  rw [hpc] at hT
  obtain ⟨h1, h2, h3⟩ := hT
  have hE : pos = s.deqLog.length := by rw [← hpos, C.deq]
  subst hE
  generalize hs' : ({ s.goto t (.dRead s.deqLog.length s.deqLog.length) with
          deq := (s.deqLog.length + 1) % 2 ^ 64, deqOld := s.deq :: s.deqOld,
          deqLog := s.deqLog ++ [{ stage := .claimed, thread := t }] } : State α) = s'
  have hn : s'.n = s.n := by rw [← hs']; rfl
  have hdl : s'.deqLog = s.deqLog ++ [{ stage := .claimed, thread := t }] := by rw [← hs']
  have hel : s'.enqLog = s.enqLog := by rw [← hs']; rfl
  have hc : s'.cells = s.cells := by rw [← hs']; rfl
  have ht : s'.threads = upd s.threads t { pc := .dRead s.deqLog.length s.deqLog.length, known := (s.threads t).known } := by rw [← hs']; rfl
  have hlen : s'.deqLog.length = s.deqLog.length + 1 := by rw [hdl]; simp
  have hget : ∀ p, s'.deqLog[p]? = if p = s.deqLog.length then some { stage := .claimed, thread := t } else s.deqLog[p]? := by
    intro p; rw [hdl]; exact snoc_getElem? _ _ _
  have hnone : s.deqLog[s.deqLog.length]? = none := List.getElem?_eq_none (Nat.le_refl _)
  have hpub : ∀ p, Published s' p ↔ Published s p := by intro p; unfold Published; rw [hel]
  have hdone : ∀ p, Done s' p ↔ Done s p := by
    intro p
    unfold Done
    rw [hget]
    by_cases e : p = s.deqLog.length
    · rw [if_pos e, e, hnone]
      constructor
      · rintro ⟨e, v, h, h'⟩; cases h; cases h'
      · rintro ⟨e, v, h, h'⟩; cases h
    · rw [if_neg e]
  have hfree : ∀ p, Free s' p ↔ Free s p := by intro p; unfold Free; rw [hn, hdone]
  have hest : ∀ p, est s' p = est s p := by intro p; unfold est; rw [hel]
  have hph : ∀ p, phase (est s' p) (dst s' p) = phase (est s p) (dst s p) := by
    intro p
    rw [hest]
    unfold dst
    rw [hget]
    by_cases e : p = s.deqLog.length
    · rw [if_pos e, e, hnone]
      cases est s s.deqLog.length with
      | none => rfl
      | some x => cases x <;> rfl
    · rw [if_neg e]
  have E : Ext t s s' := by
    refine ⟨hn, by rw [hel]; exact Nat.le_refl _, by omega, fun p h => (hpub p).2 h, fun p h => (hdone p).2 h, fun i e h _ => ?_, fun i e h _ => ?_,
      fun i e h _ => ?_, fun i e h he => ?_, fun t' h => ?_⟩
    · rw [hel]; exact h
    · rw [hget, if_neg (by have := lt_of_getElem? h; omega)]; exact h
    · rw [hel] at h; exact h
    · rw [hget] at h
      by_cases e' : i = s.deqLog.length
      · rw [if_pos e'] at h; cases h; exact (he rfl).elim
      · rw [if_neg e'] at h; exact h
    · rw [ht, upd_ne _ _ h]
  have hlt := pub_lt h2
  refine I.ext E ⟨by rw [hn]; exact C.n2, by rw [hn]; exact C.pow, by rw [hel, hn]; exact C.small, ?_, ?_, ?_, ?_, ?_, ?_, ?_, ?_, ?_, ?_, ?_, ?_⟩ ?_ ?_ ?_ ?_ ?_
  · rw [hel, ← hs']; exact C.enq
  · rw [hel, ← hs']; exact C.enqOld
  · rw [hlen, ← hs']
    exact Nat.mod_eq_of_lt (by have := C.small; omega)
  · intro x hx
    rw [← hs'] at hx
    rw [hlen]
    rcases List.mem_cons.1 hx with h | h
    · rw [h, C.deq]; omega
    · have := C.deqOld x h; omega
  · intro p hp
    rw [hlen] at hp
    rw [hpub]
    by_cases e : p = s.deqLog.length
    · rw [e]; exact h2
    · exact C.pub p (by omega)
  · intro p hp
    rw [hel] at hp
    exact (hfree p).2 (C.free p hp)
  · intro c hc' m hm
    rw [hc] at hm
    rw [hn] at hc' ⊢
    rcases C.msgs c hc' m hm with ⟨a, b, d⟩ | ⟨p, a, b, d, e⟩
    · exact Or.inl ⟨a, (hfree _).2 b, d⟩
    · exact Or.inr ⟨p, a, b, (hpub _).2 d, e⟩
  · intro c c' m hm
    rw [hc] at hm ⊢
    exact C.views c c' m hm
  · intro p hp hd
    rw [hc, hn, hph]
    exact C.acc p ((hfree p).1 hp) (fun h => hd ((hdone p).2 h))
  · intro p hp hd h1
    rw [hph] at h1
    rw [hc, hn, hel]
    exact C.data p ((hfree p).1 hp) (fun h => hd ((hdone p).2 h)) h1
  · intro p hp hd
    rw [hc, hn]
    obtain ⟨m, rest, a, b, c⟩ := C.head p ((hfree p).1 hp) (fun h => hd ((hdone p).2 h))
    exact ⟨m, rest, a, fun h => b ((hpub p).1 h), fun h => c (fun h' => h ((hpub p).2 h'))⟩
  · intro i e w he hr
    rw [hel]
    rw [hget] at he
    by_cases e' : i = s.deqLog.length
    · rw [if_pos e'] at he; cases he; cases hr
    · rw [if_neg e'] at he
      exact C.order i e w he hr
  · intro c; rw [hc]; exact Nat.le_refl _
  · rw [ht, upd_same]
    refine ⟨rfl, by rw [hget, if_pos rfl], ?_⟩
    rw [ht, upd_same, hn]
    exact h3
  · intro c
    rw [ht, upd_same, hc]
    exact I.known t c
  · intro p e he het
    rw [hel] at he
    have := I.noE (t := t) (by rw [hpc]; intro _ _ _ h; cases h) (by rw [hpc]; intro _ _ h; cases h) he het
    rw [this]
    exact ⟨fun h => (by cases h), fun h => (by cases h)⟩
  · intro p e he het
    rw [ht, upd_same]
    rw [hget] at he
    by_cases e' : p = s.deqLog.length
    · rw [if_pos e'] at he
      cases he
      rw [e']
      exact ⟨fun _ => rfl, fun _ h => by cases h⟩
    · rw [if_neg e'] at he
      obtain ⟨w, hw⟩ := I.noD (t := t) (by rw [hpc]; intro _ _ h; cases h) (by rw [hpc]; intro _ _ _ h; cases h) he het
      rw [hw]
      exact ⟨fun h => (by cases h), fun _ h => (by cases h)⟩

/-! ### reading the data -/

theorem Inv.deqReadOk {s : State α} (I : Inv s) {t : Nat} {pos i : Nat} (hpc : (s.threads t).pc = .dRead pos i) :
    ∃ s', deqRead s t pos i = .ok s' ∧ Inv s' := by
  have C := I.core
  have hT := I.thr t
  rw [hpc] at hT
  obtain ⟨h1, h2, h3⟩ := hT
  have h1' := h1.symm
  clear h1
  subst h1'
  have hid : i < s.deqLog.length := lt_of_getElem? h2
  have hpi := C.pub i hid
  have hi := pub_lt hpi
  have hn0 : 0 < s.n := by have := C.n2; omega
  have hnd : ¬ Done s i := by
    rintro ⟨e, v, h, h'⟩
    rw [h2] at h
    cases h
    cases h'
  have hph1 : phase (est s i) (dst s i) = 1 := by
    obtain ⟨e, he, hs⟩ := hpi
    unfold est dst
    rw [he, h2]
    simp only [Option.map_some, hs]
    rfl
  have hacc := C.acc i (C.free i hi) hnd
  rw [hph1] at hacc
  have hdata := C.data i (C.free i hi) hnd hph1
  have hkn : (s.threads t).known (i % s.n) = (s.cells (i % s.n)).acc := by
    have := I.known t (i % s.n)
    omega
  unfold deqRead access
  rw [idx_eq C, if_pos hkn, R.ok_bind]
  refine ⟨_, rfl, ?_⟩
  generalize hv : (s.cells (i % s.n)).data = v at hdata
  generalize hs' : ({ accessed s t (i % s.n) v (.dRel i i v) with deqLog := setDStage s.deqLog i (.read v) } : State α) = s'
  have hn : s'.n = s.n := by rw [← hs']; rfl
  have hdl : s'.deqLog = s.deqLog.set i { stage := .read v, thread := t } := by rw [← hs']; exact setDStage_eq h2 _
  have hel : s'.enqLog = s.enqLog := by rw [← hs']; rfl
  have hc : s'.cells = upd s.cells (i % s.n) { msgs := (s.cells (i % s.n)).msgs, data := v, acc := (s.cells (i % s.n)).acc + 1 } := by rw [← hs']; rfl
  have ht : s'.threads = upd s.threads t { pc := .dRel i i v, known := upd (s.threads t).known (i % s.n) ((s.cells (i % s.n)).acc + 1) } := by
    rw [← hs']; rfl
  have hlen : s'.deqLog.length = s.deqLog.length := by rw [hdl]; simp
  have hget : ∀ p, s'.deqLog[p]? = if p = i then some { stage := .read v, thread := t } else s.deqLog[p]? := by
    intro p; rw [hdl]; exact set_getElem? h2 _ _
  have hpub : ∀ p, Published s' p ↔ Published s p := by intro p; unfold Published; rw [hel]
  have hdone : ∀ p, Done s' p ↔ Done s p := by
    intro p
    by_cases e : p = i
    · rw [e]
      constructor
      · rintro ⟨e, w, h, h'⟩
        rw [hget, if_pos rfl] at h
        cases h; cases h'
      · intro h; exact (hnd h).elim
    · unfold Done
      rw [hget, if_neg e]
  have hfree : ∀ p, Free s' p ↔ Free s p := by intro p; unfold Free; rw [hn, hdone]
  have hest : ∀ p, est s' p = est s p := by intro p; unfold est; rw [hel]
  have hdst : ∀ p, p ≠ i → dst s' p = dst s p := by intro p e; unfold dst; rw [hget, if_neg e]
  have hph2 : phase (est s' i) (dst s' i) = 2 := by
    obtain ⟨e, he, hs⟩ := hpi
    unfold est dst
    rw [hget, if_pos rfl, hel, he]
    simp only [Option.map_some, hs]
    rfl
  have hmsgs : ∀ c, (s'.cells c).msgs = (s.cells c).msgs := by
    intro c
    rw [hc]
    by_cases e : c = i % s.n
    · rw [e, upd_same]
    · rw [upd_ne _ _ e]
  have haccle : ∀ c, (s.cells c).acc ≤ (s'.cells c).acc := by
    intro c
    rw [hc]
    by_cases e : c = i % s.n
    · rw [e, upd_same]; exact Nat.le_succ _
    · rw [upd_ne _ _ e]; exact Nat.le_refl _
  have E : Ext t s s' := by
    refine ⟨hn, by rw [hel]; exact Nat.le_refl _, by omega, fun p h => (hpub p).2 h, fun p h => (hdone p).2 h, fun j e h _ => ?_, fun j e h he => ?_,
      fun j e h _ => ?_, fun j e h he => ?_, fun t' h => ?_⟩
    · rw [hel]; exact h
    · rw [hget]
      by_cases e' : j = i
      · subst e'
        rw [h2] at h; cases h; exact (he rfl).elim
      · rw [if_neg e']; exact h
    · rw [hel] at h; exact h
    · rw [hget] at h
      by_cases e' : j = i
      · rw [if_pos e'] at h; cases h; exact (he rfl).elim
      · rw [if_neg e'] at h; exact h
    · rw [ht, upd_ne _ _ h]
  refine I.ext E ⟨by rw [hn]; exact C.n2, by rw [hn]; exact C.pow, by rw [hel, hn]; exact C.small, ?_, ?_, ?_, ?_, ?_, ?_, ?_, ?_, ?_, ?_, ?_, ?_⟩ haccle ?_ ?_ ?_ ?_
  · rw [hel, ← hs']; exact C.enq
  · rw [hel, ← hs']; exact C.enqOld
  · rw [hlen, ← hs']; exact C.deq
  · rw [hlen, ← hs']; exact C.deqOld
  · intro p hp
    rw [hlen] at hp
    exact (hpub p).2 (C.pub p hp)
  · intro p hp
    rw [hel] at hp
    exact (hfree p).2 (C.free p hp)
  · intro c hc' m hm
    rw [hmsgs] at hm
    rw [hn] at hc' ⊢
    rcases C.msgs c hc' m hm with ⟨a, b, d⟩ | ⟨p, a, b, d, e⟩
    · exact Or.inl ⟨a, (hfree _).2 b, d⟩
    · exact Or.inr ⟨p, a, b, (hpub _).2 d, e⟩
  · intro c c' m hm
    rw [hmsgs] at hm
    exact Nat.le_trans (C.views c c' m hm) (haccle c)
  · intro p hp hd
    have hp' := (hfree p).1 hp
    have hd' : ¬ Done s p := fun h => hd ((hdone p).2 h)
    rw [hn]
    by_cases e : p % s.n = i % s.n
    · have : p = i := cur_unique C hp' hd' (C.free i hi) hnd e
      rw [this, hph2, hc, upd_same]
      change (s.cells (i % s.n)).acc + 1 = _
      omega
    · have hne : p ≠ i := fun h => e (by rw [h])
      rw [hc, upd_ne _ _ e, hdst p hne, hest]
      exact C.acc p hp' hd'
  · intro p hp hd hph
    have hp' := (hfree p).1 hp
    have hd' : ¬ Done s p := fun h => hd ((hdone p).2 h)
    rw [hn]
    by_cases e : p % s.n = i % s.n
    · have : p = i := cur_unique C hp' hd' (C.free i hi) hnd e
      rw [this, hph2] at hph
      cases hph
    · have hne : p ≠ i := fun h => e (by rw [h])
      rw [hdst p hne, hest] at hph
      rw [hc, upd_ne _ _ e, hel]
      exact C.data p hp' hd' hph
  · intro p hp hd
    rw [hn, hmsgs]
    obtain ⟨m, rest, a, b, c⟩ := C.head p ((hfree p).1 hp) (fun h => hd ((hdone p).2 h))
    exact ⟨m, rest, a, fun h => b ((hpub p).1 h), fun h => c (fun h' => h ((hpub p).2 h'))⟩
  · intro j e w he hr
    rw [hel]
    rw [hget] at he
    by_cases e' : j = i
    · rw [if_pos e'] at he
      cases he
      simp only [result, Option.some.injEq] at hr
      rw [e', hdata, hr]
    · rw [if_neg e'] at he
      exact C.order j e w he hr
  · rw [ht, upd_same]
    refine ⟨rfl, by rw [hget, if_pos rfl], ?_⟩
    rw [ht, upd_same, hn]
    simp only [upd_same]
    omega
  · intro c
    rw [ht, upd_same, hc]
    by_cases e : c = i % s.n
    · rw [e, upd_same]; simp only [upd_same]; exact Nat.le_refl _
    · rw [upd_ne _ _ e]; simp only [upd_ne _ _ e]; exact I.known t c
  · intro p e he het
    rw [hel] at he
    have := I.noE (t := t) (by rw [hpc]; intro _ _ _ h; cases h) (by rw [hpc]; intro _ _ h; cases h) he het
    rw [this]
    exact ⟨fun h => (by cases h), fun h => (by cases h)⟩
  · intro p e he het
    rw [ht, upd_same]
    rw [hget] at he
    by_cases e' : p = i
    · rw [if_pos e'] at he
      cases he
      rw [e']
      exact ⟨fun h => (by cases h), fun w h => (by cases h; rfl)⟩
    · rw [if_neg e'] at he
      have h0 := I.ownD p e he
      rw [het, hpc] at h0
      refine ⟨fun h => ?_, fun w h => ?_⟩
      · have := h0.1 h; cases this; exact (e' rfl).elim
      · have := h0.2 w h; cases this

/-! ### giving the cell back -/

theorem Inv.deqReleased {s : State α} (I : Inv s) {t : Nat} {pos i : Nat} {v : α} (hpc : (s.threads t).pc = .dRel pos i v) :
    ∃ s', deqRel s t pos i v = .ok s' ∧ Inv s' := by
  have C := I.core
  have hT := I.thr t
  rw [hpc] at hT
  obtain ⟨h1, h2, h3⟩ := hT
  have h1' := h1.symm
  clear h1
  subst h1'
  have hid : i < s.deqLog.length := lt_of_getElem? h2
  have hpi := C.pub i hid
  have hi := pub_lt hpi
  have hn0 : 0 < s.n := by have := C.n2; omega
  have hnd : ¬ Done s i := by
    rintro ⟨e, v, h, h'⟩
    rw [h2] at h
    cases h
    cases h'
  have hph2 : phase (est s i) (dst s i) = 2 := by
    obtain ⟨e, he, hs⟩ := hpi
    unfold est dst
    rw [he, h2]
    simp only [Option.map_some, hs]
    rfl
  have hacc := C.acc i (C.free i hi) hnd
  rw [hph2] at hacc
  have hmod : (i + (s.n - 1) + 1) % 2 ^ 64 = i + s.n := by
    rw [show i + (s.n - 1) + 1 = i + s.n by omega]
    exact Nat.mod_eq_of_lt (by have := C.small; omega)
  have hdiv : (i + s.n) / s.n = i / s.n + 1 := Nat.add_div_right i hn0
  have hmd : (i + s.n) % s.n = i % s.n := Nat.add_mod_right i s.n
  -- nobody can have claimed the next position of this cell
  have hnext : s.enqLog[i + s.n]? = none := by
    cases h : s.enqLog[i + s.n]? with
    | none => rfl
    | some e =>
      rcases C.free (i + s.n) (lt_of_getElem? h) with h | ⟨_, hd⟩
      · omega
      · rw [Nat.add_sub_cancel] at hd
        exact (hnd hd).elim
  unfold deqRel
  rw [idx_eq C, hmod]
  refine ⟨_, rfl, ?_⟩
  generalize hs' : ({ (s.store t (i % s.n) (i + s.n)).ret t (.dequeued (some v)) with deqLog := setDStage s.deqLog i (.done v) } : State α) = s'
  have hn : s'.n = s.n := by rw [← hs']; rfl
  have hdl : s'.deqLog = s.deqLog.set i { stage := .done v, thread := t } := by rw [← hs']; exact setDStage_eq h2 _
  have hel : s'.enqLog = s.enqLog := by rw [← hs']; rfl
  have hc : s'.cells = upd s.cells (i % s.n)
      { msgs := { seq := i + s.n, view := (s.threads t).known } :: (s.cells (i % s.n)).msgs, data := (s.cells (i % s.n)).data, acc := (s.cells (i % s.n)).acc } := by
    rw [← hs']; rfl
  have ht : s'.threads = upd s.threads t { pc := .idle, known := (s.threads t).known } := by rw [← hs']; rfl
  have hlen : s'.deqLog.length = s.deqLog.length := by rw [hdl]; simp
  have hget : ∀ p, s'.deqLog[p]? = if p = i then some { stage := .done v, thread := t } else s.deqLog[p]? := by
    intro p; rw [hdl]; exact set_getElem? h2 _ _
  have hpub : ∀ p, Published s' p ↔ Published s p := by intro p; unfold Published; rw [hel]
  have hdi : Done s' i := ⟨_, v, by rw [hget, if_pos rfl], rfl⟩
  have hdne : ∀ p, p ≠ i → (Done s' p ↔ Done s p) := by
    intro p e
    unfold Done
    rw [hget, if_neg e]
  have hdone : ∀ p, Done s p → Done s' p := by
    intro p h
    by_cases e : p = i
    · rw [e]; exact hdi
    · exact (hdne p e).2 h
  have hfree : ∀ p, Free s p → Free s' p := by
    intro p h
    unfold Free
    rw [hn]
    rcases h with h | ⟨h, hd⟩
    · exact Or.inl h
    · exact Or.inr ⟨h, hdone _ hd⟩
  have hfi : Free s' (i + s.n) := Or.inr ⟨by rw [hn]; omega, by rw [hn, Nat.add_sub_cancel]; exact hdi⟩
  -- a current position after the step is the next one of this cell, or a current one of another cell
  have hcur : ∀ p, Free s' p → ¬ Done s' p → p = i + s.n ∨ (p ≠ i ∧ Free s p ∧ ¬ Done s p ∧ p % s.n ≠ i % s.n) := by
    intro p hp hd
    by_cases e : p = i + s.n
    · exact Or.inl e
    · have hne : p ≠ i := fun h => hd (h ▸ hdi)
      have hd' : ¬ Done s p := fun h => hd (hdone p h)
      have hp' : Free s p := by
        unfold Free at hp
        rw [hn] at hp
        rcases hp with h | ⟨h, h'⟩
        · exact Or.inl h
        · exact Or.inr ⟨h, (hdne _ (by omega)).1 h'⟩
      exact Or.inr ⟨hne, hp', hd', fun h => hne (cur_unique C hp' hd' (C.free i hi) hnd h)⟩
  have hest : ∀ p, est s' p = est s p := by intro p; unfold est; rw [hel]
  have hdst : ∀ p, p ≠ i → dst s' p = dst s p := by intro p e; unfold dst; rw [hget, if_neg e]
  have hphn : phase (est s' (i + s.n)) (dst s' (i + s.n)) = 0 := by
    rw [hest]; unfold est; rw [hnext]; rfl
  have haccd : ∀ c, (s'.cells c).acc = (s.cells c).acc ∧ (s'.cells c).data = (s.cells c).data := by
    intro c
    rw [hc]
    by_cases e : c = i % s.n
    · rw [e, upd_same]; exact ⟨rfl, rfl⟩
    · rw [upd_ne _ _ e]; exact ⟨rfl, rfl⟩
  have E : Ext t s s' := by
    refine ⟨hn, by rw [hel]; exact Nat.le_refl _, by omega, fun p h => (hpub p).2 h, hdone, fun j e h _ => ?_, fun j e h he => ?_,
      fun j e h _ => ?_, fun j e h he => ?_, fun t' h => ?_⟩
    · rw [hel]; exact h
    · rw [hget]
      by_cases e' : j = i
      · subst e'
        rw [h2] at h; cases h; exact (he rfl).elim
      · rw [if_neg e']; exact h
    · rw [hel] at h; exact h
    · rw [hget] at h
      by_cases e' : j = i
      · rw [if_pos e'] at h; cases h; exact (he rfl).elim
      · rw [if_neg e'] at h; exact h
    · rw [ht, upd_ne _ _ h]
  refine I.ext E ⟨by rw [hn]; exact C.n2, by rw [hn]; exact C.pow, by rw [hel, hn]; exact C.small, ?_, ?_, ?_, ?_, ?_, ?_, ?_, ?_, ?_, ?_, ?_, ?_⟩
    (fun c => by rw [(haccd c).1]; exact Nat.le_refl _) ?_ ?_ ?_ ?_
  · rw [hel, ← hs']; exact C.enq
  · rw [hel, ← hs']; exact C.enqOld
  · rw [hlen, ← hs']; exact C.deq
  · rw [hlen, ← hs']; exact C.deqOld
  · intro p hp
    rw [hlen] at hp
    exact (hpub p).2 (C.pub p hp)
  · intro p hp
    rw [hel] at hp
    exact hfree p (C.free p hp)
  · intro c hc' m hm
    rw [hn] at hc' ⊢
    rw [hc] at hm
    have hold : m ∈ (s.cells c).msgs → (m.seq % s.n = c ∧ Free s' m.seq ∧ 2 * (m.seq / s.n) ≤ m.view c) ∨
        (∃ p, m.seq = p + 1 ∧ p % s.n = c ∧ Published s' p ∧ 2 * (p / s.n) + 1 ≤ m.view c) := by
      intro hm
      rcases C.msgs c hc' m hm with ⟨a, b, d⟩ | ⟨p, a, b, d, e⟩
      · exact Or.inl ⟨a, hfree _ b, d⟩
      · exact Or.inr ⟨p, a, b, (hpub _).2 d, e⟩
    by_cases e : c = i % s.n
    · rw [e, upd_same] at hm
      rcases List.mem_cons.1 hm with h | h
      · rw [h]
        refine Or.inl ⟨by rw [e]; exact hmd, hfi, ?_⟩
        change 2 * ((i + s.n) / s.n) ≤ (s.threads t).known c
        rw [hdiv, e]
        omega
      · exact hold (e ▸ h)
    · rw [upd_ne _ _ e] at hm
      exact hold hm
  · intro c c' m hm
    rw [(haccd c).1]
    rw [hc] at hm
    by_cases e : c' = i % s.n
    · rw [e, upd_same] at hm
      rcases List.mem_cons.1 hm with h | h
      · rw [h]; exact I.known t c
      · exact C.views c _ m h
    · rw [upd_ne _ _ e] at hm
      exact C.views c c' m hm
  · intro p hp hd
    rw [hn, (haccd _).1]
    rcases hcur p hp hd with h | ⟨a, b, c, d⟩
    · rw [h, hphn, hmd, hdiv]; omega
    · rw [hdst p a, hest]; exact C.acc p b c
  · intro p hp hd h1
    rw [hn, (haccd _).2, hel]
    rcases hcur p hp hd with h | ⟨a, b, c, d⟩
    · rw [h, hphn] at h1; cases h1
    · rw [hdst p a, hest] at h1; exact C.data p b c h1
  · intro p hp hd
    rw [hn]
    rcases hcur p hp hd with h | ⟨a, b, c, d⟩
    · rw [h, hmd, hc, upd_same]
      refine ⟨_, _, rfl, fun h => ?_, fun _ => rfl⟩
      have := pub_lt ((hpub _).1 h)
      rw [List.getElem?_eq_none_iff] at hnext
      omega
    · rw [hc, upd_ne _ _ d]
      obtain ⟨m, rest, x, y, z⟩ := C.head p b c
      exact ⟨m, rest, x, fun h => y ((hpub p).1 h), fun h => z (fun h' => h ((hpub p).2 h'))⟩
  · intro j e w he hr
    rw [hel]
    rw [hget] at he
    by_cases e' : j = i
    · rw [if_pos e'] at he
      cases he
      rw [e']
      exact C.order i _ w h2 hr
    · rw [if_neg e'] at he
      exact C.order j e w he hr
  · rw [ht, upd_same]; trivial
  · intro c
    rw [ht, upd_same, (haccd c).1]
    exact I.known t c
  · intro p e he het
    rw [hel] at he
    have := I.noE (t := t) (by rw [hpc]; intro _ _ _ h; cases h) (by rw [hpc]; intro _ _ h; cases h) he het
    rw [this]
    exact ⟨fun h => (by cases h), fun h => (by cases h)⟩
  · intro p e he het
    rw [ht, upd_same]
    rw [hget] at he
    by_cases e' : p = i
    · rw [if_pos e'] at he
      cases he
      exact ⟨fun h => (by cases h), fun w h => (by cases h)⟩
    · rw [if_neg e'] at he
      have h0 := I.ownD p e he
      rw [het, hpc] at h0
      refine ⟨fun h => ?_, fun w h => ?_⟩
      · have := h0.1 h; cases this
      · have := h0.2 w h; cases this; exact (e' rfl).elim

/-! ### loads and failed compare-exchanges -/

theorem acquire_goto (s : State α) (t : Nat) (m : Msg) (pc : Pc α) :
    (s.acquire t m).goto t pc =
      { s with threads := upd s.threads t { pc := pc, known := fun c => max ((s.threads t).known c) (m.view c) }, rets := s.rets } := by
  unfold State.goto State.acquire
  congr 1
  funext t'
  by_cases h : t' = t
  · simp [upd, h]
  · simp [upd, h]

theorem acquire_ret (s : State α) (t : Nat) (m : Msg) (r : Ret α) :
    (s.acquire t m).ret t r =
      { s with threads := upd s.threads t { pc := .idle, known := fun c => max ((s.threads t).known c) (m.view c) }, rets := (t, r) :: s.rets } := by
  unfold State.ret
  rw [acquire_goto]
  rfl

theorem Inv.acquired {s : State α} (I : Inv s) {t : Nat} (hno : NoOwner (s.threads t).pc) {c : Nat} {m : Msg} (hm : m ∈ (s.cells c).msgs) (pc : Pc α)
    (r : List (Nat × Ret α))
    (hpc : TInv { s with threads := upd s.threads t { pc := pc, known := fun c => max ((s.threads t).known c) (m.view c) }, rets := r } t pc) :
    Inv { s with threads := upd s.threads t { pc := pc, known := fun c => max ((s.threads t).known c) (m.view c) }, rets := r } :=
  I.local t hno pc _ r (fun c' => Nat.max_le.2 ⟨I.known t c', I.core.views c' c m hm⟩) hpc

theorem enqSeq_ok {s : State α} (I : Inv s) {t : Nat} {v : α} {pos : Nat} (c : Nat) (hpc : (s.threads t).pc = .eSeq v pos) :
    ∃ s', enqSeq s t v pos c = .ok s' ∧ Inv s' := by
  have C := I.core
  have hT := I.thr t
  rw [hpc] at hT
  change pos ≤ s.enqLog.length at hT
  have hsm := C.small
  have hn2 := C.n2
  have hlt : pos % s.n < s.n := Nat.mod_lt _ (by omega)
  have hno : NoOwner (s.threads t).pc := by rw [hpc]; trivial
  unfold enqSeq
  rw [idx_eq C, ccAssert_true (decide_eq_true hlt), R.ok_bind]
  cases hm : (s.cells (pos % s.n)).msgs[c]? with
  | none => exact ⟨s, rfl, I⟩
  | some m =>
    have hmem : m ∈ (s.cells (pos % s.n)).msgs := List.mem_of_getElem? hm
    simp only
    rw [sdiff_small (msg_small C hlt hmem) (by omega), R.ok_bind]
    refine ⟨_, rfl, ?_⟩
    unfold enqBranch
    by_cases h0 : (m.seq : Int) - pos = 0
    · rw [if_pos h0, acquire_goto]
      refine I.acquired hno hmem _ _ ?_
      have he : m.seq = pos := by omega
      rcases C.msgs _ hlt m hmem with ⟨_, hf, hv⟩ | ⟨p, e, hp, _, _⟩
      · rw [he] at hf hv
        refine ⟨hT, hf, ?_⟩
        change 2 * (pos / s.n) ≤ (upd s.threads t _ t).known (pos % s.n)
        rw [upd_same]
        exact Nat.le_trans hv (Nat.le_max_right _ _)
      · have := apart hp (by omega)
        omega
    · rw [if_neg h0]
      by_cases h1 : (m.seq : Int) - pos < 0
      · rw [if_pos h1, acquire_ret]
        exact I.acquired hno hmem _ _ trivial
      · rw [if_neg h1, acquire_goto]
        exact I.acquired hno hmem _ _ trivial

theorem deqSeq_ok {s : State α} (I : Inv s) {t : Nat} {pos : Nat} (c : Nat) (hpc : (s.threads t).pc = .dSeq pos) :
    ∃ s', deqSeq s t pos c = .ok s' ∧ Inv s' := by
  have C := I.core
  have hT := I.thr t
  rw [hpc] at hT
  change pos ≤ s.deqLog.length at hT
  have hsm := C.small
  have hle := C.le
  have hn2 := C.n2
  have hlt : pos % s.n < s.n := Nat.mod_lt _ (by omega)
  have hno : NoOwner (s.threads t).pc := by rw [hpc]; trivial
  have hmod : (pos + 1) % 2 ^ 64 = pos + 1 := Nat.mod_eq_of_lt (by omega)
  unfold deqSeq
  rw [idx_eq C, ccAssert_true (decide_eq_true hlt), R.ok_bind, hmod]
  cases hm : (s.cells (pos % s.n)).msgs[c]? with
  | none => exact ⟨s, rfl, I⟩
  | some m =>
    have hmem : m ∈ (s.cells (pos % s.n)).msgs := List.mem_of_getElem? hm
    simp only
    rw [sdiff_small (msg_small C hlt hmem) (by omega), R.ok_bind]
    refine ⟨_, rfl, ?_⟩
    unfold deqBranch
    by_cases h0 : (m.seq : Int) - (pos + 1 : Nat) = 0
    · rw [if_pos h0, acquire_goto]
      refine I.acquired hno hmem _ _ ?_
      have he : m.seq = pos + 1 := by omega
      rcases C.msgs _ hlt m hmem with ⟨hp, _, _⟩ | ⟨p, e, hp, hpu, hv⟩
      · rw [he] at hp
        have := apart hp.symm (by omega)
        omega
      · have : p = pos := by omega
        rw [this] at hpu hv
        refine ⟨hT, hpu, ?_⟩
        change 2 * (pos / s.n) + 1 ≤ (upd s.threads t _ t).known (pos % s.n)
        rw [upd_same]
        exact Nat.le_trans hv (Nat.le_max_right _ _)
    · rw [if_neg h0]
      by_cases h1 : (m.seq : Int) - (pos + 1 : Nat) < 0
      · rw [if_pos h1, acquire_ret]
        exact I.acquired hno hmem _ _ trivial
      · rw [if_neg h1, acquire_goto]
        exact I.acquired hno hmem _ _ trivial

theorem enq_hist {s : State α} (C : Core s) {c p : Nat} (h : (s.enq :: s.enqOld)[c]? = some p) : p ≤ s.enqLog.length := by
  rcases List.mem_cons.1 (List.mem_of_getElem? h) with h | h
  · rw [h, C.enq]; exact Nat.le_refl _
  · exact C.enqOld p h

theorem deq_hist {s : State α} (C : Core s) {c p : Nat} (h : (s.deq :: s.deqOld)[c]? = some p) : p ≤ s.deqLog.length := by
  rcases List.mem_cons.1 (List.mem_of_getElem? h) with h | h
  · rw [h, C.deq]; exact Nat.le_refl _
  · exact C.deqOld p h

theorem enqCas_ok {s : State α} (I : Inv s) {t : Nat} {v : α} {pos : Nat} (c : Nat) (hpc : (s.threads t).pc = .eCas v pos)
    (hs : ∀ s', enqCas s t v pos c = .ok s' → s'.enqLog.length + s.n < 2 ^ 63) : ∃ s', enqCas s t v pos c = .ok s' ∧ Inv s' := by
  have C := I.core
  have hno : NoOwner (s.threads t).pc := by rw [hpc]; trivial
  unfold enqCas at hs ⊢
  by_cases h0 : c = 0
  · rw [if_pos h0] at hs ⊢
    by_cases h1 : s.enq = pos
    · rw [if_pos h1] at hs ⊢
      refine ⟨_, rfl, I.enqClaim hpc h1 ?_⟩
      have := hs _ rfl
      simpa using this
    · rw [if_neg h1]
      exact ⟨_, rfl, I.goto t hno _ (by rw [C.enq]; exact Nat.le_refl _)⟩
  · rw [if_neg h0]
    cases hp : (s.enq :: s.enqOld)[c - 1]? with
    | none => exact ⟨s, rfl, I⟩
    | some p => exact ⟨_, rfl, I.goto t hno _ (enq_hist C hp)⟩

theorem deqCas_ok {s : State α} (I : Inv s) {t : Nat} {pos : Nat} (c : Nat) (hpc : (s.threads t).pc = .dCas pos) :
    ∃ s', deqCas s t pos c = .ok s' ∧ Inv s' := by
  have C := I.core
  have hno : NoOwner (s.threads t).pc := by rw [hpc]; trivial
  unfold deqCas
  by_cases h0 : c = 0
  · rw [if_pos h0]
    by_cases h1 : s.deq = pos
    · rw [if_pos h1]
      exact ⟨_, rfl, I.deqClaim hpc h1⟩
    · rw [if_neg h1]
      exact ⟨_, rfl, I.goto t hno _ (by rw [C.deq]; exact Nat.le_refl _)⟩
  · rw [if_neg h0]
    cases hp : (s.deq :: s.deqOld)[c - 1]? with
    | none => exact ⟨s, rfl, I⟩
    | some p => exact ⟨_, rfl, I.goto t hno _ (deq_hist C hp)⟩

theorem begin_ok {s : State α} (I : Inv s) {t : Nat} {pc : Pc α} (h : TInv s t pc) (q : Pc α) (hq : (s.threads t).pc = q) :
    ∃ s', begin s t pc q = .ok s' ∧ Inv s' := by
  unfold begin
  cases q with
  | idle => exact ⟨_, rfl, I.goto t (by rw [hq]; trivial) _ h⟩
  | _ => exact ⟨s, rfl, I⟩

theorem step_ok {s : State α} (I : Inv s) (t : Nat) (a : Act α) (hs : ∀ s', step s t a = .ok s' → s'.enqLog.length + s.n < 2 ^ 63) :
    ∃ s', step s t a = .ok s' ∧ Inv s' := by
  cases a with
  | enqueue v => exact begin_ok I (pc := .eLoad v) trivial _ rfl
  | dequeue => exact begin_ok I (pc := .dLoad) trivial _ rfl
  | go c =>
    unfold step at hs ⊢
    generalize hpc : (s.threads t).pc = pc at hs
    simp only at hs ⊢
    unfold advance at hs ⊢
    cases pc with
    | idle => exact ⟨s, rfl, I⟩
    | eLoad v =>
      simp only [enqLoad]
      cases hp : (s.enq :: s.enqOld)[c]? with
      | none => exact ⟨s, rfl, I⟩
      | some p => exact ⟨_, rfl, I.goto t (by rw [hpc]; trivial) _ (enq_hist I.core hp)⟩
    | eSeq v pos => exact enqSeq_ok I c hpc
    | eCas v pos => exact enqCas_ok I c hpc hs
    | eWrite v pos i => exact I.enqWritten hpc
    | ePub pos i => exact I.enqPublished hpc
    | dLoad =>
      simp only [deqLoad]
      cases hp : (s.deq :: s.deqOld)[c]? with
      | none => exact ⟨s, rfl, I⟩
      | some p => exact ⟨_, rfl, I.goto t (by rw [hpc]; trivial) _ (deq_hist I.core hp)⟩
    | dSeq pos => exact deqSeq_ok I c hpc
    | dCas pos => exact deqCas_ok I c hpc
    | dRead pos i => exact I.deqReadOk hpc
    | dRel pos i v => exact I.deqReleased hpc

/-! ### returned calls -/

/-- The returned calls are the finished claims. -/
structure Rets [DecidableEq α] (s : State α) : Prop where
  returned : ∀ t v, s.rets.count (t, .dequeued (some v)) = s.deqLog.countP (fun e => decide (e.thread = t ∧ e.stage = .done v))
  accepted : ∀ t, s.rets.count (t, .enqueued true) = s.enqLog.countP (fun e => decide (e.thread = t ∧ e.stage = .published))

theorem Rets.same [DecidableEq α] {s s' : State α} (H : Rets s) (hr : s'.rets = s.rets) (he : s'.enqLog = s.enqLog) (hd : s'.deqLog = s.deqLog) : Rets s' :=
  ⟨fun t v => by rw [hr, hd]; exact H.returned t v, fun t => by rw [hr, he]; exact H.accepted t⟩

theorem Rets.fail [DecidableEq α] {s s' : State α} (H : Rets s) {t : Nat} {r : Ret α} (hne : r = .enqueued false ∨ r = .dequeued none)
    (hr : s'.rets = (t, r) :: s.rets) (he : s'.enqLog = s.enqLog) (hd : s'.deqLog = s.deqLog) : Rets s' := by
  refine ⟨fun t' v => ?_, fun t' => ?_⟩
  · rw [hr, hd, List.count_cons_of_ne]
    · exact H.returned t' v
    · intro h
      rcases hne with h' | h' <;> rw [h'] at h <;> cases h
  · rw [hr, he, List.count_cons_of_ne]
    · exact H.accepted t'
    · intro h
      rcases hne with h' | h' <;> rw [h'] at h <;> cases h

theorem countP_set' {β : Type} (p : β → Bool) {l : List β} {i : Nat} {a b : β} (h : l[i]? = some a) (ha : p a = false) :
    (l.set i b).countP p = l.countP p + if p b = true then 1 else 0 := by
  have hi := lt_of_getElem? h
  rw [List.countP_set hi]
  have : l[i] = a := by
    rw [List.getElem?_eq_getElem hi] at h
    exact Option.some.inj h
  rw [this, ha]
  simp

theorem step_rets [DecidableEq α] {s s' : State α} (I : Inv s) (H : Rets s) (t : Nat) (a : Act α) (h : step s t a = .ok s') : Rets s' := by
  cases a with
  | enqueue v =>
    unfold step begin at h
    simp only at h
    split at h <;> cases h
    · exact H.same rfl rfl rfl
    · exact H
  | dequeue =>
    unfold step begin at h
    simp only at h
    split at h <;> cases h
    · exact H.same rfl rfl rfl
    · exact H
  | go c =>
    unfold step at h
    generalize hpc : (s.threads t).pc = pc at h
    simp only at h
    unfold advance at h
    have hT := I.thr t
    rw [hpc] at hT
    cases pc with
    | idle => cases h; exact H
    | eLoad v =>
      simp only [enqLoad] at h
      split at h <;> cases h
      · exact H.same rfl rfl rfl
      · exact H
    | eSeq v pos =>
      simp only [enqSeq] at h
      rw [R.bind_eq_ok] at h
      obtain ⟨_, _, h⟩ := h
      split at h
      · rw [R.bind_eq_ok] at h
        obtain ⟨d, _, h⟩ := h
        cases h
        unfold enqBranch
        split
        · exact H.same rfl rfl rfl
        · split
          · exact H.fail (Or.inl rfl) rfl rfl rfl
          · exact H.same rfl rfl rfl
      · cases h; exact H
    | eCas v pos =>
      simp only [enqCas] at h
      split at h
      · split at h <;> cases h
        · refine ⟨H.returned, fun t' => ?_⟩
          have h1 := H.accepted t'
          rw [List.countP_append]
          simpa [State.goto] using h1
        · exact H.same rfl rfl rfl
      · split at h <;> cases h
        · exact H.same rfl rfl rfl
        · exact H
    | eWrite v pos i =>
      simp only [enqWrite] at h
      rw [R.bind_eq_ok] at h
      obtain ⟨_, _, h⟩ := h
      cases h
      refine ⟨H.returned, fun t' => ?_⟩
      change s.rets.count _ = (setStage s.enqLog i .written).countP _
      rw [setStage_eq hT.2.1, countP_set' _ hT.2.1 (by simp)]
      simpa using H.accepted t'
    | ePub pos i =>
      simp only [enqPub] at h
      cases h
      obtain ⟨_, ⟨v, h2⟩, _⟩ := hT
      refine ⟨fun t' w => ?_, fun t' => ?_⟩
      · change ((t, Ret.enqueued true) :: s.rets).count _ = _
        rw [List.count_cons_of_ne (by intro h; cases h)]
        exact H.returned t' w
      · change ((t, Ret.enqueued true) :: s.rets).count _ = (setStage s.enqLog i .published).countP _
        rw [setStage_eq h2, countP_set' _ h2 (by simp), List.count_cons, H.accepted t']
        simp
    | dLoad =>
      simp only [deqLoad] at h
      split at h <;> cases h
      · exact H.same rfl rfl rfl
      · exact H
    | dSeq pos =>
      simp only [deqSeq] at h
      rw [R.bind_eq_ok] at h
      obtain ⟨_, _, h⟩ := h
      split at h
      · rw [R.bind_eq_ok] at h
        obtain ⟨d, _, h⟩ := h
        cases h
        unfold deqBranch
        split
        · exact H.same rfl rfl rfl
        · split
          · exact H.fail (Or.inr rfl) rfl rfl rfl
          · exact H.same rfl rfl rfl
      · cases h; exact H
    | dCas pos =>
      simp only [deqCas] at h
      split at h
      · split at h <;> cases h
        · refine ⟨fun t' w => ?_, H.accepted⟩
          have h1 := H.returned t' w
          rw [List.countP_append]
          simpa [State.goto] using h1
        · exact H.same rfl rfl rfl
      · split at h <;> cases h
        · exact H.same rfl rfl rfl
        · exact H
    | dRead pos i =>
      simp only [deqRead] at h
      rw [R.bind_eq_ok] at h
      obtain ⟨_, _, h⟩ := h
      cases h
      refine ⟨fun t' w => ?_, H.accepted⟩
      change s.rets.count _ = (setDStage s.deqLog i (.read _)).countP _
      rw [setDStage_eq hT.2.1, countP_set' _ hT.2.1 (by simp)]
      simpa using H.returned t' w
    | dRel pos i v =>
      simp only [deqRel] at h
      cases h
      refine ⟨fun t' w => ?_, fun t' => ?_⟩
      · change ((t, Ret.dequeued (some v)) :: s.rets).count _ = (setDStage s.deqLog i (.done v)).countP _
        rw [setDStage_eq hT.2.1, countP_set' _ hT.2.1 (by simp), List.count_cons, H.returned t' w]
        simp
      · change ((t, Ret.dequeued (some v)) :: s.rets).count _ = _
        rw [List.count_cons_of_ne (by intro h; cases h)]
        exact H.accepted t'

end Verif.Mpmc
