import Verif.Mpmc.Spec
import Verif.Bits.Props

/-! Invariants of the queue. -/
namespace Verif.Mpmc

open Spec

variable {α : Type}

/-- Position `p` may be used by an enqueue. -/
def Free (s : State α) (p : Nat) : Prop := p < s.n ∨ (s.n ≤ p ∧ Done s (p - s.n))

/-- Accesses made for a position. -/
def phase : Option EStage → Option (DStage α) → Nat
  | none, _ => 0
  | some .claimed, _ => 0
  | some _, none => 1
  | some _, some .claimed => 1
  | some _, some _ => 2

/-- The stage of enqueue `p`. -/
def est (s : State α) (p : Nat) : Option EStage := (s.enqLog[p]?).map (·.stage)

/-- The stage of dequeue `p`. -/
def dst (s : State α) (p : Nat) : Option (DStage α) := (s.deqLog[p]?).map (·.stage)

/-- Queue and history. -/
structure Core (s : State α) : Prop where
  n2 : 2 ≤ s.n
  pow : ∃ k, s.n = 2 ^ k
  small : s.enqLog.length + s.n < 2 ^ 63
  enq : s.enq = s.enqLog.length
  enqOld : ∀ x ∈ s.enqOld, x ≤ s.enqLog.length
  deq : s.deq = s.deqLog.length
  deqOld : ∀ x ∈ s.deqOld, x ≤ s.deqLog.length
  pub : ∀ p, p < s.deqLog.length → Published s p
  free : ∀ p, p < s.enqLog.length → Free s p
  msgs : ∀ c, c < s.n → ∀ m ∈ (s.cells c).msgs,
    (m.seq % s.n = c ∧ Free s m.seq ∧ 2 * (m.seq / s.n) ≤ m.view c) ∨
    (∃ p, m.seq = p + 1 ∧ p % s.n = c ∧ Published s p ∧ 2 * (p / s.n) + 1 ≤ m.view c)
  views : ∀ c c', ∀ m ∈ (s.cells c').msgs, m.view c ≤ (s.cells c).acc
  acc : ∀ p, Free s p → ¬ Done s p → (s.cells (p % s.n)).acc = 2 * (p / s.n) + phase (est s p) (dst s p)
  data : ∀ p, Free s p → ¬ Done s p → phase (est s p) (dst s p) = 1 → (s.enqLog[p]?).map (·.val) = some (s.cells (p % s.n)).data
  head : ∀ p, Free s p → ¬ Done s p → ∃ m rest, (s.cells (p % s.n)).msgs = m :: rest ∧ (Published s p → m.seq = p + 1) ∧ (¬ Published s p → m.seq = p)
  order : ∀ (i : Nat) (e : DeqE α) (v : α), s.deqLog[i]? = some e → result e.stage = some v → (s.enqLog[i]?).map (·.val) = some v

/-- What is known about a thread. -/
def TInv (s : State α) (t : Nat) : Pc α → Prop
  | .idle => True
  | .eLoad _ => True
  | .eSeq _ pos => pos ≤ s.enqLog.length
  | .eCas _ pos => pos ≤ s.enqLog.length ∧ Free s pos ∧ 2 * (pos / s.n) ≤ (s.threads t).known (pos % s.n)
  | .eWrite v pos i => pos = i ∧ s.enqLog[i]? = some { val := v, stage := .claimed, thread := t } ∧ 2 * (i / s.n) ≤ (s.threads t).known (i % s.n)
  | .ePub pos i => pos = i ∧ (∃ v, s.enqLog[i]? = some { val := v, stage := .written, thread := t }) ∧
      2 * (i / s.n) + 1 ≤ (s.threads t).known (i % s.n)
  | .dLoad => True
  | .dSeq pos => pos ≤ s.deqLog.length
  | .dCas pos => pos ≤ s.deqLog.length ∧ Published s pos ∧ 2 * (pos / s.n) + 1 ≤ (s.threads t).known (pos % s.n)
  | .dRead pos i => pos = i ∧ s.deqLog[i]? = some { stage := .claimed, thread := t } ∧ 2 * (i / s.n) + 1 ≤ (s.threads t).known (i % s.n)
  | .dRel pos i v => pos = i ∧ s.deqLog[i]? = some { stage := .read v, thread := t } ∧ 2 * (i / s.n) + 2 ≤ (s.threads t).known (i % s.n)

/-- Queue and threads. -/
structure Inv (s : State α) : Prop where
  core : Core s
  thr : ∀ t, TInv s t (s.threads t).pc
  known : ∀ t c, (s.threads t).known c ≤ (s.cells c).acc
  ownE : ∀ (p : Nat) (e : EnqE α), s.enqLog[p]? = some e →
    (e.stage = .claimed → (s.threads e.thread).pc = .eWrite e.val p p) ∧ (e.stage = .written → (s.threads e.thread).pc = .ePub p p)
  ownD : ∀ (p : Nat) (e : DeqE α), s.deqLog[p]? = some e →
    (e.stage = .claimed → (s.threads e.thread).pc = .dRead p p) ∧ (∀ v, e.stage = .read v → (s.threads e.thread).pc = .dRel p p v)

theorem upd_same {β : Type} (f : Nat → β) (i : Nat) (b : β) : upd f i b i = b := by simp [upd]

theorem upd_ne {β : Type} (f : Nat → β) {i j : Nat} (b : β) (h : j ≠ i) : upd f i b j = f j := by simp [upd, h]

/-! ### arithmetic -/

theorem idx_eq {s : State α} (C : Core s) (pos : Nat) : s.idx pos = pos % s.n := by
  obtain ⟨k, hk⟩ := C.pow
  unfold State.idx
  rw [hk]
  exact Nat.and_two_pow_sub_one_eq_mod pos k

theorem toI64_small {x : Nat} (h : x < 2 ^ 63) : Span.toI64 x = x := by
  unfold Span.toI64
  rw [Nat.mod_eq_of_lt (by omega), if_pos h]

theorem sdiff_small {a b : Nat} (ha : a < 2 ^ 63) (hb : b < 2 ^ 63) : sdiff a b = .ok ((a : Int) - b) := by
  unfold sdiff
  rw [toI64_small ha, toI64_small hb]
  simp only
  rw [if_pos (by omega)]

/-- Two different positions of one cell are at least `n` apart. -/
theorem apart {n p q : Nat} (h : p % n = q % n) (hlt : p < q) : p + n ≤ q := by
  have h1 := Nat.div_add_mod p n
  have h2 := Nat.div_add_mod q n
  by_cases hc : q / n ≤ p / n
  · have := Nat.mul_le_mul_left n hc
    omega
  · have : n * (p / n + 1) ≤ n * (q / n) := Nat.mul_le_mul_left n (by omega)
    rw [Nat.mul_add] at this
    omega

theorem sub_mod {n q : Nat} (h : n ≤ q) : (q - n) % n = q % n := (Nat.mod_eq_sub_mod h).symm

/-! ### positions of a cell -/

theorem done_lt {s : State α} {p : Nat} (h : Done s p) : p < s.deqLog.length := by
  obtain ⟨e, v, h, _⟩ := h
  exact (List.getElem?_eq_some_iff.1 h).1

theorem pub_lt {s : State α} {p : Nat} (h : Published s p) : p < s.enqLog.length := by
  obtain ⟨e, h, _⟩ := h
  exact (List.getElem?_eq_some_iff.1 h).1

theorem Core.le {s : State α} (C : Core s) : s.deqLog.length ≤ s.enqLog.length := by
  by_cases h : s.deqLog.length = 0
  · omega
  · have := pub_lt (C.pub (s.deqLog.length - 1) (by omega))
    omega

theorem done_down {s : State α} (C : Core s) : ∀ q p, Done s q → p ≤ q → p % s.n = q % s.n → Done s p := by
  intro q
  induction q using Nat.strongRecOn with
  | ind q ih =>
    intro p hq hpq hm
    by_cases e : p = q
    · rw [e]; exact hq
    · have ha := apart hm (by omega)
      have hn := C.n2
      rcases C.free q (by have := done_lt hq; have := C.le; omega) with h | ⟨h, hd⟩
      · omega
      · exact ih (q - s.n) (by omega) p hd (by omega) (by rw [hm, sub_mod h])

/-- A cell has one current position. -/
theorem cur_unique {s : State α} (C : Core s) {p q : Nat} (hp : Free s p) (hpd : ¬ Done s p) (hq : Free s q) (hqd : ¬ Done s q)
    (hm : p % s.n = q % s.n) : p = q := by
  have aux : ∀ p q, ¬ Done s p → Free s q → p % s.n = q % s.n → p < q → False := by
    intro p q hpd hq hm hlt
    have ha := apart hm hlt
    rcases hq with h | ⟨h, hd⟩
    · omega
    · exact hpd (done_down C (q - s.n) p hd (by omega) (by rw [hm, sub_mod h]))
  rcases Nat.lt_trichotomy p q with h | h | h
  · exact (aux p q hpd hq hm h).elim
  · exact h
  · exact (aux q p hqd hp hm.symm h).elim

theorem not_done_of_not_pub {s : State α} (C : Core s) {p : Nat} (h : ¬ Published s p) : ¬ Done s p :=
  fun hd => h (C.pub p (done_lt hd))

theorem free_small {s : State α} (C : Core s) {p : Nat} (h : Free s p) : p < s.enqLog.length + s.n := by
  rcases h with h | ⟨h, hd⟩
  · omega
  · have := done_lt hd
    have := C.le
    omega

theorem msg_small {s : State α} (C : Core s) {c : Nat} (hc : c < s.n) {m : Msg} (hm : m ∈ (s.cells c).msgs) : m.seq < 2 ^ 63 := by
  have hs := C.small
  rcases C.msgs c hc m hm with ⟨_, hf, _⟩ | ⟨p, e, _, hp, _⟩
  · have := free_small C hf
    omega
  · have := pub_lt hp
    have := C.n2
    omega

/-! ### steps that only concern one thread -/

theorem Core.local {s : State α} (C : Core s) (f : Nat → Thread α) (r : List (Nat × Ret α)) : Core { s with threads := f, rets := r } :=
  ⟨C.n2, C.pow, C.small, C.enq, C.enqOld, C.deq, C.deqOld, C.pub, C.free, C.msgs, C.views, C.acc, C.data, C.head, C.order⟩

/-- The thread does not own an unfinished claim. -/
def NoOwner : Pc α → Prop
  | .eWrite _ _ _ => False
  | .ePub _ _ => False
  | .dRead _ _ => False
  | .dRel _ _ _ => False
  | _ => True

theorem TInv.local {s : State α} {f : Nat → Thread α} {r : List (Nat × Ret α)} {t : Nat} {pc : Pc α} (h : TInv s t pc)
    (hk : ∀ c, (s.threads t).known c ≤ (f t).known c) : TInv { s with threads := f, rets := r } t pc := by
  cases pc with
  | idle => trivial
  | eLoad v => trivial
  | eSeq v pos => exact h
  | eCas v pos => exact ⟨h.1, h.2.1, Nat.le_trans h.2.2 (hk _)⟩
  | eWrite v pos i => exact ⟨h.1, h.2.1, Nat.le_trans h.2.2 (hk _)⟩
  | ePub pos i => exact ⟨h.1, h.2.1, Nat.le_trans h.2.2 (hk _)⟩
  | dLoad => trivial
  | dSeq pos => exact h
  | dCas pos => exact ⟨h.1, h.2.1, Nat.le_trans h.2.2 (hk _)⟩
  | dRead pos i => exact ⟨h.1, h.2.1, Nat.le_trans h.2.2 (hk _)⟩
  | dRel pos i v => exact ⟨h.1, h.2.1, Nat.le_trans h.2.2 (hk _)⟩

theorem Inv.local {s : State α} (I : Inv s) (t : Nat) (hno : NoOwner (s.threads t).pc) (pc : Pc α) (known : View) (r : List (Nat × Ret α))
    (hle : ∀ c, known c ≤ (s.cells c).acc)
    (hpc : TInv { s with threads := upd s.threads t { pc := pc, known := known }, rets := r } t pc) :
    Inv { s with threads := upd s.threads t { pc := pc, known := known }, rets := r } := by
  refine ⟨I.core.local _ _, fun t' => ?_, fun t' c => ?_, fun p e he => ?_, fun p e he => ?_⟩
  · by_cases h : t' = t
    · subst h
      change TInv _ t' (upd s.threads t' _ t').pc
      rw [upd_same]
      exact hpc
    · change TInv _ t' (upd s.threads t _ t').pc
      rw [upd_ne _ _ h]
      exact (I.thr t').local (fun c => by rw [upd_ne _ _ h]; exact Nat.le_refl _)
  · by_cases h : t' = t
    · subst h
      change (upd s.threads t' _ t').known c ≤ _
      rw [upd_same]
      exact hle c
    · change (upd s.threads t _ t').known c ≤ _
      rw [upd_ne _ _ h]
      exact I.known t' c
  · have h0 := I.ownE p e he
    have hne : e.stage ≠ .published → e.thread ≠ t := by
      intro hs ht
      cases hst : e.stage with
      | claimed => have := h0.1 hst; rw [ht] at this; rw [this] at hno; exact hno
      | written => have := h0.2 hst; rw [ht] at this; rw [this] at hno; exact hno
      | published => exact hs hst
    refine ⟨fun hs => ?_, fun hs => ?_⟩
    · change (upd s.threads t _ e.thread).pc = _
      rw [upd_ne _ _ (hne (by rw [hs]; intro h; cases h))]
      exact h0.1 hs
    · change (upd s.threads t _ e.thread).pc = _
      rw [upd_ne _ _ (hne (by rw [hs]; intro h; cases h))]
      exact h0.2 hs
  · have h0 := I.ownD p e he
    have hne : (∀ v, e.stage ≠ .done v) → e.thread ≠ t := by
      intro hs ht
      cases hst : e.stage with
      | claimed => have := h0.1 hst; rw [ht] at this; rw [this] at hno; exact hno
      | read v => have := h0.2 v hst; rw [ht] at this; rw [this] at hno; exact hno
      | done v => exact hs v hst
    refine ⟨fun hs => ?_, fun v hs => ?_⟩
    · change (upd s.threads t _ e.thread).pc = _
      rw [upd_ne _ _ (hne (by rw [hs]; intro v h; cases h))]
      exact h0.1 hs
    · change (upd s.threads t _ e.thread).pc = _
      rw [upd_ne _ _ (hne (by rw [hs]; intro v h; cases h))]
      exact h0.2 v hs

theorem Inv.goto {s : State α} (I : Inv s) (t : Nat) (hno : NoOwner (s.threads t).pc) (pc : Pc α) (h : TInv s t pc) : Inv (s.goto t pc) := by
  refine I.local t hno pc (s.threads t).known s.rets (I.known t) (h.local (fun c => ?_))
  rw [upd_same]
  exact Nat.le_refl _

/-! ### steps that change the logs -/

/-- How the claims of other threads see a step. -/
structure Ext (t : Nat) (s s' : State α) : Prop where
  n : s'.n = s.n
  enqLen : s.enqLog.length ≤ s'.enqLog.length
  deqLen : s.deqLog.length ≤ s'.deqLog.length
  pub : ∀ p, Published s p → Published s' p
  don : ∀ p, Done s p → Done s' p
  enq : ∀ (i : Nat) e, s.enqLog[i]? = some e → e.thread ≠ t → s'.enqLog[i]? = some e
  deq : ∀ (i : Nat) e, s.deqLog[i]? = some e → e.thread ≠ t → s'.deqLog[i]? = some e
  enq' : ∀ (i : Nat) e, s'.enqLog[i]? = some e → e.thread ≠ t → s.enqLog[i]? = some e
  deq' : ∀ (i : Nat) e, s'.deqLog[i]? = some e → e.thread ≠ t → s.deqLog[i]? = some e
  thr : ∀ t', t' ≠ t → s'.threads t' = s.threads t'

theorem Ext.free {t : Nat} {s s' : State α} (E : Ext t s s') {p : Nat} (h : Free s p) : Free s' p := by
  unfold Free
  rw [E.n]
  rcases h with h | ⟨h, hd⟩
  · exact Or.inl h
  · exact Or.inr ⟨h, E.don _ hd⟩

theorem Ext.tinv {t : Nat} {s s' : State α} (E : Ext t s s') {t' : Nat} (ht : t' ≠ t) {pc : Pc α} (h : TInv s t' pc) : TInv s' t' pc := by
  cases pc with
  | idle => trivial
  | eLoad v => trivial
  | eSeq v pos => exact Nat.le_trans h E.enqLen
  | eCas v pos => refine ⟨Nat.le_trans h.1 E.enqLen, E.free h.2.1, ?_⟩; rw [E.n, E.thr t' ht]; exact h.2.2
  | eWrite v pos i => refine ⟨h.1, E.enq _ _ h.2.1 ht, ?_⟩; rw [E.n, E.thr t' ht]; exact h.2.2
  | ePub pos i =>
    obtain ⟨h1, ⟨v, h2⟩, h3⟩ := h
    refine ⟨h1, ⟨v, E.enq _ _ h2 ht⟩, ?_⟩; rw [E.n, E.thr t' ht]; exact h3
  | dLoad => trivial
  | dSeq pos => exact Nat.le_trans h E.deqLen
  | dCas pos => refine ⟨Nat.le_trans h.1 E.deqLen, E.pub _ h.2.1, ?_⟩; rw [E.n, E.thr t' ht]; exact h.2.2
  | dRead pos i => refine ⟨h.1, E.deq _ _ h.2.1 ht, ?_⟩; rw [E.n, E.thr t' ht]; exact h.2.2
  | dRel pos i v => refine ⟨h.1, E.deq _ _ h.2.1 ht, ?_⟩; rw [E.n, E.thr t' ht]; exact h.2.2

theorem lt_of_getElem? {β : Type} {l : List β} {i : Nat} {b : β} (h : l[i]? = some b) : i < l.length := (List.getElem?_eq_some_iff.1 h).1

theorem snoc_getElem? {β : Type} (l : List β) (b : β) (i : Nat) : (l ++ [b])[i]? = if i = l.length then some b else l[i]? := by
  by_cases e : i = l.length
  · subst e; simp
  · rw [if_neg e]
    by_cases h2 : i < l.length
    · rw [List.getElem?_append_left h2]
    · rw [List.getElem?_eq_none (by simp; omega), List.getElem?_eq_none (by omega)]

theorem setStage_eq {l : List (EnqE α)} {i : Nat} {e : EnqE α} (h : l[i]? = some e) (st : EStage) :
    setStage l i st = l.set i { val := e.val, stage := st, thread := e.thread } := by
  unfold setStage; rw [h]

theorem setDStage_eq {l : List (DeqE α)} {i : Nat} {e : DeqE α} (h : l[i]? = some e) (st : DStage α) :
    setDStage l i st = l.set i { stage := st, thread := e.thread } := by
  unfold setDStage; rw [h]

theorem set_getElem? {β : Type} {l : List β} {i : Nat} {e : β} (h : l[i]? = some e) (b : β) (j : Nat) :
    (l.set i b)[j]? = if j = i then some b else l[j]? := by
  have hi := lt_of_getElem? h
  by_cases e : j = i
  · subst e; simp [hi]
  · rw [if_neg e, List.getElem?_set_ne (fun h => e h.symm)]

end Verif.Mpmc
