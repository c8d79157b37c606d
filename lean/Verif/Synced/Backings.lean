import Verif.Synced.Props
import Verif.Alloc.VLinearProps
import Verif.Tlsf.CheckProps

/-! The two synchronized allocators: C90 together with C37 (virtual linear allocator) and C40 (TLSF heap). What the threads do with their blocks is
theirs and not part of the schedule. -/
namespace Verif.Synced
open Spec

variable {L : Type}

/-! ### synced_virtual_linear_allocator -/

/-- The calls (synced_virtual_linear_allocator.hh:27-55). `destroy` is left out; for `initialize` and `get_backing` see `C90_unguarded_races`. -/
inductive VCall where
  | alloc (size align : Nat)
  | free (ptr : BitVec 64)
  | realloc (ptr : BitVec 64) (size align : Nat)
  | reset
  | decommit

/-- How the calls are made: `free` does nothing (synced_virtual_linear_allocator.hh:33), the others take the lock (27-31, 35-55). -/
def VCall.kind : VCall → Kind (BitVec 64)
  | .free _ => .nothing 0
  | _ => .guarded

/-- The call of the backing allocator; `Alloc.VLinear` names blocks by their place in the records. -/
def VCall.op (s : Alloc.VLinear.State) : VCall → Option Alloc.VLinear.Op
  | .alloc size align => some (.alloc size align)
  | .free _ => none
  | .realloc ptr size align => some (.realloc (if ptr = 0 then none else some (s.given.findIdx fun g => g.block.addr = ptr.toNat)) size align)
  | .reset => some .reset
  | .decommit => some .decommit

/-- What a call does to the backing allocator. -/
def vseq (s : Alloc.VLinear.State) (c : VCall) : R (Alloc.VLinear.State × BitVec 64) :=
  match c.op s with
  | none => .ok (s, 0)
  | some op => do
    let r ← Alloc.VLinear.step s op
    .ok (r.2, r.1)

/-- When a call may be made: good requests; only null and blocks in use are resized. -/
def VCall.Ok (s : Alloc.VLinear.State) : VCall → Prop
  | .alloc size align => Alloc.VLinear.Request size align
  | .realloc ptr size align => Alloc.VLinear.Request size align ∧ (ptr = 0 ∨ ∃ g ∈ s.given, g.block.addr = ptr.toNat)
  | _ => True

theorem VCall.Ok.op {s : Alloc.VLinear.State} {c : VCall} (h : c.Ok s) {op : Alloc.VLinear.Op} (ho : c.op s = some op) : Alloc.VLinear.OpOk s op := by
  cases c with
  | alloc size align => cases ho; exact h
  | free _ => cases ho
  | realloc ptr size align =>
    cases ho
    refine ⟨h.1, fun i hi => ?_⟩
    rcases h.2 with hp | ⟨g, hg, hp⟩
    · rw [if_pos hp] at hi; cases hi
    · split at hi
      · cases hi
      · cases hi
        exact List.findIdx_lt_length_of_exists ⟨g, hg, by simp [hp]⟩
  | reset => cases ho; trivial
  | decommit => cases ho; trivial

theorem vrun_snoc {op : Alloc.VLinear.Op} {r : BitVec 64 × Alloc.VLinear.State} (ops : List Alloc.VLinear.Op) : ∀ {s s' : Alloc.VLinear.State} {rs : List (BitVec 64)},
    Alloc.VLinear.Proper s ops → Alloc.VLinear.run s ops = .ok (rs, s') → Alloc.VLinear.OpOk s' op → Alloc.VLinear.step s' op = .ok r →
    Alloc.VLinear.Proper s (ops ++ [op]) ∧ ∃ rs', Alloc.VLinear.run s (ops ++ [op]) = .ok (rs', r.2) := by
  induction ops with
  | nil =>
    intro s s' rs _ h hop h'
    cases h
    exact ⟨⟨hop, fun _ _ => trivial⟩, [r.1], by simp only [List.nil_append, Alloc.VLinear.run, h', R.ok_bind]⟩
  | cons o ops ih =>
    intro s s' rs hp h hop h'
    simp only [Alloc.VLinear.run, R.bind_eq_ok] at h
    obtain ⟨a, e1, b, e2, e3⟩ := h
    simp only [Except.ok.injEq, Prod.mk.injEq] at e3
    rw [← e3.2] at hop h'
    obtain ⟨h1, rs', h2⟩ := ih (hp.2 _ e1) e2 hop h'
    refine ⟨⟨hp.1, fun r' e' => ?_⟩, a.1 :: rs', ?_⟩
    · rw [e1] at e'; cases e'; exact h1
    · simp only [List.cons_append, Alloc.VLinear.run, e1, R.ok_bind, h2]

/-- What the client of a virtual linear allocator with the range `[addr, addr + maxSize)` relies on (C37): blocks in use, with their headers, are apart, in
the range and in committed memory; they are aligned and have the size that was asked for. -/
def Safe (addr maxSize : Nat) (s : Alloc.VLinear.State) : Prop :=
  Alloc.Spec.Laid addr (addr + maxSize) (s.given.map (·.block)) ∧ Alloc.Spec.Laid addr (addr + maxSize) (s.given.map (fun g => Alloc.ext g.block)) ∧
  ∀ g ∈ s.given, (∀ x, g.block.addr - 8 ≤ x → x < g.block.addr + g.block.size → Alloc.VLinear.Usable addr maxSize s.pages x) ∧
    (Alloc.VLinear.getSize s g.block.addr).toNat = g.block.size

/-- **C90** for `synced_virtual_linear_allocator`: any number of threads, every schedule. If the rules are kept at the moments the calls run, an
assertion fails (out of memory), or all blocks handed out, to whatever thread, are apart, aligned and in committed memory. -/
theorem C90_virtual_linear (addr maxSize chunk : Nat) (h : Alloc.Pages.Params addr maxSize chunk) (mem : Alloc.Mem) (d : Alloc.VLinear.State)
    (hd : Alloc.VLinear.init (BitVec.ofNat 64 addr) (BitVec.ofNat 64 maxSize) (BitVec.ofNat 64 chunk) mem = .ok d)
    (o : Obj Alloc.VLinear.State VCall L (BitVec 64)) (hk : ∀ c, o.kind c = c.kind) (hi : Implements o vseq) (sched : List (Nat × Act VCall))
    (hOk : ∀ pre post w t c l s as, sched = pre ++ post → run o (init d) pre = .ok w → w.phase t = .body c l →
      replay vseq d ((effects w.events).map Prod.fst) = .ok (s, as) → c.Ok s) :
    run o (init d) sched = .error .assert ∨
    ∃ w s, run o (init d) sched = .ok w ∧ replay vseq d ((effects w.events).map Prod.fst) = .ok (s, (effects w.events).map Prod.snd) ∧ Safe addr maxSize s ∧
      ((∀ t, w.phase t = .idle) → w.spin.data = s) := by
  obtain ⟨s0, e0, hall⟩ := Alloc.VLinear.C37_linear_partial addr maxSize chunk h mem
  rw [hd] at e0
  cases e0
  rcases C90_invariant o vseq hi d (fun s => ∃ ops rs, Alloc.VLinear.Proper d ops ∧ Alloc.VLinear.run d ops = .ok (rs, s)) (fun s c => c.Ok s)
      ⟨[], [], trivial, rfl⟩
      (fun s c hJ hc => by
        obtain ⟨ops, rs, hp, hr⟩ := hJ
        unfold vseq
        cases ho : c.op s with
        | none => exact Or.inl ⟨s, 0, rfl, ops, rs, hp, hr⟩
        | some op =>
          have hop := hc.op ho
          have hinv := Alloc.VLinear.reach_inv (addr := addr) (maxSize := maxSize) (chunk := chunk) ⟨h, mem, d, ops, rs, hd, hp, hr⟩
          rcases Alloc.VLinear.step_ok hinv hop with ⟨r, s1, e, h1⟩ | e
          · obtain ⟨h2, rs', h3⟩ := vrun_snoc ops hp hr hop e
            exact Or.inl ⟨s1, r, by simp only [e, R.ok_bind], _, rs', h2, h3⟩
          · exact Or.inr (by simp only [e, R.error_bind]))
      sched (fun t c _ hb => by rw [hk c] at hb; cases c <;> cases hb) hOk with e | ⟨w, s, e1, e2, ⟨ops, rs, hp, hr⟩, e3⟩
  · exact Or.inl e
  · right
    refine ⟨w, s, e1, e2, ?_, e3⟩
    rcases hall ops hp with e | ⟨rs', s', e, h1, h2, h3⟩
    · rw [hr] at e; cases e
    · rw [hr] at e
      cases e
      exact ⟨h1, h2, fun g hg => ⟨(h3 g hg).1, (h3 g hg).2.1⟩⟩

/-! ### synced_tlsf_allocator -/

/-- The calls (synced_tlsf_allocator.hh:20-42). `validate_heap` and `destroy` are left out. -/
inductive TCall where
  | alloc (size align : BitVec 64)
  | free (ptr : Nat)
  | realloc (ptr : Nat) (size : BitVec 64)
  | getSize (ptr : Nat)

/-- Where the records have the block at `ptr`. -/
def place (w : Tlsf.World) (ptr : Nat) : Nat := w.live.findIdx fun v => v.ptr = ptr

/-- What a call does to the backing allocator (tlsf_allocator.cc:32-58), with the records of `Tlsf.World`. -/
def tseq (K : Tlsf.Cfg) (w : Tlsf.World) : TCall → R (Tlsf.World × Option Nat)
  | .alloc size align => do
    ccAssert (decide (size ≠ 0#64))
    let (s, p) ← Tlsf.memalign K w.st align size
    ccAssert (decide (p ≠ 0))
    .ok (Tlsf.record w s p size.toNat align.toNat, some p)
  | .free ptr => do
    let s ← Tlsf.free K w.st ptr
    .ok ({ w with st := s, live := w.live.eraseIdx (place w ptr) }, none)
  | .realloc ptr size => do
    let (s, p) ← Tlsf.realloc K w.st ptr size
    match w.live[place w ptr]? with
    | none => .ok (Tlsf.record w s p size.toNat 8, some p)
    | some v =>
      if size = 0#64 then .ok ({ w with st := s, live := w.live.eraseIdx (place w ptr) }, some p)
      else if p = 0 then .ok ({ w with st := s }, some p)
      else .ok ({ w with st := s, live := ⟨p, size.toNat, 8, fun i => if i < size.toNat then v.data i else none⟩ :: w.live.eraseIdx (place w ptr) }, some p)
  | .getSize ptr => do
    let n ← Tlsf.getAllocationSize K w.st ptr
    .ok (w, n)

/-- When a call may be made: the bounds of `Tlsf.Legal`; only null and blocks in use are freed, resized and asked for their size. -/
def TCall.Ok (w : Tlsf.World) : TCall → Prop
  | .alloc size align => size.toNat ≤ 2 ^ 64 - 8 ∧ Bits.IsPowerOfTwo align.toNat ∧ align.toNat ≤ 2 ^ 62
  | .free ptr => ptr = 0 ∨ ∃ v ∈ w.live, v.ptr = ptr
  | .realloc ptr size => size.toNat ≤ 2 ^ 32 - 8 ∧ (ptr = 0 ∨ ∃ v ∈ w.live, v.ptr = ptr)
  | .getSize ptr => ptr = 0 ∨ ∃ v ∈ w.live, v.ptr = ptr

theorem place_some {w : Tlsf.World} {ptr : Nat} {v : Tlsf.Spec.Live} (h : w.live[place w ptr]? = some v) : v.ptr = ptr := by
  unfold place at h
  obtain ⟨hl, e⟩ := List.getElem?_eq_some_iff.1 h
  have := List.findIdx_getElem (p := fun v : Tlsf.Spec.Live => decide (v.ptr = ptr)) (w := hl)
  rw [e] at this
  exact of_decide_eq_true this

theorem place_none {w : Tlsf.World} {ptr : Nat} (h : w.live[place w ptr]? = none) (hp : ptr = 0 ∨ ∃ v ∈ w.live, v.ptr = ptr) : ptr = 0 := by
  rcases hp with hp | ⟨v, hv, hp⟩
  · exact hp
  · have : place w ptr < w.live.length := List.findIdx_lt_length_of_exists ⟨v, hv, by simp [hp]⟩
    rw [List.getElem?_eq_getElem this] at h
    cases h

/-- What a call by the rules does is a legal operation of the heap, or nothing, or a failed assertion. -/
theorem tseq_ok {K : Tlsf.Cfg} {w : Tlsf.World} {Ls : List Tlsf.Blk} {G : List (Nat × Nat × Tlsf.Spec.Live)} (i : Tlsf.WI K w Ls G)
    (hsz : ∀ v ∈ w.live, ∃ n, Tlsf.getAllocationSize K w.st v.ptr = .ok (some n)) {c : TCall} (hc : c.Ok w) :
    (∃ w' a, tseq K w c = .ok (w', a) ∧ (w' = w ∨ ∃ op, Tlsf.Legal K w op ∧ Tlsf.step K w op = .ok w')) ∨ tseq K w c = .error .assert := by
  cases c with
  | alloc size align =>
    dsimp only [tseq]
    by_cases h0 : size = 0#64
    · right
      subst h0
      rfl
    rw [ccAssert_true (c := decide (size ≠ 0#64)) (decide_eq_true h0), R.ok_bind]
    obtain ⟨w', _, _, e, _⟩ := Tlsf.step_ok (o := .memalign align size) i hc
    have e' := e
    simp only [Tlsf.step, R.bind_eq_ok] at e'
    obtain ⟨⟨s, p⟩, e1, e2⟩ := e'
    cases e2
    rw [e1, R.ok_bind]
    by_cases hp : p = 0
    · right
      subst hp
      rfl
    · left
      refine ⟨_, some p, ?_, Or.inr ⟨.memalign align size, hc, e⟩⟩
      simp only [ccAssert_true (c := decide (p ≠ 0)) (decide_eq_true hp), R.ok_bind]
  | free ptr =>
    left
    obtain ⟨w', _, _, e, _⟩ := Tlsf.step_ok (o := .free (place w ptr)) i trivial
    refine ⟨w', none, ?_, Or.inr ⟨.free (place w ptr), trivial, e⟩⟩
    simp only [Tlsf.step] at e
    dsimp only [tseq]
    cases hv : w.live[place w ptr]? with
    | none =>
      have := place_none hv hc
      rw [hv] at e
      simp only [R.bind_eq_ok] at e
      obtain ⟨s, e1, e2⟩ := e
      cases e2
      have h1 : w.live.eraseIdx (place w ptr) = w.live := List.eraseIdx_of_length_le (List.getElem?_eq_none_iff.1 hv)
      rw [h1, this, e1]
      rfl
    | some v =>
      rw [hv] at e
      simp only [R.bind_eq_ok] at e
      obtain ⟨s, e1, e2⟩ := e
      cases e2
      rw [place_some hv] at e1
      rw [e1]
      rfl
  | realloc ptr size =>
    left
    obtain ⟨w', _, _, e, _⟩ := Tlsf.step_ok (o := .realloc (place w ptr) size) i hc.1
    have e' := e
    simp only [Tlsf.step] at e
    dsimp only [tseq]
    cases hv : w.live[place w ptr]? with
    | none =>
      have := place_none hv hc.2
      rw [hv] at e
      simp only [R.bind_eq_ok] at e
      obtain ⟨⟨s, p⟩, e1, e2⟩ := e
      cases e2
      refine ⟨_, some p, ?_, Or.inr ⟨.realloc (place w ptr) size, hc.1, e'⟩⟩
      rw [this, e1]
      rfl
    | some v =>
      rw [hv] at e
      simp only [R.bind_eq_ok] at e
      obtain ⟨⟨s, p⟩, e1, e2⟩ := e
      rw [place_some hv] at e1
      refine ⟨w', some p, ?_, Or.inr ⟨.realloc (place w ptr) size, hc.1, e'⟩⟩
      simp only [e1, R.ok_bind]
      by_cases h0 : size = 0#64
      · simp only [h0, if_true] at e2 ⊢
        cases e2
        rfl
      · simp only [h0, if_false] at e2 ⊢
        by_cases hp : p = 0
        · simp only [hp, if_true] at e2 ⊢
          cases e2
          rfl
        · simp only [hp, if_false] at e2 ⊢
          cases e2
          rfl
  | getSize ptr =>
    left
    rcases hc with rfl | ⟨v, hv, rfl⟩
    · exact ⟨w, none, rfl, Or.inl rfl⟩
    · obtain ⟨n, e⟩ := hsz v hv
      refine ⟨w, some n, ?_, Or.inl rfl⟩
      dsimp only [tseq]
      rw [e]
      rfl

theorem trun_snoc {K : Tlsf.Cfg} {op : Tlsf.Op} : ∀ (os : List Tlsf.Op) {w w' w'' : Tlsf.World}, Tlsf.LegalRun K w os → Tlsf.run K w os = .ok w' →
    Tlsf.Legal K w' op → Tlsf.step K w' op = .ok w'' → Tlsf.LegalRun K w (os ++ [op]) ∧ Tlsf.run K w (os ++ [op]) = .ok w'' := by
  intro os
  induction os with
  | nil =>
    intro w w' w'' _ h hl hs
    cases h
    exact ⟨⟨hl, fun _ _ => trivial⟩, by simp only [List.nil_append, Tlsf.run, hs, R.ok_bind]; rfl⟩
  | cons o os ih =>
    intro w w' w'' hr h hl hs
    simp only [Tlsf.run, R.bind_eq_ok] at h
    obtain ⟨w1, e1, e2⟩ := h
    obtain ⟨h1, h2⟩ := ih (hr.2 _ e1) e2 hl hs
    refine ⟨⟨hr.1, fun r' e' => ?_⟩, ?_⟩
    · rw [e1] at e'; cases e'; exact h1
    · simp only [List.cons_append, Tlsf.run, e1, R.ok_bind, h2]

/-- **C90** for `synced_tlsf_allocator`: after any legal history of the heap (`os`, which adds the pools), any number of threads, every schedule. If the
rules are kept at the moments the calls run, an assertion fails (heap full, or an empty request), or the heap is sound: the blocks tile the pools, and
the blocks handed out, to whatever thread, are apart, aligned and large enough. -/
theorem C90_tlsf (K : Tlsf.Cfg) (hK : Tlsf.ControlOk K) (mem : Nat → Nat) (st : Tlsf.St) (hs : Tlsf.construct K mem = .ok st) (os : List Tlsf.Op)
    (hl : Tlsf.LegalRun K ⟨st, [], []⟩ os) (d : Tlsf.World) (hd : Tlsf.run K ⟨st, [], []⟩ os = .ok d)
    (o : Obj Tlsf.World TCall L (Option Nat)) (hk : ∀ c, o.kind c = .guarded) (hi : Implements o (tseq K)) (sched : List (Nat × Act TCall))
    (hOk : ∀ pre post w t c l s as, sched = pre ++ post → run o (init d) pre = .ok w → w.phase t = .body c l →
      replay (tseq K) d ((effects w.events).map Prod.fst) = .ok (s, as) → c.Ok s) :
    run o (init d) sched = .error .assert ∨
    ∃ w s, run o (init d) sched = .ok w ∧ replay (tseq K) d ((effects w.events).map Prod.fst) = .ok (s, (effects w.events).map Prod.snd) ∧
      (∃ blocks, s.sound K blocks) ∧ ((∀ t, w.phase t = .idle) → w.spin.data = s) := by
  obtain ⟨st', e0, hall⟩ := Tlsf.C40_history_partial K hK mem
  rw [hs] at e0
  cases e0
  rcases C90_invariant o (tseq K) hi d (fun s => ∃ ops, Tlsf.LegalRun K ⟨st, [], []⟩ ops ∧ Tlsf.run K ⟨st, [], []⟩ ops = .ok s) (fun s c => c.Ok s)
      ⟨os, hl, hd⟩
      (fun s c hJ hc => by
        obtain ⟨ops, hp, hr⟩ := hJ
        obtain ⟨st', e1, i⟩ := hK.start mem
        rw [hs] at e1
        cases e1
        obtain ⟨w', Ls, G, e2, i'⟩ := Tlsf.run_ok ops i hp
        rw [hr] at e2
        cases e2
        obtain ⟨size, h1, _⟩ := Tlsf.C70_allocation_size K hK mem st hs ops hp s hr
        rcases tseq_ok i' (fun v hv => ⟨_, (h1 v hv).1⟩) hc with ⟨w', a, e, h2⟩ | e
        · left
          refine ⟨w', a, e, ?_⟩
          rcases h2 with rfl | ⟨op, h3, h4⟩
          · exact ⟨ops, hp, hr⟩
          · exact ⟨_, trun_snoc ops hp hr h3 h4⟩
        · exact Or.inr e)
      sched (fun t c _ hb => by rw [hk c] at hb; cases hb) hOk with e | ⟨w, s, e1, e2, ⟨ops, hp, hr⟩, e3⟩
  · exact Or.inl e
  · right
    obtain ⟨s', blocks, e, h⟩ := hall ops hp
    rw [hr] at e
    cases e
    exact ⟨w, s, e1, e2, ⟨blocks, h⟩, e3⟩

/-! ### Cases -/

namespace Example

def vobj : Obj Alloc.VLinear.State VCall VCall (BitVec 64) := atomic VCall.kind vseq

theorem vobj_ok : Implements vobj vseq := atomic_implements _ _ fun c a h s => by
  cases c <;> cases h
  rfl

/-- Two threads: one allocates twice and resizes its first block, the other one allocates in between. -/
def vsched : List (Nat × Act VCall) :=
  [(0, .call (.alloc 24 16)), (1, .call (.alloc 8 8)), (0, .go 0), (0, .go 0), (1, .go 0), (1, .go 0), (0, .go 0), (0, .go 0), (1, .go 0), (1, .go 0), (1, .go 0),
   (1, .go 0), (0, .call (.realloc 0x10010#64 40 8)), (0, .go 0), (0, .go 0), (0, .go 0), (0, .go 0), (1, .call (.free 0x10038#64))]

example : ((Alloc.VLinear.init 0x10000#64 0x10000#64 4096#64 (fun _ => 0)) >>= fun d => (run vobj (init d) vsched).map fun w =>
      ((effects w.events).map Prod.snd, w.spin.data.given.map fun g => (g.block.addr, g.block.size))) =
    .ok ([0x10010#64, 0x10030#64, 0x10040#64, 0#64], [(0x10040, 40), (0x10030, 8)]) := by decide +kernel

/-- Two threads allocate, whatever the order of their steps. -/
example (mem : Alloc.Mem) (d : Alloc.VLinear.State) (hd : Alloc.VLinear.init 0x10000#64 0x10000#64 4096#64 mem = .ok d) (sched : List (Nat × Act VCall))
    (hs : ∀ t c, (t, Act.call c) ∈ sched → c = .alloc 24 16 ∨ c = .reset) :=
  C90_virtual_linear 0x10000 0x10000 4096 ⟨by decide, by decide, by decide, by decide, ⟨12, by decide⟩, by decide, by decide⟩ mem d hd vobj (fun _ => rfl) vobj_ok
    sched (fun pre post w t c l s as he hr hph _ => by
      rcases called (fun c => c = .alloc 24 16 ∨ c = .reset) pre (fun t c hm => hs t c (by rw [he]; exact List.mem_append_left _ hm)) hr hph with rfl | rfl
      · exact ⟨by decide, ⟨4, by decide⟩, by decide⟩
      · trivial)

def tobj : Obj Tlsf.World TCall TCall (Option Nat) := atomic (fun _ => .guarded) (tseq Tlsf.Example.C)

theorem tobj_ok : Implements tobj (tseq Tlsf.Example.C) := atomic_implements _ _ fun c a h s => by cases h

/-- One thread allocates and frees; the other one allocates in between, and gets the memory of the first one after that. -/
def tsched : List (Nat × Act TCall) :=
  [(0, .call (.alloc 100#64 8#64)), (1, .call (.alloc 40#64 64#64)), (0, .go 0), (0, .go 0), (1, .go 0), (1, .go 0), (0, .go 0), (0, .go 0), (1, .go 0), (1, .go 0),
   (1, .go 0), (1, .go 0), (0, .call (.free 10648)), (0, .go 0), (0, .go 0), (0, .go 0), (0, .go 0), (1, .call (.alloc 60#64 8#64)), (1, .go 0), (1, .go 0), (1, .go 0),
   (1, .go 0), (0, .call (.getSize 10816)), (0, .go 0), (0, .go 0), (0, .go 0), (0, .go 0)]

example : (Tlsf.Example.hist [Tlsf.Example.pool] >>= fun d => (run tobj (init d) tsched).map fun w =>
      ((effects w.events).map Prod.snd, w.spin.data.live.map fun (v : Tlsf.Spec.Live) => (v.ptr, v.size))) =
    .ok ([some 10648, some 10816, none, some 10648, some 40], [(10648, 60), (10816, 40)]) := by decide +kernel

/-- Two threads allocate and free null, whatever the order of their steps. -/
example (st : Tlsf.St) (hs : Tlsf.construct Tlsf.Example.C (fun _ => 0) = .ok st) (d : Tlsf.World)
    (hd : Tlsf.run Tlsf.Example.C ⟨st, [], []⟩ [Tlsf.Example.pool] = .ok d) (sched : List (Nat × Act TCall))
    (hs' : ∀ t c, (t, Act.call c) ∈ sched → c = .alloc 24#64 16#64 ∨ c = .free 0) :=
  C90_tlsf Tlsf.Example.C Tlsf.Example.control (fun _ => 0) st hs [Tlsf.Example.pool] ⟨Tlsf.Example.pool_legal st, fun _ _ => trivial⟩ d hd tobj (fun _ => rfl) tobj_ok
    sched (fun pre post w t c l s as he hr hph _ => by
      rcases called (fun c => c = .alloc 24#64 16#64 ∨ c = .free 0) pre (fun t c hm => hs' t c (by rw [he]; exact List.mem_append_left _ hm)) hr hph with rfl | rfl
      · exact ⟨by decide, ⟨4, by decide⟩, by decide⟩
      · exact Or.inl rfl)

end Example
end Verif.Synced
