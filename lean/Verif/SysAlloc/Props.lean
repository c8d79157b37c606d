import Verif.SysAlloc.Realloc

/-! Property theorems for the system allocator: C75. -/
namespace Verif.SysAlloc
open Verif.Bits Verif.Alloc Spec

variable {L : CLib} {p : Plat}

theorem inv_init (p : Plat) (m : Mem) : Inv p (World.init m).heap (World.init m).vars (fun _ : Nat => none) (fun _ => ⟨0, 0⟩) :=
  ⟨⟨by simp [World.init], by simp [World.init]⟩, fun _ _ => rfl, (fun _ _ h => by cases h), (fun _ _ _ _ h => by cases h), by simp [World.init]⟩

theorem placed_of_inv {h : Heap} {vars : Nat → Option Nat} {s : State} {k : Nat → Blk} (I : Inv p h vars s k) : Placed vars s where
  null := fun i => by
    constructor
    · exact I.null i
    · intro hv
      cases hs : s i with
      | none => rfl
      | some b =>
        obtain ⟨a, ha, -⟩ := I.live i b hs
        rw [hv] at ha; cases ha
  aligned := fun i b a hs hv => by
    obtain ⟨a', ha, o⟩ := I.live i b hs
    rw [hv] at ha; cases ha
    exact o.align
  inside := fun i b a hs hv => by
    obtain ⟨a', ha, o⟩ := I.live i b hs
    rw [hv] at ha; cases ha
    have h1 := I.blocks.range _ o.mem
    have h2 := o.lo
    have h3 := o.hi
    omega
  apart := fun i j b c a d hij hs ht hv hw => by
    obtain ⟨a', ha, o⟩ := I.live i b hs
    obtain ⟨d', hd, q⟩ := I.live j c ht
    rw [hv] at ha; cases ha
    rw [hw] at hd; cases hd
    have h1 := I.blocks.ne o.mem q.mem (I.inj i j b c hs ht hij)
    unfold Apart at h1
    have o1 := o.lo
    have o2 := o.hi
    have q1 := q.lo
    have q2 := q.hi
    have o3 : (k i).addr + max (k i).size 1 > a := by
      cases p with
      | linux => have := o.linux rfl; omega
      | portable => exact (o.portable rfl).2.2.2
    have q3 : (k j).addr + max (k j).size 1 > d := by
      cases p with
      | linux => have := q.linux rfl; omega
      | portable => exact (q.portable rfl).2.2.2
    omega

/-- One call: it returns what it may return, or asserts because there is no memory. -/
theorem step_ok (hL : CLib.Good L) {w : World} {s : State} {k : Nat → Blk} (I : Inv p w.heap w.vars s k) {op : Op} (hl : Legal s op) (hsm : Small p op)
    (hg : ¬ ReallocRefused L p w op) :
    (∃ w' o s' k', step L p w op = .ok (w', o) ∧ Spec.step p s op o = some s' ∧ Inv p w'.heap w'.vars s' k') ∨
    (step L p w op = .error .assert ∧ OutOfMemory L p w [op]) := by
  have same : ∀ i, s i = none → put w.vars i none = w.vars := by
    intro i hi
    funext j
    unfold put
    split
    · next e => rw [e, I.null i hi]
    · rfl
  cases op with
  | alloc i n al =>
    obtain ⟨hi, ha⟩ := hl
    rcases sysMalloc_ok hL I.blocks ha hsm with e | ⟨h1, a, c, e, hf, hbl, hm, o⟩
    · by_cases hn : n = 0
      · refine Or.inl ⟨w.put w.heap i none, .ptr false, s, k, ?_, ?_, ?_⟩
        · simp only [step, alloc, e, R.ok_bind]
          rw [ccAssert_true (by simp [hn])]; rfl
        · simp [Spec.step, hn]
        · show Inv p w.heap (put w.vars i none) s k
          rw [same i hi]; exact I
      · refine Or.inr ⟨?_, Or.inl ⟨hn, ⟨_, e⟩⟩⟩
        simp only [step, alloc, e, R.ok_bind]
        rw [ccAssert_false (by simpa using hn)]; rfl
    · refine Or.inl ⟨w.put h1 i (some a), .ptr true, _, _, ?_, rfl, I.add hi hf hbl hm o⟩
      simp only [step, alloc, e, R.ok_bind]
      rw [ccAssert_true (by simp)]; rfl
  | tryAlloc i n al =>
    obtain ⟨hi, ha⟩ := hl
    rcases sysMalloc_ok hL I.blocks ha hsm with e | ⟨h1, a, c, e, hf, hbl, hm, o⟩
    · refine Or.inl ⟨w.put w.heap i none, .ptr false, s, k, ?_, rfl, ?_⟩
      · simp only [step, e, R.ok_bind]; rfl
      · show Inv p w.heap (put w.vars i none) s k
        rw [same i hi]; exact I
    · refine Or.inl ⟨w.put h1 i (some a), .ptr true, _, _, ?_, rfl, I.add hi hf hbl hm o⟩
      simp only [step, e, R.ok_bind]; rfl
  | realloc i n al =>
    by_cases hn : n = 0
    · subst hn
      obtain ⟨h1, e, J⟩ := sysRealloc_zero (L := L) I i al
      refine Or.inl ⟨w.put h1 i none, .ptr false, _, k, ?_, ?_, J⟩
      · simp only [step, realloc, e, R.ok_bind]
        rw [ccAssert_true (by simp)]; rfl
      · simp [Spec.step, Spec.step.resized]; rfl
    · rcases sysRealloc_ok hL I i hn hl hsm hg with ⟨hi, hr, e⟩ | ⟨h1, a, k', e, J⟩
      · refine Or.inr ⟨?_, Or.inl ⟨hn, hr⟩⟩
        simp only [step, realloc, e, R.ok_bind]
        rw [ccAssert_false (by simpa using hn)]; rfl
      · refine Or.inl ⟨w.put h1 i (some a), .ptr true, _, k', ?_, ?_, J⟩
        · simp only [step, realloc, e, R.ok_bind]
          rw [ccAssert_true (by simp)]; rfl
        · simp only [Spec.step]
          rw [if_pos (by simpa using hn)]; rfl
  | tryRealloc i n al =>
    by_cases hn : n = 0
    · subst hn
      obtain ⟨h1, e, J⟩ := sysRealloc_zero (L := L) I i al
      refine Or.inl ⟨w.put h1 i none, .ptr false, _, k, ?_, ?_, J⟩
      · simp only [step, e, R.ok_bind]
        rw [if_pos (Or.inr (by rfl))]; rfl
      · simp [Spec.step]; rfl
    · rcases sysRealloc_ok hL I i hn hl hsm hg with ⟨hi, hr, e⟩ | ⟨h1, a, k', e, J⟩
      · refine Or.inl ⟨w, .ptr false, s, k, ?_, ?_, I⟩
        · simp only [step, e, R.ok_bind]
          rw [if_neg (by simpa using hn)]; rfl
        · simp only [Spec.step]
          rw [if_neg hn]
      · refine Or.inl ⟨w.put h1 i (some a), .ptr true, _, k', ?_, ?_, J⟩
        · simp only [step, e, R.ok_bind]
          rw [if_pos (Or.inl (by simp))]; rfl
        · simp only [Spec.step]
          rw [if_neg hn]; rfl
  | free i =>
    cases hb : s i with
    | none =>
      have hv := I.null i hb
      refine Or.inl ⟨w.put w.heap i none, .none, upd s i none, k, ?_, rfl, ?_⟩
      · simp only [step, hv, sysFree, R.ok_bind]
      · have e2 : upd s i none = s := by
          funext j; unfold upd; split
          · next e => rw [e, hb]
          · rfl
        show Inv p w.heap (put w.vars i none) (upd s i none) k
        rw [same i hb, e2]; exact I
    | some b =>
      obtain ⟨a, hv, o⟩ := I.live i b hb
      refine Or.inl ⟨w.put _ i none, .none, upd s i none, k, ?_, rfl, I.del hb rfl⟩
      simp only [step, hv, sysFree_ok o, R.ok_bind]
  | getSize i =>
    cases hb : s i with
    | none =>
      have hv := I.null i hb
      refine Or.inl ⟨w, .size 0, s, k, ?_, ?_, I⟩
      · simp only [step, hv, sysMsize, R.ok_bind]
      · simp [Spec.step, hb, Spec.step.sizeOk]
    | some b =>
      obtain ⟨a, hv, o⟩ := I.live i b hb
      obtain ⟨n, e, h1, h2, -⟩ := sysMsize_ok I.blocks o
      refine Or.inl ⟨w, .size n, s, k, ?_, ?_, I⟩
      · simp only [step, hv, e, R.ok_bind]
      · cases p with
        | linux => simp [Spec.step, hb, Spec.step.sizeOk, h1]
        | portable => simp [Spec.step, hb, Spec.step.sizeOk, h2 rfl]
  | write i off v =>
    obtain ⟨b, hb, ho⟩ := hl
    obtain ⟨a, hv, o⟩ := I.live i b hb
    have o1 := o.lo
    have o2 := o.hi
    have hh : w.heap.has (a + off) 1 = true := has_iff.mpr ⟨_, o.mem, by omega, by omega⟩
    refine Or.inl ⟨⟨{ w.heap with mem := fun x => if x = a + off then v else w.heap.mem x }, w.vars⟩, .none, _, k, ?_,
      by simp only [Spec.step, hb, Option.map_some]; rfl, ?_⟩
    · simp only [step, World.deref, hv, R.ok_bind, Heap.write8, hh, if_true]
    · refine I.change (h' := { w.heap with mem := fun x => if x = a + off then v else w.heap.mem x }) (i := i) hb hv rfl ?_ (b' := { b with bytes := b.bytes.set off (some v) }) ?_ (by simp [upd]) ?_
      · intro x hx
        exact if_neg (by omega)
      · intro j hj
        simp [upd, hj]
      · have hout : ∀ x, x < a → (if x = a + off then v else w.heap.mem x) = w.heap.mem x := fun x hx => if_neg (by omega)
        refine ⟨o.mem, o.lo, by simpa using o.hi, o.linux, ?_, by simpa using o.align, ?_⟩
        · intro hp
          obtain ⟨h1, h2, h3, h4⟩ := o.portable hp
          refine ⟨h1, ?_, ?_, h4⟩
          · rw [← h2, Alloc.read64_congr (m' := w.heap.mem) (fun x x1 x2 => hout x (by omega))]
          · dsimp only
            rw [List.length_set, ← h3, Alloc.read64_congr (m' := w.heap.mem) (fun x x1 x2 => hout x (by omega))]
        · intro off' v' hv'
          dsimp only at hv' ⊢
          by_cases e : off' = off
          · subst e
            rw [List.getElem?_set_self ho] at hv'
            rw [if_pos rfl]
            exact Option.some.inj (Option.some.inj hv')
          · rw [List.getElem?_set_ne (Ne.symm e)] at hv'
            rw [if_neg (by omega)]
            exact o.content off' v' hv'
  | read i off =>
    obtain ⟨b, hb, ho⟩ := hl
    obtain ⟨a, hv, o⟩ := I.live i b hb
    have o1 := o.lo
    have o2 := o.hi
    have hh : w.heap.has (a + off) 1 = true := has_iff.mpr ⟨_, o.mem, by omega, by omega⟩
    refine Or.inl ⟨w, .byte (w.heap.mem (a + off)), s, k, ?_, ?_, I⟩
    · simp only [step, World.deref, hv, R.ok_bind, Heap.read8, hh, if_true]
    · simp only [Spec.step, hb]
      rw [if_pos]
      rw [List.getElem?_eq_getElem ho]
      cases hc : b.bytes[off] with
      | none => exact Or.inl rfl
      | some v' =>
        right
        rw [o.content off v' (by rw [List.getElem?_eq_getElem ho, hc])]

theorem run_ok (hL : CLib.Good L) (ops : List Op) : ∀ {w : World} {s : State} {k : Nat → Blk}, Inv p w.heap w.vars s k → AllLegal p s ops →
    (∀ op ∈ ops, Small p op) → Granted L p w ops →
    (∃ w' os s' k', run L p w ops = .ok (w', os) ∧ Spec.run p s ops os = some s' ∧ Inv p w'.heap w'.vars s' k') ∨
    (run L p w ops = .error .assert ∧ OutOfMemory L p w ops) := by
  induction ops with
  | nil => intro w s k I _ _ _; exact Or.inl ⟨w, [], s, k, rfl, rfl, I⟩
  | cons op ops ih =>
    intro w s k I hl hsm hg
    rcases step_ok hL I hl.1 (hsm op (by simp)) hg.1 with ⟨w1, o, s1, k1, e1, t1, I1⟩ | ⟨e1, hm⟩
    · rcases ih I1 (hl.2 o s1 t1) (fun op hop => hsm op (by simp [hop])) (hg.2 w1 o e1) with ⟨w2, os, s2, k2, e2, t2, I2⟩ | ⟨e2, hm⟩
      · refine Or.inl ⟨w2, o :: os, s2, k2, ?_, ?_, I2⟩
        · simp only [run, e1, R.ok_bind, e2]
        · simp only [Spec.run, t1, Option.bind_some, t2]
      · refine Or.inr ⟨?_, Or.inr ⟨w1, o, e1, hm⟩⟩
        simp only [run, e1, R.ok_bind, e2, R.error_bind]
    · refine Or.inr ⟨?_, ?_⟩
      · simp only [run, e1, R.error_bind]
      · rcases hm with h | ⟨w', o, h, _⟩
        · exact Or.inl h
        · rw [e1] at h; cases h

/-- **C75**, partial. For every C library that keeps to the standard (it may fail at any time), and every legal history of allocations, reallocations,
frees, size queries, reads and writes that does not resize a buffer when there is no memory: no undefined behaviour; the program asserts only
if `alloc` or `realloc` gets no memory; otherwise every call returns what the specification says (bytes are those written last, also
after a reallocation), all buffers are aligned as asked for and have no byte in common, and when no buffer is left, the C library has all
its blocks back. Missing: `C75_try_realloc_without_memory`, `C75_huge_request_accepted`. -/
theorem C75_buffers_partial (hL : CLib.Good L) (m : Mem) (ops : List Op) (hl : AllLegal p (fun _ => none) ops) (hsm : ∀ op ∈ ops, Small p op)
    (hg : Granted L p (World.init m) ops) :
    (∃ w os s, run L p (World.init m) ops = .ok (w, os) ∧ Spec.run p (fun _ => none) ops os = some s ∧ Placed w.vars s ∧
      ((∀ i, s i = none) → w.heap.blocks = [])) ∨
    (run L p (World.init m) ops = .error .assert ∧ OutOfMemory L p (World.init m) ops) := by
  rcases run_ok hL ops (inv_init p m) hl hsm hg with ⟨w, os, s, k, e, t, I⟩ | h
  · refine Or.inl ⟨w, os, s, e, t, placed_of_inv I, fun hn => ?_⟩
    cases hb : w.heap.blocks with
    | nil => rfl
    | cons b l =>
      obtain ⟨i, c, h1, -⟩ := I.all b (by rw [hb]; simp)
      rw [hn i] at h1; cases h1
  · exact Or.inr h

/-! ### a C library -/

/-- The first address behind all blocks, at least 4096. -/
def top : List Blk → Nat
  | [] => 4096
  | b :: l => max (b.addr + max b.size 1) (top l)

/-- A simple C library: the next free address, 1 MiB in all. -/
def bump : CLib where
  malloc h n := if alignUpN (top h.blocks) 16 + n ≤ 1048576 then some (alignUpN (top h.blocks) 16) else none
  alignedAlloc h al n := if alignUpN (top h.blocks) al + n ≤ 1048576 then some (alignUpN (top h.blocks) al, n) else none

theorem le_top {b : Blk} : ∀ {l : List Blk}, b ∈ l → b.addr + max b.size 1 ≤ top l
  | c :: l, h => by
    rcases List.mem_cons.mp h with h | h
    · subst h; simp only [top]; omega
    · have := le_top h; simp only [top]; omega

theorem top_ge : ∀ l : List Blk, 4096 ≤ top l
  | [] => Nat.le_refl _
  | b :: l => by have := top_ge l; simp only [top]; omega

theorem bump_good : CLib.Good bump where
  malloc := by
    intro h n a e
    simp only [bump] at e
    split at e
    · next hle =>
      cases e
      have g := alignUpN_ge (top h.blocks) 16 (by decide)
      have t := top_ge h.blocks
      refine ⟨⟨by omega, by omega, fun b hb => ?_⟩, alignUpN_dvd _ _⟩
      have := le_top hb
      omega
    · cases e
  alignedAlloc := by
    intro h al n a u hp e
    simp only [bump] at e
    split at e
    · next hle =>
      cases e
      have g := alignUpN_ge (top h.blocks) al (pow2_pos hp)
      have t := top_ge h.blocks
      refine ⟨⟨by omega, by omega, fun b hb => ?_⟩, Nat.le_refl _, alignUpN_dvd _ _⟩
      have := le_top hb
      omega
    · cases e

/-- Used in the examples. -/
def demoOps : List Op :=
  [.alloc 0 24#64 64#64, .write 0 3 7#8, .alloc 1 5#64 1#64, .write 1 4 9#8, .realloc 0 100#64 128#64, .read 0 3, .read 1 4, .getSize 1, .tryAlloc 2 2097152#64 8#64,
    .free 1, .realloc 0 0#64 8#64, .free 2]

example : ∀ op ∈ demoOps, Spec.Small .portable op := by
  intro op hop
  simp only [demoOps, List.mem_cons, List.not_mem_nil, or_false] at hop
  rcases hop with h | h | h | h | h | h | h | h | h | h | h | h <;> subst h <;> simp [Spec.Small]

/-- The history is legal, no reallocation is refused (they succeed in the run), the third request is, and at the end everything has been given back. -/
example : ∀ p, (run bump p (World.init fun _ => 0) demoOps).map (fun q => (q.2, q.1.heap.blocks)) =
    .ok ([.ptr true, .none, .ptr true, .none, .ptr true, .byte 7#8, .byte 9#8, .size 5, .ptr false, .none, .ptr false, .none], []) := by
  intro p; cases p <;> decide +kernel

example (p : Plat) : AllLegal p (fun _ => none) [.alloc 0 24#64 64#64, .write 0 3 7#8, .realloc 0 100#64 128#64, .read 0 3] := by
  have h64 : IsPowerOfTwo (64#64).toNat := ⟨6, rfl⟩
  have h128 : IsPowerOfTwo (128#64).toNat := ⟨7, rfl⟩
  refine ⟨⟨rfl, h64⟩, ?_⟩
  rintro o s e
  obtain rfl : s = upd (fun _ => none) 0 (some ⟨64, fresh 24⟩) := by
    cases o with
    | ptr ok => cases ok <;> simp [Spec.step] at e; exact e.symm
    | _ => simp [Spec.step] at e
  refine ⟨⟨_, rfl, by decide⟩, ?_⟩
  rintro o s e
  obtain rfl : s = upd (upd (fun _ => none) 0 (some ⟨64, fresh 24⟩)) 0 (some ⟨64, (fresh 24).set 3 (some 7#8)⟩) := by
    cases o <;> simp [Spec.step, upd] at e
    exact e.symm
  refine ⟨h128, ?_⟩
  rintro o s e
  refine ⟨?_, fun _ _ _ => trivial⟩
  cases o with
  | ptr ok =>
    simp only [Spec.step] at e
    split at e
    · cases e; exact ⟨_, rfl, by decide⟩
    · cases e
  | _ => simp [Spec.step] at e

/-- **C75**, negation of the full property, for every C library and every state of the program: if a buffer is to be resized and there is no
memory, `try_realloc` (and `realloc`, before it can assert) copies to null. The documentation says that the original buffer stays valid. -/
theorem C75_try_realloc_without_memory (hL : CLib.Good L) (m : Mem) (ops : List Op) (hl : AllLegal p (fun _ => none) ops) (hsm : ∀ op ∈ ops, Small p op)
    (hg : Granted L p (World.init m) ops) {w : World} {os : List Obs} {s : State} (hw : run L p (World.init m) ops = .ok (w, os))
    (hs : Spec.run p (fun _ => none) ops os = some s) {i : Nat} {b : Buf} (hb : s i = some b)
    {n al : BitVec 64} (hn : n ≠ 0) (hr : sysMalloc L p w.heap n al = .ok (w.heap, none)) :
    step L p w (.tryRealloc i n al) = .error .ub ∧ step L p w (.realloc i n al) = .error .ub ∧
    Spec.step p s (.tryRealloc i n al) (.ptr false) = some s := by
  obtain ⟨k, I⟩ : ∃ k, Inv p w.heap w.vars s k := by
    rcases run_ok hL ops (inv_init p m) hl hsm hg with ⟨w', os', s', k, e, t, I⟩ | ⟨e, -⟩
    · rw [hw] at e; cases e
      rw [hs] at t; cases t
      exact ⟨k, I⟩
    · rw [hw] at e; cases e
  obtain ⟨a, hv, o⟩ := I.live i b hb
  obtain ⟨m, e, -, -, -⟩ := sysMsize_ok I.blocks o
  have key : sysRealloc L p w.heap (w.vars i) n al = .error .ub := by
    unfold sysRealloc
    rw [if_pos (bv_pos hn), sysMalloc_atLeast, hr, hv]
    simp only [R.ok_bind, sysMoveOver, e, R.error_bind]
  refine ⟨?_, ?_, ?_⟩
  · simp only [step, key, R.error_bind]
  · simp only [step, realloc, key, R.error_bind]
  · simp only [Spec.step]
    rw [if_neg hn]

/-- A program with the C library above that does this. -/
example : (run bump .linux (World.init fun _ => 0) [.alloc 0 8#64 8#64, .tryRealloc 0 2097152#64 8#64]).map (fun q => q.2) = .error .ub ∧
    (run bump .portable (World.init fun _ => 0) [.alloc 0 8#64 8#64, .tryRealloc 0 2097152#64 8#64]).map (fun q => q.2) = .error .ub := by
  constructor <;> decide +kernel

/-- **C75**, negation of the full property, for every C library that can give out 16 bytes: without `aligned_alloc` the size is computed modulo `2^64`, so a
request for `2^64 - 16` bytes is answered with a pointer behind a block of 16 bytes, and using it is undefined. -/
theorem C75_huge_request_accepted (hL : CLib.Good L) (m : Mem) {q : Nat} (hq : L.malloc (World.init m).heap 16 = some q) (v : BitVec 8) :
    (run L .portable (World.init m) [.alloc 0 (0#64 - 16#64) 16#64]).map (fun r => r.2) = .ok [.ptr true] ∧
    (run L .portable (World.init m) [.alloc 0 (0#64 - 16#64) 16#64, .write 0 0 v]).map (fun r => r.2) = .error .ub := by
  obtain ⟨⟨h1, h2, -⟩, h3⟩ := hL.malloc _ _ _ hq
  have e0 : atLeast 16#64 (0#64 - 16#64) = 16#64 := by decide
  have e1 : (0#64 - 16#64 + 16#64 + 8#64 + 8#64).toNat = 16 := by decide
  have eq : (BitVec.ofNat 64 q).toNat = q := by rw [BitVec.toNat_ofNat]; omega
  have e2 : (BitVec.ofNat 64 q + 8#64 + 8#64).toNat = q + 16 := by
    simp only [BitVec.toNat_add, BitVec.toNat_ofNat]; omega
  have hp2 : IsPowerOfTwo (16#64).toNat := ⟨4, rfl⟩
  have h4 : q % 16 = 0 := Nat.mod_eq_zero_of_dvd h3
  have hu : alignUpN (q + 16) 16 = q + 16 := by unfold alignUpN; omega
  have er : (alignUp (BitVec.ofNat 64 q + 8#64 + 8#64) 16#64).toNat = q + 16 := by
    rw [toNat_alignUp hp2 (by rw [e2]; show q + 16 + (16 - 1) < 2 ^ 64; omega), e2]
    exact hu
  generalize hR : alignUp (BitVec.ofNat 64 q + 8#64 + 8#64) 16#64 = res at er
  have r1 : (res - 8#64).toNat = q + 8 := by
    rw [BitVec.toNat_sub_of_le (by rw [BitVec.le_def, er]; show 8 ≤ q + 16; omega), er]; rfl
  have r2 : (res - 8#64 - 8#64).toNat = q := by
    rw [BitVec.toNat_sub_of_le (by rw [BitVec.le_def, r1]; show 8 ≤ q + 8; omega), r1]; rfl
  have key : ∃ h, sysMalloc L .portable (World.init m).heap (0#64 - 16#64) 16#64 = .ok (h, some (q + 16)) ∧ h.blocks = [⟨q, 16⟩] := by
    have hm : sysMalloc L .portable (World.init m).heap (0#64 - 16#64) 16#64 =
        .ok (⟨Alloc.write64 (Alloc.write64 m (q + 8) (BitVec.ofNat 64 q)) q (0#64 - 16#64), [⟨q, 16⟩]⟩, some (q + 16)) := by
      have b1 : ((World.init m).heap.add q 16).has (q + 8) 8 = true := by
        simp [Heap.has, Heap.add]
      have b2 : Heap.has ⟨Alloc.write64 m (q + 8) (BitVec.ofNat 64 q), [⟨q, 16⟩]⟩ q 8 = true := by
        simp [Heap.has]
      simp only [sysMalloc, e0, e1, hq, hR, r1, r2, er]
      simp only [Heap.write64]
      rw [if_pos b1, R.ok_bind]
      exact congrArg (fun r : R Heap => r >>= fun h => (Except.ok (h, some (q + 16)) : R (Heap × Option Nat))) (if_pos b2)
    exact ⟨_, hm, rfl⟩
  obtain ⟨h, ek, eb⟩ := key
  have s1 : step L .portable (World.init m) (.alloc 0 (0#64 - 16#64) 16#64) = .ok ((World.init m).put h 0 (some (q + 16)), .ptr true) := by
    simp only [step, alloc, ek, R.ok_bind]
    rw [ccAssert_true (by simp)]; rfl
  have s2 : step L .portable ((World.init m).put h 0 (some (q + 16))) (.write 0 0 v) = .error .ub := by
    simp only [step, World.deref, World.put, if_true, R.ok_bind, Heap.write8, Heap.has, eb, List.any_cons, List.any_nil]
    rw [if_neg (by simp)]; rfl
  constructor
  · simp only [run, s1, R.ok_bind]; rfl
  · simp only [run, s1, R.ok_bind, s2, R.error_bind]; rfl

/-- With the C library above. -/
example : bump.malloc (World.init fun _ => 0).heap 16 = some 4096 := by decide

end Verif.SysAlloc
