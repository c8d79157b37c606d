import Verif.Tlsf.HeapHist
/-!
# C40: the TLSF heap

`HeapSpec.lean` says what a heap has to look like in memory, `HeapRun.lean` what a history is.
-/
namespace Verif.Tlsf
open Spec Verif.Bits

/-- The memory of the control structure. -/
structure ControlOk (C : Cfg) : Prop where
  pos : C.ctl ≠ 0
  al : C.ctl % 8 = 0
  ok : ∀ a, C.ctl ≤ a → a < C.ctl + controlSize → C.ok a = true

theorem ControlOk.start {C : Cfg} (h : ControlOk C) (mem : Nat → Nat) : ∃ s, construct C mem = .ok s ∧ WI C ⟨s, [], []⟩ [] [] :=
  construct_wi h.pos h.al (h.ok _ (by omega) (by unfold controlSize; omega)) (h.ok _ (by omega) (by unfold controlSize; omega))

/-- C40: along every legal history of adding and removing pools, `malloc`, `memalign`, `realloc`, `free` and writes to the blocks, no assertion fails, no
memory outside the pools is touched, and at every point the blocks tile the pools, no two free blocks are neighbours, the bitmaps and free lists hold exactly the
free blocks, and the blocks handed out are aligned, large enough, apart, and hold what was written to them.

It is `_partial` because the history has to be `Legal`: the theorems below show what happens when sizes and alignments are not bounded. -/
theorem C40_history_partial (C : Cfg) (hC : ControlOk C) (mem : Nat → Nat) :
    ∃ s, construct C mem = .ok s ∧
      ∀ os, LegalRun C ⟨s, [], []⟩ os → ∃ w blocks, run C ⟨s, [], []⟩ os = .ok w ∧ w.sound C blocks := by
  obtain ⟨s, e, i⟩ := hC.start mem
  refine ⟨s, e, fun os hl => ?_⟩
  obtain ⟨w, L, G, e', i'⟩ := run_ok os i hl
  obtain ⟨blocks, h, _⟩ := i'.sound
  exact ⟨w, blocks, e', h⟩

/-- Memory determines the blocks. -/
theorem tiled_unique {m : Nat → Nat} {a e e' : Nat} {cs cs' : List Chunk} (h : Tiled m a e cs) (h' : Tiled m a e' cs') : cs = cs' ∧ e = e' := by
  induction h generalizing e' cs' with
  | last a h0 =>
    cases h' with
    | last _ _ => exact ⟨rfl, rfl⟩
    | block _ _ c _ _ h2 h3 _ _ => omega
  | block a e c cs h1 h2 h3 h4 _ ih =>
    cases h' with
    | last _ h0 => omega
    | block _ _ c' cs2 k1 k2 k3 k4 k5 =>
      have : c = c' := by
        obtain ⟨c1, c2, c3⟩ := c
        obtain ⟨d1, d2, d3⟩ := c'
        simp only [Chunk.mk.injEq]
        exact ⟨h1.trans k1.symm, h2.trans k2.symm, h4.trans k4.symm⟩
      subst this
      obtain ⟨i1, i2⟩ := ih k5
      exact ⟨by rw [i1], i2⟩

theorem blocks_unique {m : Nat → Nat} : ∀ {B B' : List ((Nat × Nat) × List Chunk)}, B.map Prod.fst = B'.map Prod.fst →
    (∀ p ∈ B, Tiled m (firstBlock p.1) (lastBlock p.1) p.2) → (∀ p ∈ B', Tiled m (firstBlock p.1) (lastBlock p.1) p.2) → B = B'
  | [], [], _, _, _ => rfl
  | [], _ :: _, h, _, _ => (nomatch h)
  | _ :: _, [], h, _, _ => (nomatch h)
  | (p, cs) :: B, (p', cs') :: B', h, h1, h2 => by
    obtain ⟨e1, e2⟩ := List.cons.inj h
    change p = p' at e1
    subst e1
    have := (tiled_unique (h1 (p, cs) List.mem_cons_self) (h2 (p, cs') List.mem_cons_self)).1
    dsimp only at this
    rw [this, blocks_unique e2 (fun p hp => h1 p (List.mem_cons_of_mem _ hp)) (fun p hp => h2 p (List.mem_cons_of_mem _ hp))]

theorem sound_unique {C : Cfg} {w : World} {B B' : List ((Nat × Nat) × List Chunk)} (h : w.sound C B) (h' : w.sound C B') : B = B' :=
  blocks_unique (h.poolsEq.trans h'.poolsEq.symm) h.tiled h'.tiled

/-- C40: when everything is freed, each pool is the single free block it was at the beginning. -/
theorem C40_free_all (C : Cfg) (hC : ControlOk C) (mem : Nat → Nat) (s : St) (hs : construct C mem = .ok s) (os : List Op) (hl : LegalRun C ⟨s, [], []⟩ os)
    (w : World) (hw : run C ⟨s, [], []⟩ os = .ok w) (hlive : w.live = []) :
    w.sound C (w.pools.map fun p => (p, [⟨firstBlock p, capacity p, true⟩])) := by
  obtain ⟨s', e, i⟩ := hC.start mem
  rw [hs] at e
  cases e
  obtain ⟨w', L, G, e', i'⟩ := run_ok os i hl
  rw [hw] at e'
  cases e'
  obtain ⟨blocks, h, _⟩ := i'.sound
  have hb : blocks = w.pools.map fun p => (p, [⟨firstBlock p, capacity p, true⟩]) := by
    rw [← h.poolsEq, List.map_map]
    conv => lhs; rw [← List.map_id blocks]
    refine List.map_congr_left ?_
    intro q hq
    have hp : q.1 ∈ w.pools := by rw [← h.poolsEq]; exact List.mem_map.mpr ⟨q, hq, rfl⟩
    have h8 := i'.psz _ hp
    have := one_free q.2 w.st.mem _ _ (h.tiled q hq) (h.coalesced q hq) (by
      intro c hc
      cases ec : c.free with
      | true => rfl
      | false =>
        obtain ⟨v, hv, _⟩ := h.inUse q hq c hc ec
        rw [hlive] at hv
        cases hv) (by unfold firstBlock lastBlock capacity; omega)
    change q = (q.1, [⟨firstBlock q.1, capacity q.1, true⟩])
    have hcap : lastBlock q.1 - firstBlock q.1 - 8 = capacity q.1 := by
      unfold firstBlock lastBlock
      omega
    rw [hcap] at this
    rw [← this]
  rw [← hb]
  exact h

/-- C40: `malloc` of a size up to 2^32 - 8 finds a block whenever some free block is larger than the request (rounded up to a multiple of 8, and to 24) by a 32nd part. -/
theorem C40_malloc_succeeds (C : Cfg) (hC : ControlOk C) (mem : Nat → Nat) (s : St) (hs : construct C mem = .ok s) (os : List Op) (hl : LegalRun C ⟨s, [], []⟩ os)
    (w : World) (hw : run C ⟨s, [], []⟩ os = .ok w) (blocks : List ((Nat × Nat) × List Chunk)) (hb : w.sound C blocks) (size : BitVec 64)
    (h0 : 0 < size.toNat) (h1 : size.toNat ≤ 2 ^ 32 - 8) (p : (Nat × Nat) × List Chunk) (hp : p ∈ blocks) (c : Chunk) (hc : c ∈ p.2) (hf : c.free = true)
    (hfit : 33 * Nat.max ((size.toNat + 7) / 8 * 8) 24 ≤ 32 * c.size) : ∃ s' q, malloc C w.st size = .ok (s', q) ∧ q ≠ 0 := by
  obtain ⟨s', e, i⟩ := hC.start mem
  rw [hs] at e
  cases e
  obtain ⟨w', L, G, e', i'⟩ := run_ok os i hl
  rw [hw] at e'
  cases e'
  obtain ⟨blocks', h, hbl⟩ := i'.sound
  have := sound_unique hb h
  subst this
  obtain ⟨x, hx, _, rfl⟩ := (hbl c).mp ⟨p, hp, hc⟩
  obtain ⟨r, hr, hm⟩ := malloc_ok i'.h i'.g size
  have hr1 := hr.some h0 h1
  rcases hm with ⟨e, hno⟩ | ⟨s', L', a, z, e, _⟩
  · have := hno hr1 x hx hf
    rw [hr.eq h0 h1] at this
    dsimp only at hfit
    omega
  · exact ⟨s', a + 16, e, by omega⟩

/-- C40: the same for `memalign`, which looks for a block with room for the alignment. -/
theorem C40_memalign_succeeds (C : Cfg) (hC : ControlOk C) (mem : Nat → Nat) (s : St) (hs : construct C mem = .ok s) (os : List Op) (hl : LegalRun C ⟨s, [], []⟩ os)
    (w : World) (hw : run C ⟨s, [], []⟩ os = .ok w) (blocks : List ((Nat × Nat) × List Chunk)) (hb : w.sound C blocks) (align size : BitVec 64)
    (ha : IsPowerOfTwo align.toNat) (h0 : 0 < size.toNat) (h1 : size.toNat + 2 * align.toNat + 64 ≤ 2 ^ 32) (p : (Nat × Nat) × List Chunk) (hp : p ∈ blocks)
    (c : Chunk) (hc : c ∈ p.2) (hf : c.free = true) (hfit : 33 * (Nat.max ((size.toNat + 7) / 8 * 8) 24 + 2 * align.toNat + 32) ≤ 32 * c.size) :
    ∃ s' q, memalign C w.st align size = .ok (s', q) ∧ q ≠ 0 := by
  obtain ⟨s', e, i⟩ := hC.start mem
  rw [hs] at e
  cases e
  obtain ⟨w', L, G, e', i'⟩ := run_ok os i hl
  rw [hw] at e'
  cases e'
  obtain ⟨blocks', h, hbl⟩ := i'.sound
  have := sound_unique hb h
  subst this
  obtain ⟨x, hx, _, rfl⟩ := (hbl c).mp ⟨p, hp, hc⟩
  obtain ⟨r, hr, hm⟩ := memalign_ok i'.h i'.g ha (by omega) size
  have hr1 := hr.some h0 (by omega)
  have hr2 := hr.small (by omega)
  rcases hm with ⟨e, hno⟩ | ⟨s', L', a, z, e, _⟩
  · have := hno hr1 (by omega) x hx hf
    rw [hr.eq h0 (by omega)] at this
    dsimp only at hfit
    omega
  · exact ⟨s', a + 16, e, by omega⟩

/-! ### A case -/

/-- Legality of a longer history. -/
theorem legal_snoc {C : Cfg} {o : Op} : ∀ {os : List Op} {w : World}, LegalRun C w os → (∀ w', run C w os = .ok w' → Legal C w' o) → LegalRun C w (os ++ [o])
  | [], w, _, h => ⟨h w rfl, fun _ _ => trivial⟩
  | o' :: os, w, hl, h => by
    refine ⟨hl.1, fun w' e => legal_snoc (hl.2 w' e) fun w2 e2 => h w2 ?_⟩
    unfold run
    rw [e]
    exact e2

namespace Example

/-- The control structure is at 4096, and there is memory from there to 20000. -/
def C : Cfg := ⟨4096, fun a => decide (4096 ≤ a ∧ a < 20000)⟩

/-- A history from the beginning. -/
def hist (ops : List Op) : R World := do
  let s ← construct C fun _ => 0
  run C ⟨s, [], []⟩ ops

/-- The blocks handed out: pointer, size, and the first bytes written. -/
def seen (r : R World) : Option (List (Nat × Nat × List (Option Nat))) :=
  match r with
  | .ok w => some (w.live.map fun (v : Live) => (v.ptr, v.size, (List.range 3).map v.data))
  | .error _ => none

def pool : Op := .addPool 10640 2000#64

theorem control : ControlOk C := ⟨by decide, by decide, fun a h1 h2 => by
  unfold controlSize at h2
  change 4096 ≤ a at h1
  change a < 4096 + _ at h2
  exact decide_eq_true (by omega)⟩

theorem pool_legal (s : St) : Legal C ⟨s, [], []⟩ pool := by
  refine ⟨by decide, by decide, by decide, by decide, ?_, Or.inr (by decide), fun p hp => (by cases hp)⟩
  intro a h1 h2
  change a < 10640 + 2000 at h2
  exact decide_eq_true (by omega)

/-- Blocks are taken. -/
def ops1 : List Op := [pool, .malloc 100#64, .memalign 64#64 100#64, .malloc 40#64]
/-- One is written and resized, which moves it, and another one is freed. -/
def ops2 : List Op := [.malloc 16#64, .realloc 1 200#64, .free 1]
def ops : List Op := ops1 ++ [.write 0 1 7] ++ ops2

theorem seen_ops1 : seen (hist ops1) = some [(10760, 40, [none, none, none]), (10816, 100, [none, none, none]), (10648, 100, [none, none, none])] := by decide +kernel

example : seen (hist ops) = some [(10960, 200, [none, some 7, none]), (10816, 100, [none, none, none]), (10648, 100, [none, none, none])] := by decide +kernel

theorem legal_append {C : Cfg} {os2 : List Op} : ∀ {os : List Op} {w : World}, LegalRun C w os → (∀ w', LegalRun C w' os2) → LegalRun C w (os ++ os2)
  | [], w, _, h => h w
  | _ :: _, _, hl, h => ⟨hl.1, fun w' e => legal_append (hl.2 w' e) h⟩

/-- The history is legal. -/
theorem ops_legal (s : St) (hs : construct C (fun _ => 0) = .ok s) : LegalRun C ⟨s, [], []⟩ ops := by
  refine legal_append (legal_snoc ?_ ?_) ?_
  · exact ⟨pool_legal s, fun _ _ => ⟨show _ ≤ _ by decide, fun _ _ => ⟨⟨by decide, ⟨6, by decide⟩, by decide⟩, fun _ _ => ⟨show _ ≤ _ by decide, fun _ _ => trivial⟩⟩⟩⟩
  · intro w' e
    refine ⟨by decide, ?_⟩
    intro v hv
    have h1 : hist ops1 = .ok w' := by
      unfold hist
      rw [hs]
      exact e
    have h2 := seen_ops1
    rw [h1] at h2
    unfold seen at h2
    have h3 := Option.some.inj h2
    cases hl : w'.live with
    | nil => rw [hl] at hv; cases hv
    | cons x t =>
      rw [hl] at hv h3
      cases hv
      have := congrArg (fun (z : Nat × Nat × List (Option Nat)) => z.2.1) (List.cons.inj h3).1
      change v.size = 40 at this
      omega
  · intro w'
    exact ⟨show _ ≤ _ by decide, fun _ _ => ⟨show _ ≤ _ by decide, fun _ _ => ⟨trivial, fun _ _ => trivial⟩⟩⟩

/-- The blocks of the pool read from memory, at most `n`. -/
def walk (m : Nat → Nat) : Nat → Nat → List Chunk
  | _, 0 => []
  | a, n + 1 => if wSize (m (a + 8)) = 0 then [] else ⟨a, wSize (m (a + 8)), wFree (m (a + 8))⟩ :: walk m (a + 8 + wSize (m (a + 8))) n

def walked (r : R World) : Option (List Chunk) :=
  match r with
  | .ok w => some (walk w.st.mem 10632 20)
  | .error _ => none

example : walked (hist ops) = some [⟨10632, 104, false⟩, ⟨10744, 48, true⟩, ⟨10800, 104, false⟩, ⟨10912, 24, true⟩, ⟨10944, 200, false⟩, ⟨11152, 1464, true⟩] := by
  decide +kernel

example : walked (hist (ops ++ [.free 0, .free 0, .free 0])) = some [⟨10632, 1984, true⟩] ∧ firstBlock (10640, 2000) = 10632 ∧ capacity (10640, 2000) = 1984 := by
  decide +kernel

/-! ### What goes wrong without the bounds -/

/-- A block is resized to more than 2^32 - 8 bytes: the pointer comes back as if there were enough room, the block has lost all of its bytes, and its header of size 0 hides
the rest of the pool. -/
theorem C40_realloc_huge_fails :
    seen (hist [pool, .malloc 100#64, .realloc 0 (BitVec.ofNat 64 (2 ^ 32 - 7))]) = some [(10648, 2 ^ 32 - 7, [none, none, none])] ∧
    walked (hist [pool, .malloc 100#64]) = some [⟨10632, 104, false⟩, ⟨10744, 1872, true⟩] ∧
    walked (hist [pool, .malloc 100#64, .realloc 0 (BitVec.ofNat 64 (2 ^ 32 - 7))]) = some [] := by decide +kernel

/-- An alignment of 2^63: the block is not aligned. -/
theorem C40_memalign_huge_misaligned :
    seen (hist [pool, .memalign (BitVec.ofNat 64 (2 ^ 63)) 100#64]) = some [(10648, 100, [none, none, none])] ∧ 10648 % 2 ^ 63 ≠ 0 := by decide +kernel

/-- An alignment of 2^63: the search is for 24 bytes only, so the block can be too small. -/
theorem C40_memalign_huge_too_small :
    seen (hist [pool, .malloc 24#64, .malloc 1900#64, .free 1, .memalign (BitVec.ofNat 64 (2 ^ 63)) 100#64]) =
      some [(10648, 100, [none, none, none]), (10680, 1900, [none, none, none])] ∧
    walked (hist [pool, .malloc 24#64, .malloc 1900#64, .free 1, .memalign (BitVec.ofNat 64 (2 ^ 63)) 100#64]) =
      some [⟨10632, 24, false⟩, ⟨10664, 1904, false⟩, ⟨12576, 40, true⟩] := by decide +kernel

/-- A request of 2^64 - 1 bytes is given 24 bytes. -/
theorem C40_malloc_huge_too_small :
    seen (hist [pool, .malloc (BitVec.ofNat 64 (2 ^ 64 - 1))]) = some [(10648, 2 ^ 64 - 1, [none, none, none])] ∧
    walked (hist [pool, .malloc (BitVec.ofNat 64 (2 ^ 64 - 1))]) = some [⟨10632, 24, false⟩, ⟨10664, 1952, true⟩] := by decide +kernel

/-- A block that had to be aligned loses the alignment when it is resized: `tlsf_allocator::realloc` ignores its argument `align`. -/
theorem C40_realloc_ignores_alignment :
    seen (hist [pool, .memalign 64#64 100#64, .malloc 16#64, .memalign 64#64 100#64]) =
      some [(10880, 100, [none, none, none]), (10648, 16, [none, none, none]), (10688, 100, [none, none, none])] ∧ 10688 % 64 = 0 ∧
    seen (hist [pool, .memalign 64#64 100#64, .malloc 16#64, .memalign 64#64 100#64, .realloc 2 400#64]) =
      some [(10992, 400, [none, none, none]), (10880, 100, [none, none, none]), (10648, 16, [none, none, none])] ∧ 10992 % 64 ≠ 0 := by decide +kernel

/-- The largest pool that is accepted is filed behind the arrays of the control structure. -/
theorem C40_largest_pool_undefined (s : St) :
    addPool ⟨4096, fun _ => true⟩ s 10640 (BitVec.ofNat 64 (2 ^ 32 + 16)) = .error .ub := by
  have h1 : (10640 - 8 + 8) % 8 = 0 := by decide
  unfold addPool
  rw [C39_largest_pool_out_of_range.1, R.ok_bind, if_neg (by decide)]
  dsimp only
  rw [modW_any h1 rfl, R.ok_bind, modW_any h1 rfl, R.ok_bind, modW_any h1 rfl, R.ok_bind, poke_mem, poke_mem, poke_twice, poke_twice]
  unfold blockInsert classOf
  rw [ld_ok h1 rfl, R.ok_bind, poke_mem]
  have hw : ∀ v, wSize (wSetPrevUsed (wSetFree (wSetSize v (BitVec.ofNat 64 (2 ^ 32)).toNat))) = 2 ^ 32 := by
    intro v
    have : (BitVec.ofNat 64 (2 ^ 32)).toNat = 2 ^ 32 := by decide +kernel
    rw [this]
    unfold wSize wSetPrevUsed wSetFree wSetSize
    omega
  rw [hw, C39_largest_pool_out_of_range.2]
  rfl

/-- Memory with no room for a block behind the control structure: the heap is set up without a pool, and nothing tells (`tlsf_create_with_pool` ignores what `tlsf_add_pool`
returns, so the assertion in `tlsf_allocator::initialize` passes); every request fails. -/
theorem C40_initialize_without_pool :
    (match createWithPool C (fun _ => 0) 6575#64 with
      | .ok (s, added) => some (added, (match malloc C s 1#64 with | .ok r => some r.2 | .error _ => none))
      | .error _ => none) = some (false, some 0) ∧
    6575 > controlSize ∧
    (match createWithPool C (fun _ => 0) 6576#64 with
      | .ok (s, added) => some (added, (match malloc C s 1#64 with | .ok r => some r.2 | .error _ => none))
      | .error _ => none) = some (true, some 10640) := by decide +kernel

end Example

end Verif.Tlsf
