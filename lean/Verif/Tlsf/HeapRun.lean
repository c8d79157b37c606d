import Verif.Tlsf.Heap
import Verif.Tlsf.HeapSpec
import Verif.Bits.Spec
/-!
# Histories of a TLSF heap

The operations a user calls, with the records the user keeps: which memory was given to the heap, which blocks were handed out and what was written to them.
-/
namespace Verif.Tlsf
open Spec Verif.Bits

/-- The heap and the user's records. -/
structure World where
  st : St
  /-- memory given to the heap: address and number of bytes -/
  pools : List (Nat × Nat)
  live : List Live

/-- What the user does. Blocks and pools are named by their place in the records; a place that does not exist stands for a null pointer. -/
inductive Op
  | addPool (base : Nat) (bytes : BitVec 64)
  | removePool (k : Nat)
  | malloc (size : BitVec 64)
  | memalign (align size : BitVec 64)
  | free (k : Nat)
  | realloc (k : Nat) (size : BitVec 64)
  | write (k i v : Nat)

/-- A byte is stored (little endian). -/
def setByte (m : Nat → Nat) (a v : Nat) : Nat → Nat :=
  updM m (a / 8 * 8) (m (a / 8 * 8) / 256 ^ (a % 8 + 1) * 256 ^ (a % 8 + 1) + v * 256 ^ (a % 8) + m (a / 8 * 8) % 256 ^ (a % 8))

/-- A block is entered in the records, unless the pointer is null. -/
def record (w : World) (s : St) (p size align : Nat) : World :=
  if p = 0 then { w with st := s } else { w with st := s, live := ⟨p, size, align, fun _ => none⟩ :: w.live }

/-- One operation. -/
def step (C : Cfg) (w : World) : Op → R World
  | .addPool base bytes => do
    let (s, added) ← addPool C w.st base bytes
    pure { w with st := s, pools := if added then (base, bytes.toNat) :: w.pools else w.pools }
  | .removePool k =>
    match w.pools[k]? with
    | none => pure w
    | some p => do
      let s ← removePool C w.st p.1
      pure { w with st := s, pools := w.pools.eraseIdx k }
  | .malloc size => do
    let (s, p) ← malloc C w.st size
    pure (record w s p size.toNat 8)
  | .memalign align size => do
    let (s, p) ← memalign C w.st align size
    pure (record w s p size.toNat align.toNat)
  | .free k =>
    match w.live[k]? with
    | none => do
      let s ← free C w.st 0
      pure { w with st := s }
    | some v => do
      let s ← free C w.st v.ptr
      pure { w with st := s, live := w.live.eraseIdx k }
  | .realloc k size =>
    match w.live[k]? with
    | none => do
      let (s, p) ← realloc C w.st 0 size
      pure (record w s p size.toNat 8)
    | some v => do
      let (s, p) ← realloc C w.st v.ptr size
      if size = 0#64 then pure { w with st := s, live := w.live.eraseIdx k }
      else if p = 0 then pure { w with st := s }
      else pure { w with st := s, live := ⟨p, size.toNat, 8, fun i => if i < size.toNat then v.data i else none⟩ :: w.live.eraseIdx k }
  | .write k i x =>
    match w.live[k]? with
    | none => pure w
    | some v => pure { w with st := { w.st with mem := setByte w.st.mem (v.ptr + i) x }, live := { v with data := fun j => if j = i then some x else v.data j } :: w.live.eraseIdx k }

/-- All operations. -/
def run (C : Cfg) : World → List Op → R World
  | w, [] => pure w
  | w, o :: t => do
    let w' ← step C w o
    run C w' t

/-- What the user has to respect. Memory given to the heap may be accessed, does not overlap the control structure or other pools, and has fewer than 2^32 + 16 bytes;
a pool is taken away when nothing in it is in use; sizes are at most 2^64 - 8; alignments are powers of two up to 2^62; a block is resized to at most
2^32 - 8 bytes; the user writes bytes inside their blocks. -/
def Legal (C : Cfg) (w : World) : Op → Prop
  | .addPool base bytes => 8 < base ∧ 16 ≤ bytes.toNat ∧ bytes.toNat < 2 ^ 32 + 16 ∧ base + bytes.toNat ≤ 2 ^ 64 ∧ (∀ a, base ≤ a → a < base + bytes.toNat → C.ok a = true) ∧
      (base + bytes.toNat ≤ C.ctl ∨ C.ctl + controlSize ≤ base) ∧ ∀ p ∈ w.pools, base + bytes.toNat ≤ p.1 ∨ p.1 + p.2 ≤ base
  | .removePool k => ∀ p, w.pools[k]? = some p → ∀ v ∈ w.live, v.ptr < p.1 ∨ p.1 + p.2 ≤ v.ptr
  | .malloc size => size.toNat ≤ 2 ^ 64 - 8
  | .memalign align size => size.toNat ≤ 2 ^ 64 - 8 ∧ IsPowerOfTwo align.toNat ∧ align.toNat ≤ 2 ^ 62
  | .free _ => True
  | .realloc _ size => size.toNat ≤ 2 ^ 32 - 8
  | .write k i x => x < 256 ∧ ∀ v, w.live[k]? = some v → i < v.size

/-- Every operation of the history is legal when it is reached. -/
def LegalRun (C : Cfg) : World → List Op → Prop
  | _, [] => True
  | w, o :: t => Legal C w o ∧ ∀ w', step C w o = .ok w' → LegalRun C w' t

/-- The heap as the specification sees it. -/
def World.sound (C : Cfg) (w : World) (blocks : List ((Nat × Nat) × List Chunk)) : Prop :=
  Sound C.ctl w.st.mem w.st.fl w.st.sl w.st.heads w.pools w.live blocks

end Verif.Tlsf
