import Verif.SysAlloc.Model
import Verif.Bits.Spec

/-! Specification of the system allocator, and what is assumed about the C library. -/
namespace Verif.SysAlloc.Spec
open Verif.SysAlloc Verif.Bits

/-! ### the C library -/

/-- `[a, a + n)` is inside the address space and has no byte (and not its address) in common with a block that is in use. -/
def Fresh (h : Heap) (a n : Nat) : Prop :=
  0 < a ∧ a + n < 2 ^ 64 ∧ ∀ b ∈ h.blocks, a + max n 1 ≤ b.addr ∨ b.addr + max b.size 1 ≤ a

/-- What the C standard says about `malloc`, and the manual page about `aligned_alloc` and `malloc_usable_size`. They may fail at any time. -/
structure CLib.Good (L : CLib) : Prop where
  malloc : ∀ h n a, L.malloc h n = some a → Fresh h a n ∧ 16 ∣ a
  alignedAlloc : ∀ h al n a u, IsPowerOfTwo al → L.alignedAlloc h al n = some (a, u) → Fresh h a u ∧ n ≤ u ∧ al ∣ a

/-! ### what the program sees -/

/-- A buffer: the alignment it was asked for, and its bytes as far as they have been written. -/
structure Buf where
  align : Nat
  bytes : List (Option (BitVec 8))

/-- The buffer behind each variable, `none`: null. -/
abbrev State := Nat → Option Buf

def upd (s : State) (i : Nat) (b : Option Buf) : State := fun j => if j = i then b else s j

/-- `n` unknown bytes. -/
def fresh (n : Nat) : List (Option (BitVec 8)) := List.replicate n none

/-- Calls that a program may make: pointers are not overwritten, alignments are powers of two, accesses are inside of the buffer. -/
def Legal (s : State) : Op → Prop
  | .alloc i _ al => s i = none ∧ IsPowerOfTwo al.toNat
  | .tryAlloc i _ al => s i = none ∧ IsPowerOfTwo al.toNat
  | .realloc _ _ al => IsPowerOfTwo al.toNat
  | .tryRealloc _ _ al => IsPowerOfTwo al.toNat
  | .free _ => True
  | .getSize _ => True
  | .write i off _ => ∃ b, s i = some b ∧ off < b.bytes.length
  | .read i off => ∃ b, s i = some b ∧ off < b.bytes.length

/-- The buffers after a call that returned `o`; `none`: the call must not return `o`.
Null means that there is no memory; only the `try_` forms return it for sizes other than 0, and they change nothing then. -/
def step (p : Plat) (s : State) (op : Op) (o : Obs) : Option State :=
  match op, o with
  | .alloc i n al, .ptr true => some (upd s i (some ⟨al.toNat, fresh n.toNat⟩))
  | .alloc _ n _, .ptr false => if n = 0 then some s else none
  | .tryAlloc i n al, .ptr true => some (upd s i (some ⟨al.toNat, fresh n.toNat⟩))
  | .tryAlloc _ _ _, .ptr false => some s
  | .realloc i n al, .ptr ok => if ok = decide (n ≠ 0) then some (upd s i (resized (s i) n.toNat al.toNat)) else none
  | .tryRealloc i n al, .ptr true => if n = 0 then none else some (upd s i (resized (s i) n.toNat al.toNat))
  | .tryRealloc i n _, .ptr false => if n = 0 then some (upd s i none) else some s
  | .free i, .none => some (upd s i none)
  | .getSize i, .size n => if sizeOk p (s i) n then some s else none
  | .write i off v, .none => (s i).map fun b => upd s i (some { b with bytes := b.bytes.set off (some v) })
  | .read i off, .byte v =>
    match s i with
    | some b => if b.bytes[off]? = some none ∨ b.bytes[off]? = some (some v) then some s else none
    | none => none
  | _, _ => none
where
  /-- The buffer after it has been given a new size: the bytes that fit stay, new ones are unknown. Size 0 is null. -/
  resized (b : Option Buf) (n al : Nat) : Option Buf :=
    if n = 0 then none
    else match b with
      | none => some ⟨al, fresh n⟩
      | some b => some ⟨al, b.bytes.take n ++ fresh (n - b.bytes.length)⟩
  /-- The size reported: at least the size asked for; exactly this size, if the allocator keeps it itself. -/
  sizeOk (p : Plat) (b : Option Buf) (n : Nat) : Bool :=
    match b, p with
    | none, _ => n == 0
    | some b, .linux => decide (b.bytes.length ≤ n)
    | some b, .portable => n == b.bytes.length

/-- A history and what its calls returned. -/
def run (p : Plat) (s : State) : List Op → List Obs → Option State
  | [], [] => some s
  | op :: ops, o :: os => (step p s op o).bind fun s => run p s ops os
  | _, _ => none

/-- All calls of a history are legal, whatever they return. -/
def AllLegal (p : Plat) (s : State) : List Op → Prop
  | [] => True
  | op :: ops => Legal s op ∧ ∀ o s', step p s op o = some s' → AllLegal p s' ops

/-- The buffers in memory: aligned as asked for (and for every basic type that fits), without common bytes. -/
structure Placed (vars : Nat → Option Nat) (s : State) : Prop where
  null : ∀ i, s i = none ↔ vars i = none
  aligned : ∀ i b a, s i = some b → vars i = some a → b.align ∣ a ∧ 8 ∣ a ∧ (16 ≤ b.bytes.length → 16 ∣ a)
  inside : ∀ i b a, s i = some b → vars i = some a → 0 < a ∧ a + b.bytes.length < 2 ^ 64
  apart : ∀ i j b c a d, i ≠ j → s i = some b → s j = some c → vars i = some a → vars j = some d →
    a ≠ d ∧ (a + b.bytes.length ≤ d ∨ d + c.bytes.length ≤ a)

/-! ### cases that are left out -/

/-- Sizes and alignments far from the end of the address space; only needed where the allocator computes with them. -/
def Small (p : Plat) : Op → Prop
  | .alloc _ n al | .tryAlloc _ n al | .realloc _ n al | .tryRealloc _ n al => p = .portable → n.toNat ≤ 2 ^ 62 ∧ al.toNat ≤ 2 ^ 62
  | _ => True

/-- The C library has no memory for this request. -/
def Refused (L : CLib) (p : Plat) (h : Heap) (n al : BitVec 64) : Prop := ∃ h', sysMalloc L p h n al = .ok (h', none)

/-- A buffer is to be resized, but there is no memory. -/
def ReallocRefused (L : CLib) (p : Plat) (w : World) : Op → Prop
  | .realloc i n al | .tryRealloc i n al => w.vars i ≠ none ∧ n ≠ 0 ∧ Refused L p w.heap n al
  | _ => False

/-- No buffer is resized when there is no memory. -/
def Granted (L : CLib) (p : Plat) (w : World) : List Op → Prop
  | [] => True
  | op :: ops => ¬ ReallocRefused L p w op ∧ ∀ w' o, SysAlloc.step L p w op = .ok (w', o) → Granted L p w' ops

/-- The program calls `alloc` or `realloc` when there is no memory. -/
def OutOfMemory (L : CLib) (p : Plat) (w : World) : List Op → Prop
  | [] => False
  | op :: ops => (match op with
      | .alloc _ n al | .realloc _ n al => n ≠ 0 ∧ Refused L p w.heap n al
      | _ => False) ∨ ∃ w' o, SysAlloc.step L p w op = .ok (w', o) ∧ OutOfMemory L p w' ops

end Verif.SysAlloc.Spec
