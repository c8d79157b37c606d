import Verif.Alloc.Spec
import Verif.Alloc.Stack

/-! What a stack allocator over `[lo, hi)` does, in terms of its live blocks (newest first). -/
namespace Verif.Alloc.Stack.Spec
open Verif.Alloc.Spec

/-- Hand out the lowest aligned address that leaves eight bytes behind all blocks, if the block fits. -/
def alloc (lo hi : Nat) (l : List Block) (size align : Nat) : R (Nat × List Block) :=
  let p := alignUpN (top lo l + 8) align
  if p + size ≤ hi then .ok (p, { addr := p, size := size, align := align } :: l) else .error .assert

/-- Only the newest block can be freed. -/
def free (l : List Block) (ptr : Nat) : R (List Block) :=
  if ptr = 0 then .ok l
  else match l with
    | [] => .error .assert
    | b :: l => if ptr = b.addr then .ok l else .error .assert

/-- Only the newest block can be resized; it stays where it is. -/
def resize (hi : Nat) (l : List Block) (ptr n : Nat) : R (Nat × List Block) :=
  match l with
  | [] => .error .assert
  | b :: l => if ptr = b.addr ∧ ptr + n ≤ hi then .ok (ptr, { addr := b.addr, size := n, align := b.align } :: l) else .error .assert

/-- One call. -/
def step (lo hi : Nat) (l : List Block) : Op → R (Option Nat × List Block)
  | .alloc size align => (alloc lo hi l size align).map fun r => (some r.1, r.2)
  | .free ptr => (free l ptr).map fun l => (none, l)
  | .realloc ptr n align =>
    if n = 0 then (free l ptr).map fun l => (some 0, l)
    else if ptr = 0 then (alloc lo hi l n align).map fun r => (some r.1, r.2)
    else (resize hi l ptr n).map fun r => (some r.1, r.2)
  | .reset => .ok (none, [])
  | .write _ _ => .ok (none, l)

/-- A history. -/
def run (lo hi : Nat) (l : List Block) : List Op → R (List (Option Nat) × List Block)
  | [] => .ok ([], l)
  | op :: ops => do
    let a ← step lo hi l op
    let b ← run lo hi a.2 ops
    .ok (a.1 :: b.1, b.2)

/-- The rules for clients: alignments are powers of two, pointers that are given back belong to live blocks (not necessarily the newest), and only live blocks are written to. Sizes stay away from the
end of the address space, and alignments below 2^32. -/
def OpOk (l : List Block) : Op → Prop
  | .alloc size align => Small size ∧ Verif.Bits.IsPowerOfTwo align ∧ align ≤ 2 ^ 31
  | .free ptr => ptr = 0 ∨ ∃ b ∈ l, b.addr = ptr
  | .realloc ptr n align => (ptr = 0 ∨ ∃ b ∈ l, b.addr = ptr) ∧ Small n ∧ Verif.Bits.IsPowerOfTwo align ∧ align ≤ 2 ^ 31
  | .reset => True
  | .write a _ => ∃ b ∈ l, b.addr ≤ a ∧ a < b.addr + b.size

/-- All steps of a history obey the rules. -/
def Proper (lo hi : Nat) (l : List Block) : List Op → Prop
  | [] => True
  | op :: ops => OpOk l op ∧ ∀ r, step lo hi l op = .ok r → Proper lo hi r.2 ops

/-- A block together with its header. -/
def withHeader (b : Block) : Block := { addr := b.addr - 8, size := b.size + 8, align := 1 }

end Verif.Alloc.Stack.Spec
