import Verif.Alloc.Spec
import Verif.Alloc.Linear

/-! What a linear allocator over `[lo, hi)` does, in terms of its live blocks (newest first). -/
namespace Verif.Alloc.Linear.Spec
open Verif.Alloc.Spec

/-- Hand out the lowest aligned address behind all blocks, if the block fits. -/
def alloc (lo hi : Nat) (l : List Block) (size align : Nat) : R (Nat × List Block) :=
  let p := alignUpN (top lo l) align
  if p + size ≤ hi then .ok (p, { addr := p, size := size, align := align } :: l) else .error .assert

/-- Resize the newest block, where it is. Anything else is refused. -/
def resize (hi : Nat) (l : List Block) (ptr n : Nat) : R (Nat × List Block) :=
  match l with
  | [] => .error .assert
  | b :: l => if ptr = b.addr ∧ ptr + n ≤ hi then .ok (ptr, { addr := b.addr, size := n, align := b.align } :: l) else .error .assert

/-- One call. -/
def step (lo hi : Nat) (l : List Block) : Op → R (Option Nat × List Block)
  | .alloc size align => (alloc lo hi l size (max align 1)).map fun r => (some r.1, r.2)
  | .realloc ptr n align =>
    if ptr = 0 then (if n = 0 then .ok (some 0, l) else (alloc lo hi l n (max align 1)).map fun r => (some r.1, r.2))
    else (resize hi l ptr n).map fun r => (some r.1, r.2)
  | .free _ => .ok (none, l)
  | .reset => .ok (none, [])

/-- A history. -/
def run (lo hi : Nat) (l : List Block) : List Op → R (List (Option Nat) × List Block)
  | [] => .ok ([], l)
  | op :: ops => do
    let a ← step lo hi l op
    let b ← run lo hi a.2 ops
    .ok (a.1 :: b.1, b.2)

/-- The sizes are far from the end of the address space, and the alignments are powers of two (or 0, which counts as 1). -/
def OpOk : Op → Prop
  | .alloc size align => Small size ∧ (align = 0 ∨ GoodAlign align)
  | .realloc ptr n align => ptr < 2 ^ 64 ∧ Small n ∧ (align = 0 ∨ GoodAlign align)
  | _ => True

end Verif.Alloc.Linear.Spec
