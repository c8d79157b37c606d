import Verif.Common
import Verif.Bits.Spec

/-! Blocks of memory handed out by allocators that work through a buffer from its beginning. Addresses are numbers here. -/
namespace Verif.Alloc.Spec
open Verif.Bits

/-- A block that was handed out: where, how large, and for which alignment. -/
structure Block where
  addr : Nat
  size : Nat
  align : Nat
deriving DecidableEq, Repr

/-- Two blocks share no byte. -/
def Block.Disjoint (a b : Block) : Prop := a.addr + a.size ≤ b.addr ∨ b.addr + b.size ≤ a.addr

/-- The live blocks of a buffer `[lo, hi)`: inside, aligned, without common bytes. -/
structure Laid (lo hi : Nat) (l : List Block) : Prop where
  inside : ∀ b ∈ l, lo ≤ b.addr ∧ b.addr + b.size ≤ hi
  aligned : ∀ b ∈ l, b.align ∣ b.addr
  apart : l.Pairwise Block.Disjoint

/-- The first address behind the newest block. -/
def top (lo : Nat) : List Block → Nat
  | [] => lo
  | b :: _ => b.addr + b.size

/-- The least multiple of `a` that is at least `v` (see `alignUpN_spec`). -/
def alignUpN (v a : Nat) : Nat := (v + (a - 1)) / a * a

/-- Sizes and alignments far from the end of the address space. -/
def Small (n : Nat) : Prop := n ≤ 2 ^ 62

/-- An alignment that can be asked for. -/
def GoodAlign (a : Nat) : Prop := IsPowerOfTwo a ∧ Small a

end Verif.Alloc.Spec
