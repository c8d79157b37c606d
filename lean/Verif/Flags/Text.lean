import Verif.Flags.Model
import Verif.StrView.Model

/-!
Model of `to_string(flags)` (/repo/src/clean-core/flags.hh:143-160). The string type is the one the user's `to_string` for the enum
returns; it is the list of its characters here, and `name e` is the result of that function, which may fail.
-/
namespace Verif.Flags
open Verif.StrView (Chr)

variable {w : Nat}

/-- The loop `for (auto i = 0u; i < Bits; ++i)` (flags.hh:150-158); `n` iterations remain, `first` and `s` are the local variables. -/
def textLoop (name : Nat → R (List Chr)) (f : Fl w) (i : Nat) (first : Bool) (s : List Chr) : Nat → R (List Chr)
  | 0 => .ok s
  | n + 1 => do
    let b ← has f i
    if b then do
      let s' := if first then s else s ++ [44#8, 32#8]
      let t ← name i
      textLoop name f (i + 1) false (s' ++ t) n
    else textLoop name f (i + 1) first s n

/-- `to_string(flags<EnumT, Bits>)` (flags.hh:143-160). `bits` is the template argument `Bits`, `w` the width of the storage type. -/
def toStr (bits : Nat) (name : Nat → R (List Chr)) (f : Fl w) : R (List Chr) := do
  let s ← textLoop name f 0 true [123#8] bits
  .ok (s ++ [125#8])

/-- The width of `storage_t` (detail/compact_size_t.hh:33-61). -/
def storageBits (bits : Nat) : Nat := if bits ≤ 8 then 8 else if bits ≤ 16 then 16 else if bits ≤ 32 then 32 else 64

end Verif.Flags
