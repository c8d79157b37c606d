import Verif.NMem.Model

/-!
What a user of `native/memory.hh` relies on, byte by byte: ranges of addresses are reserved and freed, their bytes are committed and
decommitted, committed bytes can be read and written. There are no pages here, only the number 4096 in the rules for addresses.
-/
namespace Verif.NMem.Spec
open Verif.NMem

/-- Reserved ranges (begin and size), committed bytes, and values. -/
structure S where
  res : List (Nat × Nat)
  com : Nat → Bool
  val : Nat → BitVec 8

/-- Nothing is reserved. -/
def S.start : S := { res := [], com := fun _ => false, val := fun _ => 0#8 }

/-- Is `x` in `[a, a + n)`? -/
def inside (a n x : Nat) : Bool := decide (a ≤ x ∧ x < a + n)

/-- The rules. For `reserve`, what the operating system promises: an aligned range in the lower half of the address space that is free. -/
def Allowed (s : S) : Op → Prop
  | .reserve size room =>
    0 < size.toNat ∧ ∃ a, room = some a ∧ 4096 ∣ a.toNat ∧ 0 < a.toNat ∧ a.toNat + size.toNat ≤ 2 ^ 47 ∧
      ∀ r ∈ s.res, a.toNat + size.toNat ≤ r.1 ∨ r.1 + r.2 ≤ a.toNat
  | .free ptr size => (ptr.toNat, size.toNat) ∈ s.res
  | .commit ptr size => ∃ r ∈ s.res, r.1 ≤ ptr.toNat ∧ ptr.toNat + size.toNat ≤ r.1 + r.2
  | .decommit ptr size => 4096 ∣ ptr.toNat ∧
      ∃ r ∈ s.res, r.1 ≤ ptr.toNat ∧ ptr.toNat + size.toNat ≤ r.1 + r.2 ∧ (4096 ∣ size.toNat ∨ ptr.toNat + size.toNat = r.1 + r.2)
  | .prefault ptr size => ∀ x, inside ptr.toNat size.toNat x = true → s.com x = true
  | .read a => s.com a = true
  | .write a _ => s.com a = true

/-- The effect of a call. -/
def next (s : S) : Op → S
  | .reserve _ none => s
  | .reserve size (some a) =>
    { s with res := (a.toNat, size.toNat) :: s.res, val := fun x => if inside a.toNat size.toNat x then 0#8 else s.val x }
  | .free ptr size =>
    { s with res := s.res.filter (· ≠ (ptr.toNat, size.toNat)), com := fun x => if inside ptr.toNat size.toNat x then false else s.com x }
  | .commit ptr size => { s with com := fun x => if inside ptr.toNat size.toNat x then true else s.com x }
  | .decommit ptr size => { s with com := fun x => if inside ptr.toNat size.toNat x then false else s.com x }
  | .prefault _ _ => s
  | .read _ => s
  | .write a v => { s with val := fun x => if x = a then v else s.val x }

/-- What it returns. -/
def out (s : S) : Op → Out
  | .reserve _ (some a) => .addr a
  | .read a => .byte (s.val a)
  | _ => .unit

/-- A history that keeps the rules, and what its calls return. -/
inductive Hist : S → List Op → List Out → S → Prop
  | nil (s : S) : Hist s [] [] s
  | cons {s : S} {op : Op} {ops : List Op} {l : List Out} {t : S} : Allowed s op → Hist (next s op) ops l t → Hist s (op :: ops) (out s op :: l) t

/-- Page `k` (of 4096 bytes) has a byte of `[a, a + n)`. -/
def Touches (a n k : Nat) : Prop := ∃ x, a ≤ x ∧ x < a + n ∧ x / 4096 = k

end Verif.NMem.Spec
