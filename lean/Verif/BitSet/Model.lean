import Verif.Common

/-!
Model of `cc::bitset<N>`, N ≤ 64 (/repo/src/clean-core/bitset.hh). `int` has 32 bits, `size_t` 64.
-/
namespace Verif.BitSet

/-- The member `_data` (bitset.hh:111). -/
abbrev Bs := BitVec 64

/-- `1 << idx` as an `int`: undefined for `idx ≥ 32`. -/
def intBit (idx : Nat) : R (BitVec 32) := if 32 ≤ idx then .error .ub else .ok (1#32 <<< idx)

/-- `data_mask` (bitset.hh:113): `(1 << N) - 1` as an `int`. For N ≥ 31 the expression overflows; being a constant expression it does not
compile, which is an error here. -/
def dataMask (N : Nat) : R Bs := if 31 ≤ N then .error .ub else .ok ((1#32 <<< N - 1#32).signExtend 64)

/-- `bitset()` and `clear` (bitset.hh:17, 91). -/
def empty : Bs := 0#64

/-- `bitset(size_t)` (bitset.hh:18). -/
def ofData (d : BitVec 64) : Bs := d

/-- `operator~` (bitset.hh:22). -/
def not (a : Bs) : Bs := ~~~a

/-- `operator|`, `|=` (bitset.hh:24, 30-34). -/
def or (a b : Bs) : Bs := a ||| b

/-- `operator&`, `&=` (bitset.hh:25, 35-39). -/
def and (a b : Bs) : Bs := a &&& b

/-- `operator^`, `^=` (bitset.hh:26, 40-44). -/
def xor (a b : Bs) : Bs := a ^^^ b

/-- `operator<<`, `<<=` (bitset.hh:27, 45-49); shifting by 64 or more, or a negative amount, is undefined. -/
def shl (N : Nat) (a : Bs) (k : Int) : R Bs :=
  if k < 0 ∨ 64 ≤ k then .error .ub
  else do
    let m ← dataMask N
    .ok ((a <<< k.toNat) &&& m)

/-- `operator>>`, `>>=` (bitset.hh:28, 50-54). -/
def shr (a : Bs) (k : Int) : R Bs :=
  if k < 0 ∨ 64 ≤ k then .error .ub else .ok (a >>> k.toNat)

/-- `operator==` (bitset.hh:56). -/
def eq (a b : Bs) : Bool := a == b

/-- `any` (bitset.hh:65). -/
def any (a : Bs) : Bool := a != 0#64

/-- `all` (bitset.hh:66). -/
def all (N : Nat) (a : Bs) : R Bool := do
  let m ← dataMask N
  .ok (a == m)

/-- `is_set`, `operator[]` (bitset.hh:68-72, 83-87). -/
def isSet (N : Nat) (a : Bs) (idx : Nat) : R Bool := do
  ccAssert (idx < N)
  let x ← intBit idx
  .ok (a &&& x.signExtend 64 != 0#64)

/-- `is_unset` (bitset.hh:73-77). -/
def isUnset (N : Nat) (a : Bs) (idx : Nat) : R Bool := do
  ccAssert (idx < N)
  let x ← intBit idx
  .ok (!(a &&& x.signExtend 64 != 0#64))

/-- `set` (bitset.hh:93-97). -/
def set (N : Nat) (a : Bs) (idx : Nat) : R Bs := do
  ccAssert (idx < N)
  let x ← intBit idx
  .ok (a ||| x.signExtend 64)

/-- `unset` (bitset.hh:98-102); the complement is taken of the `int`. -/
def unset (N : Nat) (a : Bs) (idx : Nat) : R Bs := do
  ccAssert (idx < N)
  let x ← intBit idx
  .ok (a &&& (~~~x).signExtend 64)

/-- `toggle` (bitset.hh:103-107). -/
def toggle (N : Nat) (a : Bs) (idx : Nat) : R Bs := do
  ccAssert (idx < N)
  let x ← intBit idx
  .ok (a ^^^ x.signExtend 64)

/-- A bitset computed by a sequence of operations. -/
inductive Expr
  | empty
  | data (d : BitVec 64)
  | not (a : Expr)
  | or (a b : Expr)
  | and (a b : Expr)
  | xor (a b : Expr)
  | shl (a : Expr) (k : Int)
  | shr (a : Expr) (k : Int)
  | set (a : Expr) (i : Nat)
  | unset (a : Expr) (i : Nat)
  | toggle (a : Expr) (i : Nat)

/-- Run the operations. -/
def Expr.eval (N : Nat) : Expr → R Bs
  | .empty => .ok BitSet.empty
  | .data d => .ok (ofData d)
  | .not a => do .ok (BitSet.not (← a.eval N))
  | .or a b => do .ok (BitSet.or (← a.eval N) (← b.eval N))
  | .and a b => do .ok (BitSet.and (← a.eval N) (← b.eval N))
  | .xor a b => do .ok (BitSet.xor (← a.eval N) (← b.eval N))
  | .shl a k => do BitSet.shl N (← a.eval N) k
  | .shr a k => do BitSet.shr (← a.eval N) k
  | .set a i => do BitSet.set N (← a.eval N) i
  | .unset a i => do BitSet.unset N (← a.eval N) i
  | .toggle a i => do BitSet.toggle N (← a.eval N) i

end Verif.BitSet
