import Verif.Own.Spec
import Verif.Own.Key

/-! Specification of owning pointers as keys: a pointer is identified with the object that it owns. -/
namespace Verif.Own.Key.Spec

open Verif.Own.Spec

/-- Shared pointers, or pointers that own alone. -/
inductive Kind where
  | shared
  | unique

/-- The calls of one kind of pointers. -/
def stepOf : Kind → World → Op → R (World × Option Nat)
  | .shared => sharedStep
  | .unique => uniqueStep

/-- The calls that the kind offers. -/
def offered : Kind → Op → Prop
  | .shared => isShared
  | .unique => isUnique

/-- The program `ops`, begun with `n` null pointers, has arrived at `w`, where the pointers are as in `s`. No call of it uses a pointer that disappears in the
course of the call (these are the histories of C55 and C56). -/
structure History (k : Kind) (n : Nat) (ops : List Op) (s : State) (w : World) : Prop where
  offers : ∀ op ∈ ops, offered k op
  safe : SafeRun (Spec.init n) ops
  spec : ∃ os, Spec.run (Spec.init n) ops = some (s, os) ∧ run (stepOf k) (World.init n) ops = .ok (w, os)

/-- Objects that live at the same time have different addresses, and none has the address 0. -/
def Layout (addr : Nat → Addr) (w : World) : Prop :=
  ∀ (o : Nat) b, w.heap[o]? = some b → b.freed = false →
    addr o ≠ 0#64 ∧ ∀ (o' : Nat) b', w.heap[o']? = some b' → b'.freed = false → addr o = addr o' → o = o'

/-- The pointer at `l` can be used. -/
def Usable (s : State) (l : Loc) : Prop := Acc [] s l

/-- The call does not change the pointer at `l`. -/
def Untouched (l : Loc) : Op → Prop
  | .make dst _ => dst ≠ l
  | .copy dst _ => dst ≠ l
  | .move dst src => dst ≠ l ∧ src ≠ l
  | .reset d => d ≠ l
  | .resetFrom dst src => dst ≠ l ∧ src ≠ l
  | .deref _ => True

/-- What a hash for keys `A` with the given equality has to satisfy, for the keys in `P`: keys are equal exactly if the hashes are. -/
def PerfectHash {A : Type} (P : A → Prop) (same : A → A → Prop) (hash : A → R (BitVec 64)) : Prop :=
  ∀ a b, P a → P b → ∃ x y, hash a = .ok x ∧ hash b = .ok y ∧ (x = y ↔ same a b)

end Verif.Own.Key.Spec
