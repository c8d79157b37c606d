import Verif.SStream.Model

/-!
What a program with string streams sees: a stream is the list of the characters written to it. No blocks, capacities or pointers here.
-/
namespace Verif.SStream.Spec
open Verif.StrView (Chr)

/-- The streams of the program: `none` is not alive. -/
abbrev St := Nat → Option (List Chr)

/-- Nothing there. -/
def St.init : St := fun _ => none

/-- Change one variable. -/
def St.put (σ : St) (i : Nat) (l : Option (List Chr)) : St := fun j => if j = i then l else σ j

/-- What a stream and a string can hold in a 64-bit address space, generously. -/
def Fits (n : Nat) : Prop := n < 2 ^ 61

instance (n : Nat) : Decidable (Fits n) := inferInstanceAs (Decidable (_ < _))

/-- Each call. `none`: the program breaks a rule (a stream that is not alive, a new stream in a variable that is in use, too many characters). A stream that was
moved from, also by moving it to itself, is empty. -/
def step (σ : St) : Op → Option (St × Obs)
  | .make i => match σ i with
    | none => some (σ.put i (some []), .none)
    | some _ => none
  | .copyNew i j => match σ i, σ j with
    | none, some l => some (σ.put i (some l), .none)
    | _, _ => none
  | .moveNew i j => match σ i, σ j with
    | none, some l => some ((σ.put i (some l)).put j (some []), .none)
    | _, _ => none
  | .destroy i => match σ i with
    | some _ => some (σ.put i none, .none)
    | none => none
  | .assign i j => match σ i, σ j with
    | some _, some l => some (σ.put i (some l), .none)
    | _, _ => none
  | .moveAssign i j => match σ i, σ j with
    | some _, some l => some ((σ.put i (some l)).put j (some []), .none)
    | _, _ => none
  | .append i sv => match σ i with
    | some l => if Fits (l.length + sv.length) then some (σ.put i (some (l ++ sv)), .none) else none
    | none => none
  | .appendChar i c => match σ i with
    | some l => if Fits (l.length + 1) then some (σ.put i (some (l ++ [c])), .none) else none
    | none => none
  | .reserve i n => match σ i with
    | some l => if Fits (l.length + n) then some (σ, .none) else none
    | none => none
  | .clear i => match σ i with
    | some _ => some (σ.put i (some []), .none)
    | none => none
  | .size i => match σ i with
    | some l => some (σ, .size l.length)
    | none => none
  | .empty i => match σ i with
    | some l => some (σ, .bool (decide (l = [])))
    | none => none
  | .toString i => match σ i with
    | some l => some (σ, .str l.length (l ++ [0#8]) 0)
    | none => none

/-- A history. -/
def run (σ : St) : List Op → Option (St × List Obs)
  | [] => some (σ, [])
  | op :: ops => do
    let (σ, o) ← step σ op
    let (σ, os) ← run σ ops
    some (σ, o :: os)

end Verif.SStream.Spec
