import Verif.AArr.Model
import Verif.AVec.Spec

/-
Specification: an array is a mathematical list together with the allocator it uses (`AVec.Spec.V`). Only the call and observation types
are shared with the model.
-/
namespace Verif.AArr.Spec
open Verif.AArr
open Verif.Vector (Obs)
open Verif.AVec.Spec (V State upd)

variable {α : Type}

/-- The elements of a newly constructed array. -/
def ctorList (dflt : α) (s : State α) : Ctor α → List α
  | .dflt => []
  | .sized n => List.replicate n dflt
  | .filled n a => List.replicate n a
  | .range l => l
  | .copyOf j => (s j).l

/-- The value of an argument; `none` if an index is out of range. -/
def argVal (s : State α) : Arg α → Option α
  | .val a => some a
  | .elem j k => (s j).l[k]?

/-- The effect of a call, `none` if it is out of contract. `reset` and `resize` replace the whole contents. -/
def step (dflt : α) (eqv : α → α → Bool) (s : State α) : Op α → Option (State α × Obs α)
  | .assignNew i a c => a.map fun a => (upd s i ⟨a, ctorList dflt s c⟩, .none)
  | .moveAssign i j => some (upd (upd s i (s j)) j V.empty, .none)
  | .moveCtor i j => some (upd (upd s j V.empty) i (s j), .none)
  | .reset i a n => a.map fun a => (upd s i ⟨a, List.replicate n dflt⟩, .none)
  | .resetWith i a n x => (argVal s x).bind fun x => a.map fun a => (upd s i ⟨a, List.replicate n x⟩, .none)
  | .resize i n x => (argVal s x).map fun x => (upd s i ⟨(s i).al, List.replicate n x⟩, .none)
  | .get i k => (s i).l[k]?.map fun a => (s, .elem a)
  | .set i k a => if k < (s i).l.length then some (upd s i ⟨(s i).al, (s i).l.set k a⟩, .none) else none
  | .eq i j =>
    some (s, .bool ((s i).l.length == (s j).l.length && ((s i).l.zip (s j).l).all (fun p => eqv p.1 p.2)))
  | .size i => some (s, .nat (s i).l.length)
  | .empty i => some (s, .bool (s i).l.isEmpty)
  | .allocator i => some (s, .nat (s i).al)

/-- The effect of a history. -/
def run (dflt : α) (eqv : α → α → Bool) (s : State α) : List (Op α) → Option (State α × List (Obs α))
  | [] => some (s, [])
  | op :: ops => do
    let (s, o) ← step dflt eqv s op
    let (s, os) ← run dflt eqv s ops
    some (s, o :: os)

/-- The calls the theorems speak about: all but (a) the creation of arrays of a trivially constructible type without a value, and (b)
refilling an array with one of its own elements. -/
def Covered (tc : Bool) : Op α → Prop
  | .assignNew _ _ (.sized n) => tc = true → n = 0
  | .reset _ _ n => tc = true → n = 0
  | .resetWith i _ n (.elem j _) => i = j → n = 0
  | .resize i n (.elem j _) => i = j → n = 0
  | _ => True

end Verif.AArr.Spec
