import Verif.Atom.Model

/-!
What the atomic operations promise, in terms of the events on one variable.
-/
namespace Verif.Atom.Spec

variable {w : Nat}

/-- The value an operation leaves in its variable if it finds `x`. -/
def after (x : BitVec w) : Op w → BitVec w
  | .cas _ comparand exchange => if x = comparand then exchange else x
  | .swap _ value => value
  | .add _ value => x + value
  | .or _ value => x ||| value

/-- The events are a chain that leads from `x` to `y`: each returns what the one before has left. -/
inductive Chain : BitVec w → List (Event w) → BitVec w → Prop where
  | nil (x) : Chain x [] x
  | cons {x y : BitVec w} {e : Event w} {es} : e.result = x → Chain (after x e.op) es y → Chain x (e :: es) y

/-- The events on a variable, in order. -/
def on (d : Nat) (es : List (Event w)) : List (Event w) := es.filter (·.op.dest = d)

/-- The results that a thread has got, the last one first. -/
def gotBy (t : Nat) : List (Event w) → List (BitVec w)
  | [] => []
  | e :: es => gotBy t es ++ (if e.thread = t then [e.result] else [])

/-- The values of swaps. -/
def swapped : List (Event w) → List (BitVec w)
  | [] => []
  | e :: es => (match e.op with | .swap _ v => [v] | _ => []) ++ swapped es

/-- The sum of the values added. -/
def sum : List (Event w) → BitVec w
  | [] => 0#w
  | e :: es => (match e.op with | .add _ v => v | _ => 0#w) + sum es

def IsAdd (e : Event w) : Prop := ∃ d v, e.op = .add d v
def IsAddOf (v : BitVec w) (e : Event w) : Prop := ∃ d, e.op = .add d v
def IsSwap (e : Event w) : Prop := ∃ d v, e.op = .swap d v
def IsOr (e : Event w) : Prop := ∃ d v, e.op = .or d v
/-- Sets the bit. -/
def SetsBit (i : Nat) (e : Event w) : Prop := ∃ d v, e.op = .or d v ∧ v.getLsbD i = true
/-- An attempt to replace `x` by something else. -/
def IsClaim (x : BitVec w) (e : Event w) : Prop := ∃ d y, e.op = .cas d x y ∧ y ≠ x
/-- An attempt to increment: to replace what was seen by the next number. -/
def IsIncrement (e : Event w) : Prop := ∃ d x, e.op = .cas d x (x + 1#w)
/-- It found what it was looking for. -/
def Succeeded (e : Event w) : Prop := ∃ d x y, e.op = .cas d x y ∧ e.result = x

instance (e : Event w) : Decidable (Succeeded e) :=
  match e with
  | ⟨_, .cas d x y, r⟩ => if h : r = x then isTrue ⟨d, x, y, rfl, h⟩ else isFalse (by rintro ⟨_, _, _, h1, h2⟩; cases h1; exact h h2)
  | ⟨_, .swap .., _⟩ => isFalse (by rintro ⟨_, _, _, h, _⟩; cases h)
  | ⟨_, .add .., _⟩ => isFalse (by rintro ⟨_, _, _, h, _⟩; cases h)
  | ⟨_, .or .., _⟩ => isFalse (by rintro ⟨_, _, _, h, _⟩; cases h)

end Verif.Atom.Spec
