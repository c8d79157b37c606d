import Verif.FArr.Model

/-!
What a program with `fwd_array`s sees: an array is a list of elements, each of which has a value or (after `uninitialized`) not yet. No blocks or pointers here.
-/
namespace Verif.FArr.Spec
variable {α : Type}

/-- The arrays of the program: `none` is not alive. -/
abbrev St (α : Type) := Nat → Option (List (Option α))

/-- Nothing there. -/
def St.init : St α := fun _ => none

/-- Change one variable. -/
def St.put (σ : St α) (i : Nat) (l : Option (List (Option α))) : St α := fun j => if j = i then l else σ j

/-- The value of an argument. -/
def arg (σ : St α) : Arg α → Option α
  | .val a => some a
  | .elem i k => match σ i with
    | some l => (l[k]?).join
    | none => none

/-- The values of a span. Elements without a value may be copied only if the type is trivially copyable. -/
def spn (triv : Bool) (σ : St α) : Spn α → Option (List (Option α))
  | .vals l => some (l.map some)
  | .part i off len => match σ i with
    | some l => if off + len ≤ l.length ∧ (triv ∨ ∀ x ∈ (l.drop off).take len, x.isSome) then some ((l.drop off).take len) else none
    | none => none

/-- Each call. `none`: the program breaks a rule (an array that is not alive, a new array in a variable that is in use, an index or a range that is not there, an
element without a value is read). An array that was moved from, also by moving it to itself, is empty. -/
def step (e : E α) (σ : St α) : Op α → Option (St α × Obs α)
  | .make i => match σ i with
    | none => some (σ.put i (some []), .none)
    | some _ => none
  | .sized i n => match σ i with
    | none => some (σ.put i (some (List.replicate n (some e.dflt))), .none)
    | some _ => none
  | .uninitialized i n => match σ i with
    | none => some (σ.put i (some (List.replicate n (if e.tctor then none else some e.dflt))), .none)
    | some _ => none
  | .filled i n a => match σ i, arg σ a with
    | none, some a => some (σ.put i (some (List.replicate n (some a))), .none)
    | _, _ => none
  | .list i l => match σ i with
    | none => some (σ.put i (some (l.map some)), .none)
    | some _ => none
  | .span i s => match σ i, spn e.triv σ s with
    | none, some l => some (σ.put i (some l), .none)
    | _, _ => none
  | .moveNew i j => match σ i, σ j with
    | none, some l => some ((σ.put i (some l)).put j (some []), .none)
    | _, _ => none
  | .moveAssign i j => match σ i, σ j with
    | some _, some l => some ((σ.put i (some l)).put j (some []), .none)
    | _, _ => none
  | .destroy i => match σ i with
    | some _ => some (σ.put i none, .none)
    | none => none
  | .set i k a => match σ i, arg σ a with
    | some l, some a => if k < l.length then some (σ.put i (some (l.set k (some a))), .none) else none
    | _, _ => none
  | .get i k => match arg σ (.elem i k) with
    | some a => some (σ, .val a)
    | none => none
  | .size i => match σ i with
    | some l => some (σ, .size l.length)
    | none => none
  | .empty i => match σ i with
    | some l => some (σ, .bool (decide (l = [])))
    | none => none
  | .all i => match σ i with
    | some l => if ∀ x ∈ l, x.isSome then some (σ, .list (l.filterMap id)) else none
    | none => none

/-- A history. -/
def run (e : E α) (σ : St α) : List (Op α) → Option (St α × List (Obs α))
  | [] => some (σ, [])
  | op :: ops => do
    let (σ, o) ← step e σ op
    let (σ, os) ← run e σ ops
    some (σ, o :: os)

/-- The number of elements that a call copies from a list or a span. -/
def copies : Op α → Nat
  | .list _ l => l.length
  | .span _ (.vals l) => l.length
  | .span _ (.part _ _ len) => len
  | _ => 0

end Verif.FArr.Spec
