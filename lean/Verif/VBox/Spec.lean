import Verif.VBox.Model

/-!
What a program with boxes sees: a box holds one object, or nothing after it was moved from. No heap or pointers here.
-/
namespace Verif.VBox.Spec
variable {α : Type}

/-- A box: template, class, and the object with its class and value. A value that was moved from is `none`. -/
structure Bx (α : Type) where
  kind : Kind
  ty : Cls
  obj : Option (Cls × Option α)

/-- The boxes of the program: `none` is not alive. -/
abbrev St (α : Type) := Nat → Option (Bx α)

/-- Nothing there. -/
def St.init : St α := fun _ => none

/-- Change one variable. -/
def St.put (σ : St α) (i : Nat) (l : Option (Bx α)) : St α := fun j => if j = i then l else σ j

/-- May a box of this kind for class `t` hold an object of class `u`? A derived class only in a `poly_box`, for a class with a virtual destructor. -/
def fits (e : Env α) (k : Kind) (t u : Cls) : Prop := u = t ∨ (k = .poly ∧ e.virt t = true)

instance (e : Env α) (k : Kind) (t u : Cls) : Decidable (fits e k t u) := inferInstanceAs (Decidable (_ ∨ _))

/-- The value for a new object of class `u`. -/
def arg (e : Env α) (σ : St α) (u : Cls) : Arg α → Option α
  | .val a => some a
  | .copy i => match σ i with
    | some { kind := _, ty := t, obj := some (c, some a) } => some (e.conv u t (c, a))
    | _ => none
  | .move i => match σ i with
    | some { kind := _, ty := t, obj := some (c, some a) } => some (e.conv u t (c, a))
    | _ => none

/-- What remains after the argument was used: an object that was moved from has no value, except if moving is copying. -/
def after (e : Env α) (σ : St α) : Arg α → St α
  | .move i => match σ i with
    | some { kind := k, ty := t, obj := some (c, a) } => σ.put i (some { kind := k, ty := t, obj := some (c, if e.triv t then a else none) })
    | _ => σ
  | _ => σ

/-- The argument is the object in box `i`. -/
def isObj (i : Nat) : Arg α → Prop
  | .val _ => False
  | .copy j => j = i
  | .move j => j = i

instance (i : Nat) (a : Arg α) : Decidable (isObj i a) := by cases a <;> unfold isObj <;> infer_instance

/-- Each call. `none`: the program breaks a rule. The rules: boxes that are used are alive, new ones are put in variables not in use, an object that is read is there and has a
value, a box gets an object that fits, boxes are moved to boxes of the same kind; `fwd_box` has no assignment from a value, `box` only from its own class; and a
`poly_box` is not assigned its own object (see `C79_own_object_is_dead`). -/
def step (e : Env α) (σ : St α) : Op α → Option (St α × Obs α)
  | .make i k t u a => match σ i, arg e σ u a with
    | none, some v => if fits e k t u then some ((after e σ a).put i (some { kind := k, ty := t, obj := some (u, some v) }), .none) else none
    | _, _ => none
  | .moveNew i t j => match σ i, σ j with
    | none, some b => if (∀ c, b.obj.map Prod.fst = some c → fits e b.kind t c) ∧ (b.ty = t ∨ b.kind = .poly) then
        some ((σ.put i (some { b with ty := t })).put j (some { b with obj := none }), .none) else none
    | _, _ => none
  | .moveAssign i j => match σ i, σ j with
    | some d, some b => if (∀ c, b.obj.map Prod.fst = some c → fits e b.kind d.ty c) ∧ d.kind = b.kind ∧ (b.ty = d.ty ∨ b.kind = .poly) then
        some ((σ.put i (some { b with ty := d.ty })).put j (some { b with obj := none }), .none) else none
    | _, _ => none
  | .destroy i => match σ i with
    | some _ => some (σ.put i none, .none)
    | none => none
  | .assign i u a => match σ i, arg e σ u a with
    | some d, some v =>
      match d.kind with
      | .poly => if fits e .poly d.ty u ∧ ¬ isObj i a then some ((after e σ a).put i (some { d with obj := some (u, some v) }), .none) else none
      | .box => if u = d.ty then
          (match a with
          | .move j => if j = i then some (after e σ a, .none) else some ((after e σ a).put i (some { d with obj := some (u, some v) }), .none)
          | _ => some (σ.put i (some { d with obj := some (u, some v) }), .none)) else none
      | .fwd => none
    | _, _ => none
  | .deref i => match σ i with
    | some { kind := _, ty := _, obj := some (c, some a) } => some (σ, .obj c a)
    | _ => none
  | .conv i => match σ i with
    | some { kind := _, ty := _, obj := some (c, some a) } => some (σ, .obj c a)
    | _ => none
  | .store i a => match σ i with
    | some { kind := k, ty := t, obj := some (c, _) } => some (σ.put i (some { kind := k, ty := t, obj := some (c, some a) }), .none)
    | _ => none
  | .isNull i => match σ i with
    | some b => some (σ, .bool b.obj.isNone)
    | none => none

/-- A history. -/
def run (e : Env α) (σ : St α) : List (Op α) → Option (St α × List (Obs α))
  | [] => some (σ, [])
  | op :: ops => do
    let (σ, o) ← step e σ op
    let (σ, os) ← run e σ ops
    some (σ, o :: os)

end Verif.VBox.Spec
