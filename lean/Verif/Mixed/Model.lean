import Verif.Common
/-!
# Comparing optionals, variants and values

Model of `==` and `!=` with operands of different types where optionals and variants take part
(`/repo/src/clean-core/optional.hh` 274-341, `/repo/src/clean-core/variant.hh` 270-313).

Types are built from base types by `optional` and `variant`, in any nesting.  Which function a comparison calls is decided while compiling: an expression with no
function or with several equally good ones for it does not compile, which is `none`.  A template is chosen by its parameter types alone, as in the code; if its body does not compile, the program does not.
Objects are values here; their lifetimes are in `Verif.Opt` and `Verif.Variant`.
-/
namespace Verif.Mixed

/-- Types. `variant<T, Rest...>` is `vcons T Rest` where `Rest` is a variant or `vnil`, the end of the list. -/
inductive Ty where
  | base (t : Nat)
  | nullopt
  | opt (T : Ty)
  | vnil
  | vcons (T : Ty) (rest : Ty)
deriving DecidableEq, Repr

/-- Values: those of base types, `nullopt`, an optional without and with value, and a variant that holds its first alternative, or a later one. -/
inductive Val (α : Type) where
  | base (a : α)
  | null
  | none
  | some (v : Val α)
  | here (v : Val α)
  | there (v : Val α)
deriving DecidableEq, Repr

/-- `operator==` and `operator!=` of the base types, where they exist. -/
structure Ops (α : Type) where
  eq : Nat → Nat → Option (α → α → Bool)
  ne : Nat → Nat → Option (α → α → Bool)

variable {α : Type}

/-- Is the type a `variant`? -/
def Ty.isVar : Ty → Bool
  | .vnil => true
  | .vcons .. => true
  | _ => false

/-- Is there exactly one best function for `a == b` (or `a != b`) with operands of these types? `base` says so for base types.
Two variants, or a variant and an optional, match two templates of which neither is more special. -/
def declared (base : Nat → Nat → Bool) : Ty → Ty → Bool
  | .base s, .base t => base s t
  | .base _, .nullopt => false
  | .nullopt, .base _ => false
  | .nullopt, .nullopt => false
  | .opt _, .opt _ => true
  | .opt _, .nullopt => true
  | .nullopt, .opt _ => true
  | .opt _, .base _ => true
  | .base _, .opt _ => true
  | .opt _, .vnil => false
  | .opt _, .vcons .. => false
  | .vnil, .opt _ => false
  | .vcons .., .opt _ => false
  | .vnil, .vnil => false
  | .vnil, .vcons .. => false
  | .vcons .., .vnil => false
  | .vcons .., .vcons .. => false
  | .vnil, .base _ => true
  | .vnil, .nullopt => true
  | .vcons .., .base _ => true
  | .vcons .., .nullopt => true
  | .base _, .vnil => true
  | .base _, .vcons .. => true
  | .nullopt, .vnil => true
  | .nullopt, .vcons .. => true

/-- A comparison of values. -/
abbrev Cmp (α : Type) := Val α → Val α → R Bool

/-- `has_value()`. -/
def hasValue : Val α → R Bool
  | .none => .ok false
  | .some _ => .ok true
  | _ => .error .ub

/-- `value()` (optional.hh 154-173). -/
def value : Val α → R (Val α)
  | .none => .error .assert
  | .some v => .ok v
  | _ => .error .ub

/-- `visit` of a comparison over the alternatives, the variant being the left operand (variant.hh 103-121). -/
def visitL (f : Cmp α) (rest : Cmp α) : Cmp α := fun x y =>
  match x with
  | .here v => f v y
  | .there v => rest v y
  | _ => .error .ub

/-- The same with the variant as right operand. -/
def visitR (f : Cmp α) (rest : Cmp α) : Cmp α := fun x y =>
  match y with
  | .here v => f x v
  | .there v => rest x v
  | _ => .error .ub

/-- `permissive_equal` and `permissive_not_equal` (variant.hh 270-291): the comparison if there is a function for it, a constant otherwise. -/
def permissive (d : Bool) (f : Option (Cmp α)) (otherwise : Bool) : Option (Cmp α) :=
  match d with
  | true => f
  | false => some fun _ _ => .ok otherwise

/-- `a == b` for operands of these types. -/
def eqv (E : Ops α) (A B : Ty) : Option (Cmp α) :=
  match A, B with
  | .base s, .base t => (E.eq s t).map fun f x y =>
    match x, y with
    | .base a, .base b => .ok (f a b)
    | _, _ => .error .ub
  -- `optional::operator==(nullopt_t)` (optional.hh 276)
  | .opt _, .nullopt => some fun x _ => do
    let h ← hasValue x
    .ok (!h)
  -- optional.hh 295-299
  | .nullopt, .opt _ => some fun _ y => do
    let h ← hasValue y
    .ok (!h)
  -- optional.hh 317-323
  | .opt U, .opt V => (eqv E U V).map fun f x y => do
    let hx ← hasValue x
    let hy ← hasValue y
    if hx && hy then do
      let u ← value x
      let v ← value y
      f u v
    else .ok (hx == hy)
  -- optional.hh 306-310
  | .opt U, .base t => (eqv E U (.base t)).map fun f x y => do
    let h ← hasValue x
    if h then do
      let u ← value x
      f u y
    else .ok false
  -- optional.hh 332-336: `rhs.value() == lhs`
  | .base s, .opt V => (eqv E V (.base s)).map fun f x y => do
    let h ← hasValue y
    if h then do
      let v ← value y
      f v x
    else .ok false
  -- variant.hh 304-308
  | .vcons T rest, .base t => do
    let f ← permissive (declared (fun s t => (E.eq s t).isSome) T (.base t)) (eqv E T (.base t)) false
    let g ← eqv E rest (.base t)
    some (visitL f g)
  | .vcons T rest, .nullopt => do
    let f ← permissive (declared (fun s t => (E.eq s t).isSome) T .nullopt) (eqv E T .nullopt) false
    let g ← eqv E rest .nullopt
    some (visitL f g)
  -- variant.hh 294-298
  | .base s, .vcons T rest => do
    let f ← permissive (declared (fun s t => (E.eq s t).isSome) (.base s) T) (eqv E (.base s) T) false
    let g ← eqv E (.base s) rest
    some (visitR f g)
  | .nullopt, .vcons T rest => do
    let f ← permissive (declared (fun s t => (E.eq s t).isSome) .nullopt T) (eqv E .nullopt T) false
    let g ← eqv E .nullopt rest
    some (visitR f g)
  -- the end of the list of alternatives: never reached by a value
  | .vnil, .base _ => some fun _ _ => .error .ub
  | .vnil, .nullopt => some fun _ _ => .error .ub
  | .base _, .vnil => some fun _ _ => .error .ub
  | .nullopt, .vnil => some fun _ _ => .error .ub
  | _, _ => none
termination_by sizeOf A + sizeOf B

/-- `a != b` for operands of these types. -/
def neq (E : Ops α) (A B : Ty) : Option (Cmp α) :=
  match A, B with
  | .base s, .base t => (E.ne s t).map fun f x y =>
    match x, y with
    | .base a, .base b => .ok (f a b)
    | _, _ => .error .ub
  -- `optional::operator!=(nullopt_t)` (optional.hh 277)
  | .opt _, .nullopt => some fun x _ => hasValue x
  -- optional.hh 300-304
  | .nullopt, .opt _ => some fun _ y => hasValue y
  -- optional.hh 324-330
  | .opt U, .opt V => (neq E U V).map fun f x y => do
    let hx ← hasValue x
    let hy ← hasValue y
    if hx && hy then do
      let u ← value x
      let v ← value y
      f u v
    else .ok (hx != hy)
  -- optional.hh 311-315
  | .opt U, .base t => (neq E U (.base t)).map fun f x y => do
    let h ← hasValue x
    if h then do
      let u ← value x
      f u y
    else .ok true
  -- optional.hh 337-341
  | .base s, .opt V => (neq E V (.base s)).map fun f x y => do
    let h ← hasValue y
    if h then do
      let v ← value y
      f v x
    else .ok true
  -- variant.hh 309-313
  | .vcons T rest, .base t => do
    let f ← permissive (declared (fun s t => (E.ne s t).isSome) T (.base t)) (neq E T (.base t)) true
    let g ← neq E rest (.base t)
    some (visitL f g)
  | .vcons T rest, .nullopt => do
    let f ← permissive (declared (fun s t => (E.ne s t).isSome) T .nullopt) (neq E T .nullopt) true
    let g ← neq E rest .nullopt
    some (visitL f g)
  -- variant.hh 299-303
  | .base s, .vcons T rest => do
    let f ← permissive (declared (fun s t => (E.ne s t).isSome) (.base s) T) (neq E (.base s) T) true
    let g ← neq E (.base s) rest
    some (visitR f g)
  | .nullopt, .vcons T rest => do
    let f ← permissive (declared (fun s t => (E.ne s t).isSome) .nullopt T) (neq E .nullopt T) true
    let g ← neq E .nullopt rest
    some (visitR f g)
  | .vnil, .base _ => some fun _ _ => .error .ub
  | .vnil, .nullopt => some fun _ _ => .error .ub
  | .base _, .vnil => some fun _ _ => .error .ub
  | .nullopt, .vnil => some fun _ _ => .error .ub
  | _, _ => none
termination_by sizeOf A + sizeOf B

end Verif.Mixed
