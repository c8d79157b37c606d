import Verif.Mixed.Model
/-!
# What a user expects of comparisons with optionals and variants
-/
namespace Verif.Mixed

variable {α : Type}

/-- The value has this type. -/
def HasTy : Ty → Val α → Prop
  | .base _, .base _ => True
  | .nullopt, .null => True
  | .opt _, .none => True
  | .opt T, .some v => HasTy T v
  | .vcons T _, .here v => HasTy T v
  | .vcons _ r, .there v => HasTy r v
  | _, _ => False

/-- Equality of base types looks the same from both sides. -/
def Ops.Symm (E : Ops α) : Prop := ∀ s t, match E.eq s t, E.eq t s with
  | some f, some g => ∀ a b, f a b = g b a
  | none, none => True
  | _, _ => False

/-- `!=` of base types is the negation of `==`. -/
def Ops.Compl (E : Ops α) : Prop := ∀ s t, match E.eq s t, E.ne s t with
  | some f, some g => ∀ a b, g a b = !(f a b)
  | none, none => True
  | _, _ => False

/-- Values are equal: an optional with a value and a variant count as what they hold; an optional without value equals `nullopt` and other optionals without value. -/
inductive Equal (E : Ops α) : Ty → Val α → Ty → Val α → Prop
  | base {s t f a b} : E.eq s t = some f → f a b = true → Equal E (.base s) (.base a) (.base t) (.base b)
  | noneNull {T} : Equal E (.opt T) .none .nullopt .null
  | nullNone {T} : Equal E .nullopt .null (.opt T) .none
  | noneNone {T U} : Equal E (.opt T) .none (.opt U) .none
  | someSome {T U x y} : Equal E T x U y → Equal E (.opt T) (.some x) (.opt U) (.some y)
  | someBase {T x t b} : Equal E T x (.base t) b → Equal E (.opt T) (.some x) (.base t) b
  | baseSome {s a U y} : Equal E (.base s) a U y → Equal E (.base s) a (.opt U) (.some y)
  | hereL {T r x B y} : Equal E T x B y → Equal E (.vcons T r) (.here x) B y
  | thereL {T r x B y} : Equal E r x B y → Equal E (.vcons T r) (.there x) B y
  | hereR {T r A x y} : Equal E A x T y → Equal E A x (.vcons T r) (.here y)
  | thereR {T r A x y} : Equal E A x r y → Equal E A x (.vcons T r) (.there y)

end Verif.Mixed
