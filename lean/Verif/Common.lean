/-
Shared conventions of the model.

A C++ operation that can go wrong is a function into `R α = Except Fault α`.
`Fault.assert` stands for a failing `CC_ASSERT` / `CC_CONTRACT` / `CC_UNREACHABLE`
(/repo/src/clean-core/assert.hh), `Fault.ub` for undefined behaviour of the language
(out-of-bounds access, null dereference, access to a dead object, bad shift, ...).
A theorem that says an operation equals `.ok x` therefore says that neither happens.
-/
namespace Verif

/-- The two ways a modelled operation can fail. -/
inductive Fault where
  /-- a `CC_ASSERT` / `CC_CONTRACT` / `CC_UNREACHABLE` fires -/
  | assert
  /-- undefined behaviour -/
  | ub
deriving DecidableEq, Repr

/-- Result of a modelled operation. -/
abbrev R (α : Type _) := Except Fault α

/-- Results can be compared (used only to check concrete examples). -/
instance {α : Type _} [DecidableEq α] : DecidableEq (R α)
  | .ok a, .ok b => if h : a = b then isTrue (by rw [h]) else isFalse (fun e => h (by injection e))
  | .error a, .error b => if h : a = b then isTrue (by rw [h]) else isFalse (fun e => h (by injection e))
  | .ok _, .error _ => isFalse (fun e => by injection e)
  | .error _, .ok _ => isFalse (fun e => by injection e)

/-- `CC_ASSERT(c)` / `CC_CONTRACT(c)`: /repo/src/clean-core/assert.hh. -/
def ccAssert (c : Bool) : R Unit := if c then .ok () else .error .assert

@[simp] theorem R.ok_bind {α β} (a : α) (f : α → R β) : (Except.ok a >>= f) = f a := rfl
@[simp] theorem R.error_bind {α β} (e : Fault) (f : α → R β) :
    ((Except.error e : R α) >>= f) = Except.error e := rfl
@[simp] theorem R.pure_eq {α} (a : α) : (pure a : R α) = .ok a := rfl
@[simp] theorem R.throw_eq {α} (e : Fault) : (throw e : R α) = .error e := rfl
@[simp] theorem ccAssert_true {c : Bool} (h : c = true) : ccAssert c = .ok () := by simp [ccAssert, h]
@[simp] theorem ccAssert_false {c : Bool} (h : c = false) : ccAssert c = .error .assert := by
  simp [ccAssert, h]

theorem R.bind_eq_ok {α β} {x : R α} {f : α → R β} {b : β} :
    (x >>= f) = .ok b ↔ ∃ a, x = .ok a ∧ f a = .ok b := by
  cases x with
  | error e => simp
  | ok a => simp

end Verif
