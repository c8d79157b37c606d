import Verif.Spin.Model

/-! What a lock promises. -/
namespace Verif.Spin.Spec

variable {α : Type}

/-- Replay of a history (oldest event first): the lock is taken only when it is free and given back only by its holder. The result is the holder. -/
def holder : Option Nat → List Ev → Option (Option Nat)
  | h, [] => some h
  | none, .acquired t :: es => holder (some t) es
  | some h, .released t :: es => if h = t then holder none es else none
  | _, _ => none

/-- The rule that the clients obey: `unlock()` only by the thread that has the lock and no `lock_guard` for it; the data is accessed only with the lock. -/
def allowed (s : State α) (t : Nat) : Act α → Prop
  | .unlock => (s.threads t).pc = .idle → (s.threads t).held = true ∧ (s.threads t).guard = false
  | .access _ => (s.threads t).pc = .idle → (s.threads t).held = true
  | _ => True

/-- All steps of a schedule obey the rule. -/
def Proper (s : State α) : List (Nat × Act α) → Prop
  | [] => True
  | (t, a) :: as => allowed s t a ∧ ∀ s', step s t a = .ok s' → Proper s' as

/-- Mutual exclusion, and everything that follows from the history. -/
structure Exclusive (s : State α) : Prop where
  /-- never two threads between lock and unlock -/
  mutex : ∀ t t', (s.threads t).held = true → (s.threads t').held = true → t = t'
  /-- the lock is taken when free and released by its holder, alternately -/
  history : ∃ h, holder none s.log.reverse = some h ∧ ∀ t, (s.threads t).held = true ↔ h = some t
  /-- a living `lock_guard` holds the lock -/
  guards : ∀ t, (s.threads t).guard = true → (s.threads t).held = true

/-- Nobody has the lock. -/
def Unlocked (s : State α) : Prop := ∀ t, (s.threads t).held = false

/-- How often a thread took and gave back the lock. -/
def acquisitions (s : State α) (t : Nat) : Nat := s.log.count (.acquired t)
/-- How often a thread gave back the lock. -/
def releases (s : State α) (t : Nat) : Nat := s.log.count (.released t)

end Verif.Spin.Spec
