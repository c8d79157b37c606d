import Verif.Synced.Model

/-! Specification: linearizability. Every call takes effect at one moment between its begin and its return, and the answers are those of a
program that makes the calls one after the other in the order of these moments. -/
namespace Verif.Synced.Spec

variable {S C A : Type}

/-- The thread of an event. -/
def thread : Ev C A → Nat
  | .inv t _ => t
  | .lin t _ _ => t
  | .ret t _ _ => t

/-- The calls that took effect, with their answers, oldest first. -/
def effects (es : List (Ev C A)) : List (C × A) :=
  es.reverse.filterMap fun
    | .lin _ c a => some (c, a)
    | _ => none

/-- One call after the other; `seq` is what a call does to the state, and its answer. -/
def replay (seq : S → C → R (S × A)) (s : S) : List C → R (S × List A)
  | [] => .ok (s, [])
  | c :: cs => do
    let (s, a) ← seq s c
    let (s, as) ← replay seq s cs
    .ok (s, a :: as)

/-- What thread `t` did (newest event first) is a sequence of begin, effect, return, each for the same call and with the same answer. The last
argument is the call that has not returned yet, with its answer if it took effect. -/
inductive Track (t : Nat) : List (Ev C A) → Option (C × Option A) → Prop
  | nil : Track t [] none
  | inv {es c} : Track t es none → Track t (.inv t c :: es) (some (c, none))
  | lin {es c a} : Track t es (some (c, none)) → Track t (.lin t c a :: es) (some (c, some a))
  | ret {es c a} : Track t es (some (c, some a)) → Track t (.ret t c a :: es) none
  | other {e es x} : thread e ≠ t → Track t es x → Track t (e :: es) x

/-- What the accesses of a call that runs alone come to. -/
inductive Runs {L : Type} (o : Obj S C L A) : L → S → R (S × A) → Prop
  | fault {l s f} : o.micro l s = .error f → Runs o l s (.error f)
  | done {l s s' a} : o.micro l s = .ok (s', .inr a) → Runs o l s (.ok (s', a))
  | more {l s s' l' r} : o.micro l s = .ok (s', .inl l') → Runs o l' s' r → Runs o l s r

/-- The calls, when they run alone, do what `seq` says. -/
structure Implements {L : Type} (o : Obj S C L A) (seq : S → C → R (S × A)) : Prop where
  calls : ∀ c s, Runs o (o.start c) s (seq s c)
  nothing : ∀ c a, o.kind c = .nothing a → ∀ s, seq s c = .ok (s, a)

end Verif.Synced.Spec
