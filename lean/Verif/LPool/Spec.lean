import Verif.LPool.Model

/-! What the pool promises. -/
namespace Verif.LPool.Spec

variable {α : Type}

/-- The slot that a handle designates: the low 16 bits, minus one. -/
def slot (h : BitVec 32) : Nat := h.toNat % 2 ^ 16 - 1

/-- A handle was returned and not yet released, and belongs to thread `t`. -/
def Has (s : State α) (t : Nat) (h : BitVec 32) : Prop := ∃ g ∈ s.given, g.thread = t ∧ g.handle = h

/-- The rule for clients: only the thread that has a handle uses, passes on or releases it. -/
def allowed (s : State α) (t : Nat) : Act α → Prop
  | .release h => (s.threads t).pc = .idle → Has s t h
  | .write h _ => (s.threads t).pc = .idle → Has s t h
  | .read h => (s.threads t).pc = .idle → Has s t h
  | .give h _ => (s.threads t).pc = .idle → Has s t h
  | _ => True

/-- No thread was stopped in `acquire`, in front of the compare-exchange, while the others did `2^32` operations. -/
def Fresh (s : State α) : Prop := ∀ t, match (s.threads t).pc with
  | .aCas _ v _ => s.head.ver < v + 2 ^ 32
  | _ => True

/-- All steps of a schedule obey the rule. -/
def Proper (s : State α) (d0 : α) : List (Nat × Act α) → Prop
  | [] => True
  | (t, a) :: as => allowed s t a ∧ Fresh s ∧ ∀ s', step s d0 t a = .ok s' → Proper s' d0 as

/-- The slot that a running call has taken out of the pool or not yet put back. -/
def transit : Pc → Option Nat
  | .aCtor i => some i
  | .rDtor i => some i
  | .rLoad i => some i
  | .rSwap i _ _ => some i
  | .rCas i _ _ => some i
  | _ => none

/-- No slot is handed out twice. -/
structure Disjoint (s : State α) : Prop where
  /-- live handles designate different slots of the pool -/
  slots : (s.given.map (fun g => slot g.handle)).Nodup
  bound : ∀ g ∈ s.given, slot g.handle < s.n
  /-- behind a live handle is a living object, with the value last written through this handle -/
  objects : ∀ g ∈ s.given, s.obj (slot g.handle) = some g.val
  /-- live handles are accepted -/
  alive : ∀ g ∈ s.given, isAlive s g.handle = .ok true
  /-- no object is alive without a handle or a running call -/
  noLeak : ∀ i, (s.obj i).isSome → (∃ g ∈ s.given, slot g.handle = i) ∨ ∃ t, transit (s.threads t).pc = some i

/-- Slot `i` is in use: a live handle designates it, or a running call has taken it out or not yet put it back. -/
def InUse (s : State α) (i : Nat) : Prop := (∃ g ∈ s.given, slot g.handle = i) ∨ ∃ t, transit (s.threads t).pc = some i

/-- No call is running. -/
def Quiescent (s : State α) : Prop := ∀ t, (s.threads t).pc = .idle

/-- A call of `acquire` that nobody disturbs. -/
def soloAcquire (t : Nat) : List (Nat × Act α) := [(t, .acquire), (t, .go 0), (t, .go 0), (t, .go 0), (t, .go 0)]

/-- A call of `release` that nobody disturbs. -/
def soloRelease (t : Nat) (h : BitVec 32) : List (Nat × Act α) := [(t, .release h), (t, .go 0), (t, .go 0), (t, .go 0), (t, .go 0)]

/-- Number of releases of slot `i` in a history. -/
def releases (i : Nat) (log : List Ev) : Nat := log.countP (fun e => match e with | .released _ h => slot h = i | .acquired _ _ => false)

end Verif.LPool.Spec
