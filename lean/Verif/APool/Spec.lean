import Verif.APool.Model

/-! What the allocator promises, and when it keeps the promise. -/
namespace Verif.APool.Spec

/-- The block was returned and not yet freed, and belongs to thread `t`. -/
def Has (s : State) (t i : Nat) : Prop := ∃ g ∈ s.given, g.thread = t ∧ g.block = i

/-- The rule for clients: only the thread that has a block writes to it or frees it. -/
def allowed (s : State) (t : Nat) : Act → Prop
  | .free i => s.pc t = .idle → Has s t i
  | .write i _ => s.pc t = .idle → Has s t i
  | _ => True

/-- All steps of a schedule obey the rule. -/
def Proper (s : State) : List (Nat × Act) → Prop
  | [] => True
  | (t, a) :: as => allowed s t a ∧ ∀ s', step s t a = .ok s' → Proper s' as

/-- No block is returned by `alloc` while it is allocated, and nobody but its owner changes it. -/
structure Disjoint (s : State) : Prop where
  blocks : (s.given.map Given.block).Nodup
  bound : ∀ g ∈ s.given, g.block < s.n
  content : ∀ g ∈ s.given, ∀ v, g.val = some v → s.mem g.block = .data v

/-- What the theorem about concurrent use needs: no block goes back to the free list while another thread stands between reading its link and
its compare-exchange, and the pool does not run empty between the check and the load of a call of `alloc`. -/
def Calm (s : State) (t : Nat) : Act → Prop
  | .go c => match s.pc t with
    | .fCas i x => c = 0 ∧ s.head = x → ∀ u nxt, s.pc u ≠ .aCas (.block i) nxt
    | .aLoad => (s.head :: s.older)[c]? ≠ some .null
    | _ => True
  | _ => True

/-- All steps of a schedule are calm. -/
def CalmRun (s : State) : List (Nat × Act) → Prop
  | [] => True
  | (t, a) :: as => Calm s t a ∧ ∀ s', step s t a = .ok s' → CalmRun s' as

/-- No call is running. -/
def Quiescent (s : State) : Prop := ∀ t, s.pc t = .idle

/-- A call of `alloc` that nobody disturbs. -/
def soloAlloc (t : Nat) : List (Nat × Act) := [(t, .alloc), (t, .go 0), (t, .go 0), (t, .go 0), (t, .go 0)]

/-- A call of `free` that nobody disturbs. -/
def soloFree (t i : Nat) : List (Nat × Act) := [(t, .free i), (t, .go 0), (t, .go 0), (t, .go 0)]

/-- What a thread does in one go when nobody disturbs it. -/
inductive Call where
  | alloc
  | free (i : Nat)
  | write (i v : Nat)

/-- Its steps. -/
def script : Nat × Call → List (Nat × Act)
  | (t, .alloc) => soloAlloc t
  | (t, .free i) => soloFree t i
  | (t, .write i v) => [(t, .write i v)]

/-- One call after the other, from any threads. -/
def sequential (calls : List (Nat × Call)) : List (Nat × Act) := calls.flatMap script

/-- `Proper` as a computation, for the examples. -/
def properB (s : State) : List (Nat × Act) → Bool
  | [] => true
  | (t, a) :: as =>
    (match a with
      | .free i => decide (s.pc t ≠ .idle) || s.given.any (fun g => g.thread == t && g.block == i)
      | .write i _ => decide (s.pc t ≠ .idle) || s.given.any (fun g => g.thread == t && g.block == i)
      | _ => true) &&
    (match step s t a with
      | .ok s' => properB s' as
      | .error _ => true)

/-- `CalmRun` as a computation, for schedules of the first `k` threads. -/
def calmB (k : Nat) (s : State) : List (Nat × Act) → Bool
  | [] => true
  | (t, a) :: as =>
    decide (t < k) &&
    ((match a with
      | .go c => match s.pc t with
        | .fCas i x => decide (¬ (c = 0 ∧ s.head = x)) || (List.range k).all (fun u => match s.pc u with
          | .aCas y _ => decide (y ≠ .block i)
          | _ => true)
        | .aLoad => decide ((s.head :: s.older)[c]? ≠ some .null)
        | _ => true
      | _ => true) &&
    (match step s t a with
      | .ok s' => calmB k s' as
      | .error _ => true))

end Verif.APool.Spec
