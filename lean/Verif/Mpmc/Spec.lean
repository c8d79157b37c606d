import Verif.Mpmc.Model

/-! What the queue promises, in terms of the history of successful compare-exchanges and of the returned calls. -/
namespace Verif.Mpmc.Spec

variable {α : Type}

/-- The values of the successful enqueues, in order. -/
def values (s : State α) : List α := s.enqLog.map (·.val)

/-- The value a dequeue has obtained, if it has read it already. -/
def result : DStage α → Option α
  | .claimed => none
  | .read v => some v
  | .done v => some v

/-- Dequeue number `i` has given its cell back. -/
def Done (s : State α) (i : Nat) : Prop := ∃ e v, s.deqLog[i]? = some e ∧ e.stage = .done v

/-- The value of enqueue number `i` can be read. -/
def Published (s : State α) (i : Nat) : Prop := ∃ e, s.enqLog[i]? = some e ∧ e.stage = .published

/-- First in, first out; nothing is lost, invented or duplicated; at most `n` values are stored. -/
structure Fifo [DecidableEq α] (s : State α) : Prop where
  /-- the `i`-th dequeue gets the value of the `i`-th enqueue -/
  order : ∀ (i : Nat) (e : DeqE α) (v : α), s.deqLog[i]? = some e → result e.stage = some v → (values s)[i]? = some v
  /-- no dequeue without an enqueue, whose value was published before -/
  published : ∀ i, i < s.deqLog.length → Published s i
  /-- a cell is only claimed again when the dequeue `n` values back has given it back -/
  capacity : ∀ i, i + s.n < s.enqLog.length → Done s i
  /-- the calls that returned a value are exactly the finished dequeues -/
  returned : ∀ t v, s.rets.count (t, .dequeued (some v)) = s.deqLog.countP (fun e => decide (e.thread = t ∧ e.stage = .done v))
  /-- the calls that returned true are exactly the published enqueues -/
  accepted : ∀ t, s.rets.count (t, .enqueued true) = s.enqLog.countP (fun e => decide (e.thread = t ∧ e.stage = .published))

/-- No call is running. -/
def Quiescent (s : State α) : Prop := ∀ t, (s.threads t).pc = .idle

/-- Positions stay so small that their difference fits into `intptr_t`. -/
def Fits (n : Nat) (d0 : α) (sched : List (Nat × Act α)) : Prop :=
  ∀ pre s, pre <+: sched → start n d0 pre = .ok s → s.enqLog.length + n < 2 ^ 63

/-- The cell that the next enqueue needs has not been given back. -/
def Full (s : State α) : Prop := s.n ≤ s.enqLog.length ∧ ¬ Done s (s.enqLog.length - s.n)

/-- The value that the next dequeue needs has not been published. -/
def Empty (s : State α) : Prop := ¬ Published s s.deqLog.length

/-- A call of `enqueue` that nobody disturbs. -/
def soloEnqueue (t : Nat) (v : α) : List (Nat × Act α) := [(t, .enqueue v), (t, .go 0), (t, .go 0), (t, .go 0), (t, .go 0), (t, .go 0)]

/-- A call of `dequeue` that nobody disturbs. -/
def soloDequeue (t : Nat) : List (Nat × Act α) := [(t, .dequeue), (t, .go 0), (t, .go 0), (t, .go 0), (t, .go 0), (t, .go 0)]

/-- A call in a program without concurrency; the thread may change from call to call. -/
inductive Call (α : Type) where
  | enqueue (t : Nat) (v : α)
  | dequeue (t : Nat)

/-- The schedule of calls one after the other. -/
def sequential : List (Call α) → List (Nat × Act α)
  | [] => []
  | .enqueue t v :: cs => soloEnqueue t v ++ sequential cs
  | .dequeue t :: cs => soloDequeue t ++ sequential cs

/-- A first-in-first-out queue of at most `n` elements: what the calls return, and the final content. -/
def bounded (n : Nat) (q : List α) : List (Call α) → List (Nat × Ret α) × List α
  | [] => ([], q)
  | .enqueue t v :: cs =>
    if q.length < n then
      let r := bounded n (q ++ [v]) cs
      ((t, .enqueued true) :: r.1, r.2)
    else
      let r := bounded n q cs
      ((t, .enqueued false) :: r.1, r.2)
  | .dequeue t :: cs =>
    match q with
    | [] =>
      let r := bounded n [] cs
      ((t, .dequeued none) :: r.1, r.2)
    | v :: q' =>
      let r := bounded n q' cs
      ((t, .dequeued (some v)) :: r.1, r.2)

/-- The content of the queue: enqueued and not dequeued. -/
def content (s : State α) : List α := (values s).drop s.deqLog.length

end Verif.Mpmc.Spec
