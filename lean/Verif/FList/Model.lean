import Verif.Common

/-!
Model of `cc::forward_list` (/repo/src/clean-core/forward_list.hh) over an explicit heap of nodes. `cc::alloc<node>` (allocate.hh) gives a
fresh cell each time (addresses of freed cells are not used again here); reading, writing or freeing a cell that is not alive is
undefined behaviour.
-/
namespace Verif.FList

variable {α : Type}

/-- `node` (forward_list.hh:184-198). -/
structure Node (α : Type) where
  value : α
  next : Option Nat

/-- The heap; `none` marks a freed cell. -/
abbrev Heap (α : Type) := List (Option (Node α))

/-- `cc::alloc<node>(value)`: the heap with the new node behind all others; its address is the old length. -/
def alloc (h : Heap α) (v : α) : Heap α := h ++ [some { value := v, next := none }]

/-- Access a node through a pointer. -/
def deref (h : Heap α) (p : Option Nat) : R (Nat × Node α) :=
  match p with
  | none => .error .ub
  | some a =>
    match h[a]? with
    | some (some n) => .ok (a, n)
    | _ => .error .ub

/-- `p->next = q`. -/
def setNext (h : Heap α) (p : Nat) (q : Option Nat) : R (Heap α) := do
  let (a, n) ← deref h (some p)
  .ok (h.set a (some { value := n.value, next := q }))

/-- `cc::free(p)`. -/
def free (h : Heap α) (p : Option Nat) : R (Heap α) := do
  let (a, _) ← deref h p
  .ok (h.set a none)

/-- The loop of `size` (forward_list.hh:22-32). `n` bounds the number of iterations; running out of it stands for a loop that does not
end. -/
def sizeLoop (h : Heap α) (p : Option Nat) (s : Nat) : Nat → R Nat
  | 0 => .error .ub
  | n + 1 =>
    match p with
    | none => .ok s
    | some _ => do
      let (_, nd) ← deref h p
      sizeLoop h nd.next (s + 1) n

/-- `size` (forward_list.hh:22-32). -/
def size (h : Heap α) (first : Option Nat) : R Nat := sizeLoop h first 0 (h.length + 1)

/-- `empty` (forward_list.hh:33). -/
def empty (first : Option Nat) : Bool := first.isNone

/-- `front` (forward_list.hh:34-43). -/
def front (h : Heap α) (first : Option Nat) : R α := do
  ccAssert (!empty first)
  let (_, n) ← deref h first
  .ok n.value

/-- `emplace_front`, `push_front` (forward_list.hh:47-56). -/
def pushFront (h : Heap α) (first : Option Nat) (v : α) : R (Heap α × Option Nat) := do
  let a := h.length
  let h ← setNext (alloc h v) a first
  .ok (h, some a)

/-- `pop_front` (forward_list.hh:58-66). -/
def popFront (h : Heap α) (first : Option Nat) : R (Heap α × Option Nat × α) := do
  ccAssert (!empty first)
  let (_, n) ← deref h first
  let h ← free h first
  .ok (h, n.next, n.value)

/-- `k` times `++it` starting at `begin()` (forward_list.hh:99, 128). -/
def advance (h : Heap α) (p : Option Nat) : Nat → R (Option Nat)
  | 0 => .ok p
  | k + 1 => do
    let (_, n) ← deref h p
    advance h n.next k

/-- `erase_after` for the iterator at position `k` (forward_list.hh:68-81). -/
def eraseAfter (h : Heap α) (first : Option Nat) (k : Nat) : R (Heap α) := do
  let it ← advance h first k
  let (a, n) ← deref h it
  ccAssert n.next.isSome
  let (_, e) ← deref h n.next
  let h ← setNext h a e.next
  free h n.next

/-- The loop of `clear` (forward_list.hh:86-91). -/
def clearLoop (h : Heap α) (p : Option Nat) : Nat → R (Heap α)
  | 0 => .error .ub
  | n + 1 =>
    match p with
    | none => .ok h
    | some _ => do
      let (_, nd) ← deref h p
      let h ← free h p
      clearLoop h nd.next n

/-- `clear` and the destructor (forward_list.hh:83-93, 178): the new heap; `_first` becomes null. -/
def clear (h : Heap α) (first : Option Nat) : R (Heap α) := clearLoop h first (h.length + 1)

/-- A range-for reading all values (forward_list.hh:97-130). -/
def iterLoop (h : Heap α) (p : Option Nat) : Nat → R (List α)
  | 0 => .error .ub
  | n + 1 =>
    match p with
    | none => .ok []
    | some _ => do
      let (_, nd) ← deref h p
      let rest ← iterLoop h nd.next n
      .ok (nd.value :: rest)

/-- All values in iteration order. -/
def iter (h : Heap α) (first : Option Nat) : R (List α) := iterLoop h first (h.length + 1)

/-- `(pn ? pn->next : _first) = n` (forward_list.hh:142, 161). -/
def link (h : Heap α) (first pn : Option Nat) (n : Nat) : R (Heap α × Option Nat) :=
  match pn with
  | none => .ok (h, some n)
  | some p => do
    let h ← setNext h p (some n)
    .ok (h, first)

/-- The copy loop (forward_list.hh:139-145, 158-164): new heap and `_first`. -/
def copyLoop (h : Heap α) (first pn rn : Option Nat) : Nat → R (Heap α × Option Nat)
  | 0 => .error .ub
  | n + 1 =>
    match rn with
    | none => .ok (h, first)
    | some _ => do
      let (_, nd) ← deref h rn
      let a := h.length
      let (h, first) ← link (alloc h nd.value) first pn a
      let (_, nd) ← deref h rn
      copyLoop h first (some a) nd.next n

/-- The copy constructor (forward_list.hh:135-146). -/
def copyCtor (h : Heap α) (rhs : Option Nat) : R (Heap α × Option Nat) := copyLoop h none none rhs (h.length + 1)

/-! ### Histories over several lists -/

/-- The heap and the `_first` members of the existing lists. -/
structure World (α : Type) where
  heap : Heap α
  objs : Nat → Option (Option Nat)

/-- The calls. -/
inductive Op (α : Type)
  | create (i : Nat)
  | copyCtor (i j : Nat)
  | moveCtor (i j : Nat)
  | copyAssign (i j : Nat)
  | moveAssign (i j : Nat)
  | destroy (i : Nat)
  | pushFront (i : Nat) (v : α)
  | popFront (i : Nat)
  | eraseAfter (i k : Nat)
  | clear (i : Nat)
  | front (i : Nat)
  | size (i : Nat)
  | empty (i : Nat)
  | iterate (i : Nat)

/-- What a call returns. `notACall`: it names a list that does not exist (or creates one that does); no such call can be written. -/
inductive Out (α : Type)
  | unit
  | value (v : α)
  | nat (n : Nat)
  | bool (b : Bool)
  | list (l : List α)
  | notACall
deriving DecidableEq

/-- Point update. -/
def upd {β : Type} (f : Nat → β) (i : Nat) (b : β) : Nat → β := fun j => if j = i then b else f j

/-- One call. Copy assignment (forward_list.hh:152-167) and move assignment (168-176) first clear the target and only then look at the
source. -/
def step (w : World α) : Op α → R (World α × Out α)
  | .create i =>
    match w.objs i with
    | none => .ok ({ heap := w.heap, objs := upd w.objs i (some none) }, .unit)
    | some _ => .ok (w, .notACall)
  | .copyCtor i j =>
    match w.objs i, w.objs j with
    | none, some q => do
      let (h, f) ← copyCtor w.heap q
      .ok ({ heap := h, objs := upd w.objs i (some f) }, .unit)
    | _, _ => .ok (w, .notACall)
  | .moveCtor i j =>
    match w.objs i, w.objs j with
    | none, some q => .ok ({ heap := w.heap, objs := upd (upd w.objs i (some q)) j (some none) }, .unit)
    | _, _ => .ok (w, .notACall)
  | .copyAssign i j =>
    match w.objs i, w.objs j with
    | some p, some _ => do
      let h ← clear w.heap p
      let objs := upd w.objs i (some none)
      let (h, f) ← copyCtor h ((objs j).getD none)
      .ok ({ heap := h, objs := upd objs i (some f) }, .unit)
    | _, _ => .ok (w, .notACall)
  | .moveAssign i j =>
    match w.objs i, w.objs j with
    | some p, some _ => do
      let h ← clear w.heap p
      let objs := upd w.objs i (some none)
      let objs := upd objs i (some ((objs j).getD none))
      .ok ({ heap := h, objs := upd objs j (some none) }, .unit)
    | _, _ => .ok (w, .notACall)
  | .destroy i =>
    match w.objs i with
    | some p => do
      let h ← clear w.heap p
      .ok ({ heap := h, objs := upd w.objs i none }, .unit)
    | none => .ok (w, .notACall)
  | .pushFront i v =>
    match w.objs i with
    | some p => do
      let (h, f) ← pushFront w.heap p v
      .ok ({ heap := h, objs := upd w.objs i (some f) }, .unit)
    | none => .ok (w, .notACall)
  | .popFront i =>
    match w.objs i with
    | some p => do
      let (h, f, v) ← popFront w.heap p
      .ok ({ heap := h, objs := upd w.objs i (some f) }, .value v)
    | none => .ok (w, .notACall)
  | .eraseAfter i k =>
    match w.objs i with
    | some p => do
      let h ← eraseAfter w.heap p k
      .ok ({ heap := h, objs := w.objs }, .unit)
    | none => .ok (w, .notACall)
  | .clear i =>
    match w.objs i with
    | some p => do
      let h ← clear w.heap p
      .ok ({ heap := h, objs := upd w.objs i (some none) }, .unit)
    | none => .ok (w, .notACall)
  | .front i =>
    match w.objs i with
    | some p => do
      let v ← front w.heap p
      .ok (w, .value v)
    | none => .ok (w, .notACall)
  | .size i =>
    match w.objs i with
    | some p => do
      let n ← size w.heap p
      .ok (w, .nat n)
    | none => .ok (w, .notACall)
  | .empty i =>
    match w.objs i with
    | some p => .ok (w, .bool (empty p))
    | none => .ok (w, .notACall)
  | .iterate i =>
    match w.objs i with
    | some p => do
      let l ← iter w.heap p
      .ok (w, .list l)
    | none => .ok (w, .notACall)

/-- A sequence of calls. -/
def run (w : World α) : List (Op α) → R (World α × List (Out α))
  | [] => .ok (w, [])
  | op :: ops => do
    let (w, o) ← step w op
    let (w, os) ← run w ops
    .ok (w, o :: os)

/-- No lists, empty heap. -/
def init : World α := { heap := [], objs := fun _ => none }

end Verif.FList
