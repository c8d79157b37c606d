import Verif.Ring.Props

/-!
References to the elements of a `cc::ringbuffer` (/repo/src/clean-core/experimental/ringbuffer.hh). The ringbuffers of `Ring.Model` with
the memory they share: blocks have addresses, `_data` is the address of a block, and reading through a reference to a block that has been
given back is undefined. The address of a block is never used again here, so that such a read can be told.
-/
namespace Verif.Ring.Ref
open Verif.Mem Verif.Ring

variable {α : Type}

/-- The members (ringbuffer.hh:302-305); `data` is the address of the block. -/
structure Hdr where
  begin_ : Nat
  end_ : Nat
  mask : Nat
  data : Option Nat

/-- The memory (a block that has been given back is `none`) and the ringbuffer variables. -/
structure World (α : Type) where
  mem : List (Option (Buf α))
  rings : Nat → Hdr

/-- A default constructed ringbuffer, and what a moved-from one is (ringbuffer.hh:30, 60-64, 302-305). -/
def Hdr.empty : Hdr := ⟨0, 0, 0, none⟩

/-- No memory, all ringbuffers default constructed. -/
def World.init : World α := ⟨[], fun _ => Hdr.empty⟩

/-- A reference: block and slot. -/
abbrev Place := Nat × Nat

/-- Store a variable. -/
def upd (f : Nat → Hdr) (i : Nat) (h : Hdr) : Nat → Hdr := fun j => if j = i then h else f j

/-- The ringbuffer with the slots of its block. -/
def ringOf (mem : List (Option (Buf α))) (h : Hdr) : R (Ring α) :=
  match h.data with
  | none => .ok ⟨h.begin_, h.end_, h.mask, none⟩
  | some b =>
    match mem[b]? with
    | some (some buf) => .ok ⟨h.begin_, h.end_, h.mask, some buf⟩
    | _ => .error .ub

/-- `_free(p)` (ringbuffer.hh:294-298); null is allowed. -/
def free (mem : List (Option (Buf α))) : Option Nat → R (List (Option (Buf α)))
  | none => .ok mem
  | some b =>
    match mem[b]? with
    | some (some _) => .ok (mem.set b none)
    | _ => .error .ub

/-- The call changed members and slots of ringbuffer `i` and did not allocate. -/
def inPlace (w : World α) (i : Nat) (r : Ring α) : World α where
  mem := match (w.rings i).data with
    | some b => w.mem.set b r.data
    | none => w.mem
  rings := upd w.rings i ⟨r.begin_, r.end_, r.mask, (w.rings i).data⟩

/-- The call allocated a new block for ringbuffer `i` (ringbuffer.hh:251, 275, 75) and gave back the old one (259, 283, 55). -/
def replaced (w : World α) (i : Nat) (r : Ring α) : R (World α) := do
  let mem ← free w.mem (w.rings i).data
  .ok ⟨mem ++ [r.data], upd w.rings i ⟨r.begin_, r.end_, r.mask, some mem.length⟩⟩

/-- `emplace_back` calls `emplace_back_grow` (ringbuffer.hh:146-157). -/
def growsBack (r : Ring α) : Bool := addMask r.end_ 1 r.mask == r.begin_

/-- `emplace_front` calls `emplace_front_grow` (ringbuffer.hh:190-200). -/
def growsFront (r : Ring α) : Bool := subMask r.begin_ 1 r.mask == r.end_

/-- The slot of the element that `emplace_back` returns (ringbuffer.hh:145, 151, 252, 262). -/
def slotBack (r : Ring α) : Nat := if growsBack r then size r else r.end_

/-- The slot of the element that `emplace_front` returns (ringbuffer.hh:190, 194, 276, 286). -/
def slotFront (r : Ring α) : Nat := if growsFront r then 0 else subMask r.begin_ 1 r.mask

/-- A pushing call. `f` is the function of `Ring.Model`, `grows` tells whether it allocates, `slot` where the new element is. -/
def push (w : World α) (i : Nat) (a : PushArg α) (f : Ring α → Arg α → R (Ring α × Nat)) (grows : Ring α → Bool)
    (slot : Ring α → Nat) : R (World α × Obs α × Option Place) := do
  let r ← ringOf w.mem (w.rings i)
  let arg ← pushArg r a
  let (r', _) ← f r arg
  let w' ← (if grows r then replaced w i r' else .ok (inPlace w i r') : R (World α))
  .ok (w', .none, (w'.rings i).data.map fun b => (b, slot r))

/-- A popping call. -/
def pop (w : World α) (i : Nat) (f : Ring α → R (α × Ring α)) : R (World α × Obs α × Option Place) := do
  let r ← ringOf w.mem (w.rings i)
  let (a, r) ← f r
  .ok (inPlace w i r, .elem a, none)

/-- A call that only looks. -/
def look (w : World α) (i : Nat) (f : Ring α → R (Obs α)) : R (World α × Obs α × Option Place) := do
  let r ← ringOf w.mem (w.rings i)
  let o ← f r
  .ok (w, o, none)

/-- One call: the world afterwards, what is returned, and the reference a pushing call returns. -/
def step (triv : Bool) (w : World α) : Op α → R (World α × Obs α × Option Place)
  | .pushBack i a => push w i a (emplaceBack triv) growsBack slotBack
  | .pushBackStable i a => push w i a (emplaceBackStable triv) (fun _ => false) fun r => r.end_
  | .pushFront i a => push w i a (emplaceFront triv) growsFront slotFront
  | .pushFrontStable i a => push w i a (emplaceFrontStable triv) (fun _ => false) fun r => subMask r.begin_ 1 r.mask
  | .popBack i => pop w i (popBack triv)
  | .popFront i => pop w i (popFront triv)
  | .clear i => do
    let r ← ringOf w.mem (w.rings i)
    let r ← clear triv r
    .ok (inPlace w i r, .none, none)
  | .front i => look w i fun r => do
    let a ← front r
    .ok (.elem a)
  | .back i => look w i fun r => do
    let a ← back r
    .ok (.elem a)
  | .get i k => look w i fun r => do
    let a ← get r k
    .ok (.elem a)
  | .set i k a => do
    let r ← ringOf w.mem (w.rings i)
    let r ← set r k a
    .ok (inPlace w i r, .none, none)
  | .size i => look w i fun r => .ok (.nat (size r))
  | .empty i => look w i fun r => .ok (.bool (isEmpty r))
  | .assignCopy i j => do
    let src ← ringOf w.mem (w.rings j)
    let t ← copy triv src
    let r ← ringOf w.mem (w.rings i)
    let _ ← dtor triv r
    let w ← replaced w i t
    .ok (w, .none, none)
  | .assignMove i j => do
    let r ← ringOf w.mem (w.rings i)
    let _ ← dtor triv r
    let mem ← free w.mem (w.rings i).data
    .ok (⟨mem, upd (upd w.rings i (w.rings j)) j Hdr.empty⟩, .none, none)

/-- A history. -/
def run (triv : Bool) (w : World α) : List (Op α) → R (World α × List (Obs α))
  | [] => .ok (w, [])
  | op :: ops => do
    let (w, o, _) ← step triv w op
    let (w, os) ← run triv w ops
    .ok (w, o :: os)

/-- `&ring_i[k]` (ringbuffer.hh:126-135). -/
def address (w : World α) (i k : Nat) : R Place := do
  let r ← ringOf w.mem (w.rings i)
  ccAssert (k < size r)
  match (w.rings i).data with
  | some b => .ok (b, addMask r.begin_ k r.mask)
  | none => .error .ub

/-- Read through a reference. -/
def load (w : World α) (p : Place) : R α :=
  match w.mem[p.1]? with
  | some (some buf) => buf.read p.2
  | _ => .error .ub

/-- Assign through a reference. -/
def store (w : World α) (p : Place) (a : α) : R (World α) :=
  match w.mem[p.1]? with
  | some (some buf) => do
    let buf ← buf.assign p.2 a
    .ok { w with mem := w.mem.set p.1 (some buf) }
  | _ => .error .ub

end Verif.Ring.Ref

namespace Verif.Ring.Spec
open Verif.Ring

variable {α : Type}

/-- A reference to element `k` of ringbuffer `i`: which element does it refer to after the call? `none`: it is no longer valid. It stays
valid until its element is removed, or its ringbuffer is assigned to, or gets an element more than its capacity. -/
def track (s : Lists α) (op : Op α) : Option (Nat × Nat) → Option (Nat × Nat)
  | none => none
  | some (i, k) =>
    match op with
    | .pushBack a _ => if a = i ∧ (s i).elems.length = (s i).cap then none else some (i, k)
    | .pushFront a _ => if a = i then (if (s i).elems.length = (s i).cap then none else some (i, k + 1)) else some (i, k)
    | .pushFrontStable a _ => if a = i then some (i, k + 1) else some (i, k)
    | .popBack a => if a = i ∧ k + 1 = (s i).elems.length then none else some (i, k)
    | .popFront a => if a = i then (if k = 0 then none else some (i, k - 1)) else some (i, k)
    | .clear a => if a = i then none else some (i, k)
    | .assignCopy a _ => if a = i then none else some (i, k)
    | .assignMove a b => if a = i then none else if b = i then some (a, k) else some (i, k)
    | _ => some (i, k)

/-- The same for a history. -/
def trackRun (s : Lists α) (t : Option (Nat × Nat)) : List (Op α) → Option (Nat × Nat)
  | [] => t
  | op :: ops =>
    match step s op with
    | none => none
    | some (s', _) => trackRun s' (track s op t) ops

end Verif.Ring.Spec
