import Verif.Alloc.StackSpec
import Verif.Alloc.Pages

/-!
Model of `cc::virtual_stack_allocator` (/repo/src/clean-core/allocators/virtual_stack_allocator.hh and .cc).

The headers and `align_up_with_header` are those of the stack allocator, the committed memory is that of `Pages`. An access to memory that is not committed is undefined (in reality: a fault).
-/
namespace Verif.Alloc.VStack
open Verif.Bits Verif.Alloc.Pages
open Verif.Alloc.Stack (Mem Header readHeader writeHeader alignUpWithHeader)

/-- The members (virtual_stack_allocator.hh:62-67), and the memory. -/
structure State where
  pages : Pages
  id : BitVec 32
  mem : Mem

/-- `initialize` (virtual_stack_allocator.cc:10-23) where the operating system reserves the range at `addr`. -/
def init (addr maxSize chunk : BitVec 64) (mem : Mem) : R State := do
  let p ← Pages.init addr maxSize chunk
  .ok { pages := p, id := 0, mem := mem }

/-- `alloc` (virtual_stack_allocator.cc:34-54); `++_last_alloc_id` overflows at 2^31 - 1. -/
def alloc (s : State) (size align : BitVec 64) : R (BitVec 64 × State) := do
  ccAssert (decide (s.pages.vbegin ≠ 0#64))
  let padded ← alignUpWithHeader s.pages.cur align 8#64
  let padding := padded - s.pages.cur
  let p ← grow s.pages (padding + size)
  if s.id = 0x7fffffff#32 then .error .ub
  else if accessible p (padded.toNat - 8) 8 then
    .ok (padded, { pages := { p with cur := padded + size }, id := s.id + 1, mem := writeHeader s.mem (padded.toNat - 8) { padding := padding.setWidth 32, id := s.id + 1 } })
  else .error .ub

/-- `free` (virtual_stack_allocator.cc:56-67). -/
def free (s : State) (ptr : BitVec 64) : R State :=
  if ptr = 0#64 then .ok s
  else if accessible s.pages (ptr.toNat - 8) 8 then do
    let h := readHeader s.mem (ptr.toNat - 8)
    ccAssert (decide (h.id = s.id))
    .ok { s with id := s.id - 1, pages := { s.pages with cur := ptr - h.padding.setWidth 64 } }
  else .error .ub

/-- `realloc` (virtual_stack_allocator.cc:69-100). -/
def realloc (s : State) (ptr newSize align : BitVec 64) : R (BitVec 64 × State) :=
  if newSize = 0#64 then do
    let s ← free s ptr
    .ok (0#64, s)
  else if ptr = 0#64 then alloc s newSize align
  else if accessible s.pages (ptr.toNat - 8) 8 then do
    ccAssert (decide ((readHeader s.mem (ptr.toNat - 8)).id = s.id))
    let oldSize := s.pages.cur - ptr
    let p ← if newSize > oldSize then grow s.pages (newSize - oldSize) else .ok s.pages
    .ok (ptr, { s with pages := { p with cur := ptr + newSize } })
  else .error .ub

/-- `reset` (virtual_stack_allocator.cc:102-108). -/
def reset (s : State) : BitVec 64 × State := (s.pages.cur - s.pages.vbegin, { s with pages := { s.pages with cur := s.pages.vbegin }, id := 0 })

/-- `is_latest_allocation` (virtual_stack_allocator.cc:127-136); the assertion only checks the lower end of the range, and that `_physical_end` is not null. -/
def isLatest (s : State) (ptr : BitVec 64) : R Bool := do
  ccAssert (decide (ptr ≠ 0#64))
  ccAssert (decide (ptr > s.pages.vbegin ∧ s.pages.pend ≠ 0#64))
  if accessible s.pages (ptr.toNat - 8) 8 then .ok (decide ((readHeader s.mem (ptr.toNat - 8)).id = s.id)) else .error .ub

/-- A call, or a byte written by the client. -/
inductive Op where
  | alloc (size align : Nat)
  | free (ptr : Nat)
  | realloc (ptr newSize align : Nat)
  | reset
  | decommit
  | write (addr : Nat) (v : BitVec 8)

/-- One call and the pointer it returns. -/
def step (s : State) : Op → R (Option (BitVec 64) × State)
  | .alloc size align => do
    let r ← alloc s (BitVec.ofNat 64 size) (BitVec.ofNat 64 align)
    .ok (some r.1, r.2)
  | .free ptr => do
    let s ← free s (BitVec.ofNat 64 ptr)
    .ok (none, s)
  | .realloc ptr n align => do
    let r ← realloc s (BitVec.ofNat 64 ptr) (BitVec.ofNat 64 n) (BitVec.ofNat 64 align)
    .ok (some r.1, r.2)
  | .reset => .ok (none, (reset s).2)
  | .decommit => do
    let r ← decommitIdle s.pages
    .ok (none, { s with pages := r.2 })
  | .write a v => if accessible s.pages a 1 then .ok (none, { s with mem := fun x => if x = a then v else s.mem x }) else .error .ub

/-- A history; the returned pointers, and the allocator. -/
def run (s : State) : List Op → R (List (Option (BitVec 64)) × State)
  | [] => .ok ([], s)
  | op :: ops => do
    let a ← step s op
    let b ← run a.2 ops
    .ok (a.1 :: b.1, b.2)

namespace Spec
open Verif.Alloc.Spec

/-- The same call of a stack allocator over fixed memory; decommitting is not visible there. -/
def toStack : Op → Option Stack.Op
  | .alloc size align => some (.alloc size align)
  | .free ptr => some (.free ptr)
  | .realloc ptr n align => some (.realloc ptr n align)
  | .reset => some .reset
  | .decommit => none
  | .write a v => some (.write a v)

/-- One call, in terms of the live blocks. -/
def step (lo hi : Nat) (l : List Block) (op : Op) : R (Option Nat × List Block) :=
  match toStack op with
  | some op => Stack.Spec.step lo hi l op
  | none => .ok (none, l)

/-- A history. -/
def run (lo hi : Nat) (l : List Block) : List Op → R (List (Option Nat) × List Block)
  | [] => .ok ([], l)
  | op :: ops => do
    let a ← step lo hi l op
    let b ← run lo hi a.2 ops
    .ok (a.1 :: b.1, b.2)

/-- Requests are far from the end of the address space. -/
def Modest : Op → Prop
  | .alloc size _ => size ≤ 2 ^ 60
  | .realloc _ n _ => n ≤ 2 ^ 60
  | _ => True

/-- The rules are those for the stack allocator. -/
def OpOk (l : List Block) (op : Op) : Prop := Modest op ∧ ∀ o, toStack op = some o → Stack.Spec.OpOk l o

/-- All steps of a history obey the rules. -/
def Proper (lo hi : Nat) (l : List Block) : List Op → Prop
  | [] => True
  | op :: ops => OpOk l op ∧ ∀ r, step lo hi l op = .ok r → Proper lo hi r.2 ops

end Spec
end Verif.Alloc.VStack
