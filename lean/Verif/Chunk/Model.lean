import Verif.Common

/-!
Model of `cc::chunked_buffer<T>` (/repo/src/clean-core/experimental/chunked_buffer.hh).

A chunk is its allocated slot count and the elements constructed in it (slots `begin` .. `head`); the pointers themselves are not
modelled, allocation never fails. The `cc::vector` of full chunks is a list.
-/
namespace Verif.Chunk

variable {α : Type}

/-- `chunk` (chunked_buffer.hh:84-93): `cap = end - begin`, `elems` the objects in `begin .. head`. -/
structure Chk (α : Type) where
  cap : Nat
  elems : List α
deriving DecidableEq, Repr

/-- `chunk::is_valid` (chunked_buffer.hh:90): `head != end`; the null chunk has `head == end`. -/
def isValid : Option (Chk α) → Bool
  | none => false
  | some c => c.elems.length != c.cap

/-- The members (chunked_buffer.hh:148-151); `curr = none` when `_curr.begin` is null. -/
structure CB (α : Type) where
  curr : Option (Chk α)
  full : List (Chk α)
  fullSize : Nat
  chunkSize : Nat
deriving DecidableEq, Repr

/-- Default constructor (chunked_buffer.hh:71, 148-151). -/
def CB.empty : CB α := { curr := none, full := [], fullSize := 0, chunkSize := 1024 }

/-- `size` (chunked_buffer.hh:27). -/
def size (b : CB α) : Nat := b.fullSize + (b.curr.elim 0 fun c => c.elems.length)

/-- The part of `emplace_back` that starts a new chunk (chunked_buffer.hh:34-45). -/
def prepare (b : CB α) : CB α :=
  if !isValid b.curr then
    match b.curr with
    | some c =>
      { b with curr := some { cap := b.chunkSize, elems := [] }, full := b.full ++ [c], fullSize := b.fullSize + c.elems.length }
    | none => { b with curr := some { cap := b.chunkSize, elems := [] } }
  else b

/-- `emplace_back` / `push_back` (chunked_buffer.hh:31-57). -/
def emplaceBack (b : CB α) (a : α) : R (CB α) := do
  let b := prepare b
  ccAssert (isValid b.curr)
  match b.curr with
  | some c => .ok { b with curr := some { c with elems := c.elems ++ [a] } }
  | none => .error .ub

/-- `set_chunk_size` (chunked_buffer.hh:65-69). -/
def setChunkSize (b : CB α) (s : Nat) : R (CB α) := do
  ccAssert (s > 0)
  .ok { b with chunkSize := s }

/-- The spans `for_each_chunk` passes to its argument (chunked_buffer.hh:100-115). -/
def forEachChunk (b : CB α) : List (List α) :=
  b.full.map (·.elems) ++ (if isValid b.curr then (match b.curr with | some c => [c.elems] | none => []) else [])

/-- One dereference of `chunk_iterator` (chunked_buffer.hh:120): `head` and `end` as offsets from `_full_chunks.begin()`. -/
def chunkDeref (b : CB α) (head stop : Int) : R (List α) :=
  if head = stop then
    match b.curr with
    | some c => .ok c.elems
    | none => .ok []
  else if h : 0 ≤ head ∧ head.toNat < b.full.length then .ok b.full[head.toNat].elems
  else .error .ub

/-- The loop over `chunks()` (chunked_buffer.hh:120-124): `head` runs up to `stop + 1`; `fuel` counts the remaining steps and
running out of it means the loop does not meet its end. -/
def chunkLoop (b : CB α) (stop : Int) : Nat → Int → R (List (List α))
  | 0, head => if head ≠ stop + 1 then .error .ub else .ok []
  | fuel + 1, head =>
    if head ≠ stop + 1 then do
      let x ← chunkDeref b head stop
      let xs ← chunkLoop b stop fuel (head + 1)
      .ok (x :: xs)
    else .ok []

/-- What iterating over `chunks()` yields (chunked_buffer.hh:127-140). -/
def chunks (b : CB α) : R (List (List α)) :=
  let stop : Int := if b.curr.isNone then (b.full.length : Int) - 1 else b.full.length
  chunkLoop b stop (b.full.length + 1) 0

/-- Destructor (chunked_buffer.hh:75-81): frees the storage and runs no element destructor; the result is the number of objects
whose destructor never ran (none if `T` is trivially destructible). -/
def dtorLeak (triv : Bool) (b : CB α) : Nat :=
  if triv then 0 else (b.full.map (·.elems.length)).sum + (b.curr.elim 0 fun c => c.elems.length)

/-- The calls of a program. -/
inductive Op (α : Type) where
  | push (a : α)
  | setChunkSize (s : Nat)

/-- Run one call. -/
def step (b : CB α) : Op α → R (CB α)
  | .push a => emplaceBack b a
  | .setChunkSize s => setChunkSize b s

/-- Run a history. -/
def run (b : CB α) : List (Op α) → R (CB α)
  | [] => .ok b
  | op :: ops => do
    let b ← step b op
    run b ops

end Verif.Chunk
