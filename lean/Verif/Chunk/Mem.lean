import Verif.Common

/-!
Model of `cc::chunked_buffer` (/repo/src/clean-core/experimental/chunked_buffer.hh) with its memory: the blocks the elements are in,
the references that `push_back` and `emplace_back` return, and the array of chunks that loops go over.
-/
namespace Verif.Chunk.Ref

variable {α : Type}

/-- The blocks that `_alloc` has handed out (chunked_buffer.hh:144), in order; `none` for one that has been given back. A cell of a
block is `none` while no object has been made in it. Simplification: `_alloc` always succeeds (C123 is about it). -/
abbrev Mem (α : Type) := List (Option (List (Option α)))

/-- The address of an element: the block and the position in it. -/
abbrev Ptr := Nat × Nat

/-- `_alloc(n)` (chunked_buffer.hh:144). -/
def alloc (m : Mem α) (n : Nat) : Nat × Mem α := (m.length, m ++ [some (List.replicate n none)])

/-- `_free(p)` (chunked_buffer.hh:145). -/
def free (m : Mem α) (b : Nat) : R (Mem α) :=
  match m[b]? with
  | some (some _) => .ok (m.set b none)
  | _ => .error .ub

/-- Read through a reference: the block has to be there and have an object at that place. -/
def load (m : Mem α) (p : Ptr) : R α :=
  match m[p.1]? with
  | some (some cells) => match cells[p.2]? with
    | some (some a) => .ok a
    | _ => .error .ub
  | _ => .error .ub

/-- Assign through a reference. -/
def store (m : Mem α) (p : Ptr) (a : α) : R (Mem α) :=
  match m[p.1]? with
  | some (some cells) => match cells[p.2]? with
    | some (some _) => .ok (m.set p.1 (some (cells.set p.2 (some a))))
    | _ => .error .ub
  | _ => .error .ub

/-- Placement new (chunked_buffer.hh:48). Making an object on top of one that is alive counts as a fault. -/
def construct (m : Mem α) (p : Ptr) (a : α) : R (Mem α) :=
  match m[p.1]? with
  | some (some cells) => match cells[p.2]? with
    | some none => .ok (m.set p.1 (some (cells.set p.2 (some a))))
    | _ => .error .ub
  | _ => .error .ub

/-- `chunk` (chunked_buffer.hh:84-93): `begin` is the start of block `blk`, `head` and `end` are positions in it. -/
structure Chunk where
  blk : Nat
  head : Nat
  stop : Nat
deriving DecidableEq, Repr

/-- The members (chunked_buffer.hh:147-150). `_full_chunks` is a `cc::vector<chunk>`: its elements, its capacity, and a number that
changes when its elements move to another array. -/
structure St (α : Type) where
  mem : Mem α
  curr : Option Chunk
  full : List Chunk
  arr : Nat
  cap : Nat
  fullSize : Nat
  chunkSize : Nat
deriving DecidableEq, Repr

/-- `chunked_buffer()` (chunked_buffer.hh:71, 147-150). -/
def St.empty : St α := { mem := [], curr := none, full := [], arr := 0, cap := 0, fullSize := 0, chunkSize := 1024 }

/-- `is_valid` (chunked_buffer.hh:90); all three pointers of a chunk that has not been set are null. -/
def isValid : Option Chunk → Bool
  | none => false
  | some c => c.head != c.stop

/-- `size` (chunked_buffer.hh:27). -/
def size (s : St α) : Nat := s.fullSize + (s.curr.elim 0 fun c => c.head)

/-- `_full_chunks.push_back(_curr)` (chunked_buffer.hh:39, vector_base.hh:117-151). `_realloc` counts as moving the array: the old
pointers may not be used after it. -/
def pushChunk (s : St α) (c : Chunk) : St α :=
  if s.full.length = s.cap then
    { s with full := s.full ++ [c], arr := s.arr + 1, cap := if s.cap = 0 then 1 else 2 * s.cap }
  else
    { s with full := s.full ++ [c] }

/-- The part of `emplace_back` that starts a chunk (chunked_buffer.hh:34-45). -/
def prepare (s : St α) : St α :=
  if !isValid s.curr then
    let s := match s.curr with
      | some c => { pushChunk s c with fullSize := s.fullSize + c.head }
      | none => s
    let (b, m) := alloc s.mem s.chunkSize
    { s with mem := m, curr := some { blk := b, head := 0, stop := s.chunkSize } }
  else s

/-- What an element is made from: a value, or an element of the same buffer. -/
inductive Arg (α : Type) where
  | val (a : α)
  | ref (p : Ptr)

/-- The argument is a reference, which the element's constructor reads. -/
def Arg.get (m : Mem α) : Arg α → R α
  | .val a => .ok a
  | .ref p => load m p

/-- `emplace_back`, `push_back` (chunked_buffer.hh:31-57): the reference and the buffer. -/
def emplaceBack (s : St α) (x : Arg α) : R (Ptr × St α) := do
  let s := prepare s
  ccAssert (isValid s.curr)
  match s.curr with
  | none => .error .ub
  | some c =>
    let a ← x.get s.mem
    let m ← construct s.mem (c.blk, c.head) a
    .ok ((c.blk, c.head), { s with mem := m, curr := some { c with head := c.head + 1 } })

/-- `set_chunk_size` (chunked_buffer.hh:65-69). -/
def setChunkSize (s : St α) (n : Nat) : R (St α) := do
  ccAssert (n > 0)
  .ok { s with chunkSize := n }

/-- The second loop of the destructor (chunked_buffer.hh:79-80). -/
def freeAll (m : Mem α) : List Chunk → R (Mem α)
  | [] => .ok m
  | c :: cs => do
    let m ← free m c.blk
    freeAll m cs

/-- The destructor (chunked_buffer.hh:75-81). -/
def destroy (s : St α) : R (Mem α) := do
  let m ← match s.curr with
    | some c => free s.mem c.blk
    | none => .ok s.mem
  freeAll m s.full

/-- What a program does with one buffer and the references it has been given, which it knows by number. -/
inductive Op (α : Type) where
  /-- `push_back(a)`, keeping the reference. -/
  | push (a : α)
  /-- `push_back(r)` where `r` is the reference with that number. -/
  | pushCopy (k : Nat)
  /-- `r = a`. -/
  | assign (k : Nat) (a : α)
  | setChunkSize (n : Nat)

/-- The buffer and the references returned so far. -/
structure W (α : Type) where
  s : St α
  refs : List Ptr
deriving DecidableEq, Repr

/-- Run one call; using a reference that one does not have is not a program. -/
def step (w : W α) : Op α → R (W α)
  | .push a => do
    let (p, s) ← emplaceBack w.s (.val a)
    .ok { s, refs := w.refs ++ [p] }
  | .pushCopy k =>
    match w.refs[k]? with
    | none => .error .ub
    | some q => do
      let (p, s) ← emplaceBack w.s (.ref q)
      .ok { s, refs := w.refs ++ [p] }
  | .assign k a =>
    match w.refs[k]? with
    | none => .error .ub
    | some q => do
      let m ← store w.s.mem q a
      .ok { w with s := { w.s with mem := m } }
  | .setChunkSize n => do
    let s ← setChunkSize w.s n
    .ok { w with s }

/-- Run a history. -/
def run (w : W α) : List (Op α) → R (W α)
  | [] => .ok w
  | op :: ops => do
    let w ← step w op
    run w ops

/-- Read the elements `begin + i`, … of a span with `n` of them left. -/
def readFrom (m : Mem α) (b i : Nat) : Nat → R (List α)
  | 0 => .ok []
  | n + 1 => do
    let a ← load m (b, i)
    let l ← readFrom m b (i + 1) n
    .ok (a :: l)

/-- The elements of `as_span()` (chunked_buffer.hh:91-92). -/
def span (m : Mem α) (c : Chunk) : R (List α) := readFrom m c.blk 0 c.head

/-- What the body of a loop does; it may depend on the chunks it has been given so far. -/
abbrev Body (α : Type) := List (List α) → List (Op α)

/-- Go over the chunks that `_full_chunks` had when the loop began, from number `k`, `n` of them left: `for_each_chunk`'s first loop
(chunked_buffer.hh:102-103, 111-112) and `chunk_iterator` while `head != end` (chunked_buffer.hh:117-139). `arr` is the array the
pointers `head` and `end` were taken from; reading through `head` is an error once the array has moved. -/
def overFull (body : Body α) (arr : Nat) (w : W α) (k : Nat) (shown : List (List α)) : Nat → R (W α × List (List α))
  | 0 => .ok (w, shown)
  | n + 1 =>
    if w.s.arr ≠ arr then .error .ub
    else match w.s.full[k]? with
      | none => .error .ub
      | some c => do
        let l ← span w.s.mem c
        let w ← run w (body (shown ++ [l]))
        overFull body arr w (k + 1) (shown ++ [l]) n

/-- `for (auto c : buf.chunks()) body(c)` (chunked_buffer.hh:117-142): the iterator has a copy of `_curr`, and shows it when
`head == end`; a buffer without current chunk has `end` in front of the array. -/
def loopChunks (body : Body α) (w : W α) : R (W α × List (List α)) := do
  let curr := w.s.curr
  let (w, shown) ← overFull body w.s.arr w 0 [] w.s.full.length
  match curr with
  | none => .ok (w, shown)
  | some c =>
    let l ← span w.s.mem c
    let w ← run w (body (shown ++ [l]))
    .ok (w, shown ++ [l])

/-- `for_each_chunk(body)` (chunked_buffer.hh:99-115): the current chunk is looked at after the full ones have been shown. -/
def forEachChunk (body : Body α) (w : W α) : R (W α × List (List α)) := do
  let (w, shown) ← overFull body w.s.arr w 0 [] w.s.full.length
  match w.s.curr with
  | none => .ok (w, shown)
  | some c =>
    if isValid w.s.curr then do
      let l ← span w.s.mem c
      let w ← run w (body (shown ++ [l]))
      .ok (w, shown ++ [l])
    else .ok (w, shown)

end Verif.Chunk.Ref
