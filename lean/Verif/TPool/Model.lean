import Verif.Common

/-!
Model of `cc::alloc` and `cc::free` with their per-thread pools (/repo/src/clean-core/allocate.hh).

One size class is modelled: all types with the same `sizeof` and `alignof` share the pools. The pools are `thread_local`, so every call works on the pool of the calling thread only, and calls of different
threads do not interfere; a block may be given back on another thread than the one that asked for it. Addresses are natural numbers. Where `new storage[block_size]` puts the memory is a parameter of the
call. Construction and destruction of the object are not modelled: they only access the block itself. `new` does not fail.
-/
namespace Verif.TPool

/-- `block_bytes / Size` (allocate.hh:63-64). -/
def blockSize (size : Nat) : Nat := 2 ^ 16 / size

/-- `pool_block` (allocate.hh:38-56): the free addresses are `ptrs[curr], ..`. -/
structure Block where
  curr : Nat
  ptrs : List Nat
deriving DecidableEq

/-- `can_pop` (allocate.hh:43). -/
def Block.canPop (n : Nat) (b : Block) : Bool := decide (b.curr < n)

/-- `can_push` (allocate.hh:44). -/
def Block.canPush (b : Block) : Bool := decide (b.curr > 0)

/-- `push` (allocate.hh:46-50). -/
def Block.push (b : Block) (p : Nat) : R Block := do
  ccAssert b.canPush
  if b.curr - 1 < b.ptrs.length then .ok { curr := b.curr - 1, ptrs := b.ptrs.set (b.curr - 1) p } else .error .ub

/-- `pop` (allocate.hh:51-55). -/
def Block.pop (n : Nat) (b : Block) : R (Nat × Block) := do
  ccAssert (b.canPop n)
  match b.ptrs[b.curr]? with
  | some p => .ok (p, { b with curr := b.curr + 1 })
  | none => .error .ub

/-- `pool_allocator` (allocate.hh:58-80): the current block, and the list of full blocks. -/
structure Pool where
  cur : Block
  next : List Block
deriving DecidableEq

/-- A new thread's pool (allocate.hh:41-42, 77, 80). -/
def Pool.init (n : Nat) : Pool := { cur := { curr := n, ptrs := List.replicate n 0 }, next := [] }

/-- The addresses of the objects in `new storage[block_size]` that begins at `base`. -/
def slots (size base : Nat) : List Nat := (List.range (blockSize size)).map (fun i => base + size * i)

/-- `alloc_block` (allocate.hh:82-101); the second result tells whether memory was requested, which is then at `base`. -/
def Pool.allocBlock (size base : Nat) (p : Pool) : R (Pool × Bool) := do
  ccAssert (!p.cur.canPop (blockSize size))
  match p.next with
  | b :: r => .ok ({ cur := b, next := r }, false)
  | [] => .ok ({ p with cur := { curr := 0, ptrs := slots size base } }, true)

/-- `move_free_block` (allocate.hh:103-111). -/
def Pool.moveFreeBlock (n : Nat) (p : Pool) : R Pool := do
  ccAssert (!p.cur.canPush)
  .ok { cur := { p.cur with curr := n }, next := p.cur :: p.next }

/-- `alloc` (allocate.hh:113-119). -/
def Pool.alloc (size base : Nat) (p : Pool) : R (Nat × Pool × Bool) := do
  let r ← if !p.cur.canPop (blockSize size) then p.allocBlock size base else .ok (p, false)
  let q ← r.1.cur.pop (blockSize size)
  .ok (q.1, { r.1 with cur := q.2 }, r.2)

/-- `free` (allocate.hh:121-127). -/
def Pool.free (size : Nat) (p : Pool) (a : Nat) : R Pool := do
  let p ← if !p.cur.canPush then p.moveFreeBlock (blockSize size) else .ok p
  let b ← p.cur.push a
  .ok { p with cur := b }

/-- The pools of all threads; for the properties also the blocks in use and the memory that was requested (newest first), and who requested it. -/
structure World where
  threads : List Pool
  live : List Nat
  mem : List Nat

/-- All threads start with an empty pool. -/
def World.init (size threads : Nat) : World := { threads := List.replicate threads (Pool.init (blockSize size)), live := [], mem := [] }

/-- A call of `cc::alloc` on thread `t`, where memory would be found at `base`; or of `cc::free` on thread `t`. -/
inductive Op where
  | alloc (t base : Nat)
  | free (t addr : Nat)

/-- One call and the address it returns. -/
def step (size : Nat) (w : World) : Op → R (Option Nat × World)
  | .alloc t base =>
    match w.threads[t]? with
    | none => .error .ub
    | some p => do
      let r ← p.alloc size base
      .ok (some r.1, { threads := w.threads.set t r.2.1, live := r.1 :: w.live, mem := if r.2.2 then base :: w.mem else w.mem })
  | .free t a =>
    match w.threads[t]? with
    | none => .error .ub
    | some p => do
      ccAssert (decide (a ≠ 0))
      let p ← p.free size a
      .ok (none, { w with threads := w.threads.set t p, live := w.live.erase a })

/-- A history; the returned addresses, and the pools. -/
def run (size : Nat) (w : World) : List Op → R (List (Option Nat) × World)
  | [] => .ok ([], w)
  | op :: ops => do
    let a ← step size w op
    let b ← run size a.2 ops
    .ok (a.1 :: b.1, b.2)

/-- Memory at `base` is separate from other memory and from null, and it is aligned. -/
def Fresh (size align : Nat) (mem : List Nat) (base : Nat) : Prop :=
  0 < base ∧ align ∣ base ∧ ∀ m ∈ mem, base + size * blockSize size ≤ m ∨ m + size * blockSize size ≤ base

/-- The rules: threads exist, memory is fresh, and only blocks in use are given back. -/
def OpOk (size align : Nat) (w : World) : Op → Prop
  | .alloc t base => t < w.threads.length ∧ Fresh size align w.mem base
  | .free t a => t < w.threads.length ∧ a ∈ w.live

/-- All calls obey the rules. -/
def Proper (size align : Nat) (w : World) : List Op → Prop
  | [] => True
  | op :: ops => OpOk size align w op ∧ ∀ r, step size w op = .ok r → Proper size align r.2 ops

end Verif.TPool
