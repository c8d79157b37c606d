import Verif.Tlsf.Heap
/-!
# The self-check of the TLSF heap

Model of `tlsf_check`, `tlsf_walk_pool` and `tlsf_check_pool` in `/repo/src/clean-core/detail/lib/tlsf.cc` and of the functions of
`/repo/src/clean-core/allocators/tlsf_allocator.cc` that use them.

The loops follow links in memory and need not end, so they get a number of rounds; `none` means that the rounds did not suffice.
`dbg` says whether `assert` is enabled.
-/
namespace Verif.Tlsf

/-- `tlsf_insist` (tlsf.cc 788-795): the status after it. -/
def insist (dbg : Bool) (c : Bool) (status : Int) : R Int := do
  if dbg then ccAssert c
  pure (if c then status else status - 1)

/-- One round of the loop of `tlsf_check` over a free list (tlsf.cc 846-857): the status and the next block. -/
def checkBlock (dbg : Bool) (C : Cfg) (s : St) (i j b : Nat) (st : Int) : R (Int × Nat) := do
  let w ← ld C s (b + 8)
  let st ← insist dbg (wFree w) st
  let st ← insist dbg (!wPrevFree w) st
  let n ← blockNext C s b
  let wn ← ld C s (n + 8)
  let st ← insist dbg (!wFree wn) st
  let st ← insist dbg (wPrevFree wn) st
  let st ← insist dbg (decide (wSize w ≥ 24)) st
  let p ← mapInsert (BitVec.ofNat 64 (wSize w))
  let st ← insist dbg (decide (p = ((i : Int), (j : Int)))) st
  let x ← ld C s (b + 16)
  pure (st, x)

/-- The loop of `tlsf_check` over a free list (tlsf.cc 846-858). -/
def checkList (dbg : Bool) (C : Cfg) (s : St) (i j : Nat) : Nat → Nat → Int → R (Option Int)
  | 0, b, st => if b = C.ctl then pure (some st) else pure none
  | f + 1, b, st => if b = C.ctl then pure (some st) else do
    let (st, x) ← checkBlock dbg C s i j b st
    checkList dbg C s i j f x st

/-- The inner loop body of `tlsf_check` (tlsf.cc 825-859). -/
def checkClass (dbg : Bool) (C : Cfg) (s : St) (f i j : Nat) (st : Int) : R (Option Int) := do
  let flMap := s.fl.getLsbD i
  let slMap := (s.sl i).getLsbD j
  let b := s.heads i j
  let st ← (if flMap then pure st else insist dbg (!slMap) st : R Int)
  if slMap then do
    let st ← insist dbg (decide (s.sl i ≠ 0#32)) st
    let st ← insist dbg (decide (b ≠ C.ctl)) st
    checkList dbg C s i j f b st
  else do
    let st ← insist dbg (decide (b = C.ctl)) st
    pure (some st)

/-- The two loops of `tlsf_check`, over a list of classes. -/
def checkClasses (dbg : Bool) (C : Cfg) (s : St) (f : Nat) : List (Nat × Nat) → Int → R (Option Int)
  | [], st => pure (some st)
  | p :: t, st => do
    match ← checkClass dbg C s f p.1 p.2 st with
    | none => pure none
    | some st => checkClasses dbg C s f t st

/-- The indices in the order of the two loops (tlsf.cc 820-823). -/
def classes : List (Nat × Nat) := (List.range 25).flatMap fun i => (List.range 32).map fun j => (i, j)

/-- `tlsf_check` (tlsf.cc 813-864). -/
def check (dbg : Bool) (C : Cfg) (s : St) (f : Nat) : R (Option Int) := checkClasses dbg C s f classes 0

/-- The loop of `tlsf_walk_pool` (tlsf.cc 879-883); the walker gets the pointer, the size and whether the block is in use. Walkers that change the heap are
not modelled. -/
def walkLoop {σ : Type} (C : Cfg) (s : St) (g : σ → Nat → Nat → Bool → R σ) : Nat → Nat → σ → R (Option σ)
  | f, b, x => if b = 0 then pure (some x) else do
    let w ← ld C s (b + 8)
    if wSize w = 0 then pure (some x)
    else
      match f with
      | 0 => pure none
      | f + 1 => do
        let x ← g x (b + 16) (wSize w) (!wFree w)
        let n ← blockNext C s b
        walkLoop C s g f n x

/-- `tlsf_walk_pool` (tlsf.cc 874-884). -/
def walkPool {σ : Type} (C : Cfg) (s : St) (g : σ → Nat → Nat → Bool → R σ) (f base : Nat) (x : σ) : R (Option σ) := walkLoop C s g f (base - 8) x

/-- A walker that writes down what it is called with. -/
def collect (x : List (Nat × Nat × Bool)) (p size : Nat) (used : Bool) : R (List (Nat × Nat × Bool)) := pure (x ++ [(p, size, used)])

/-- `integrity_walker` (tlsf.cc 797-812); the state is `prev_status` and `status`. -/
def integrityWalker (dbg : Bool) (C : Cfg) (s : St) (x : Int × Int) (p size : Nat) (_used : Bool) : R (Int × Int) := do
  let w ← ld C s (p - 16 + 8)
  let thisPrev : Int := if wPrevFree w then 1 else 0
  let this : Int := if wFree w then 1 else 0
  let st ← insist dbg (decide (x.1 = thisPrev)) 0
  let st ← insist dbg (decide (size = wSize w)) st
  pure (this, x.2 + st)

/-- `tlsf_check_pool` (tlsf.cc 897-904). -/
def checkPool (dbg : Bool) (C : Cfg) (s : St) (f base : Nat) : R (Option Int) := do
  let r ← walkPool C s (integrityWalker dbg C s) f base (0, 0)
  pure (r.map Prod.snd)

/-- `tlsf_allocator::validate_heap` (tlsf_allocator.cc 60-67) of an initialised allocator. -/
def validateHeap (dbg : Bool) (C : Cfg) (s : St) (f : Nat) : R (Option Bool) := do
  match ← check dbg C s f with
  | none => pure none
  | some st => do
    ccAssert (decide (st = 0))
    pure (some true)

/-- `tlsf_allocator::get_allocation_size` (tlsf_allocator.cc 51-58): the size if it succeeds. -/
def getAllocationSize (C : Cfg) (s : St) (ptr : Nat) : R (Option Nat) :=
  if ptr = 0 then pure none
  else do
    let n ← blockSizeOf C s ptr
    pure (some n)

end Verif.Tlsf
