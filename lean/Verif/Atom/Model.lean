import Verif.Common

/-!
Model of the atomic operations of /repo/src/clean-core/intrinsics.hh:32-173: `intrin_cas`, `intrin_cas_pointer`, `intrin_atomic_swap`, `intrin_atomic_swap_pointer`, `intrin_atomic_add`, `intrin_atomic_or` for all
widths, and of threads that use them.

A variable is a number of `w` bits (8, 16, 32 or 64; signed and unsigned ones have the same operations); pointers are numbers too. The built-in functions of the compilers are modelled by their documentation: `__sync_*`
and `_Interlocked*` are full barriers, and `__atomic_exchange` is used with `__ATOMIC_SEQ_CST`, so each of them is one step of one thread, in one order for all threads. `volatile` has no influence. Not modelled: accesses to the same variables
by other means.
-/
namespace Verif.Atom

inductive Compiler where
  | msvc | other
deriving DecidableEq, Repr

variable {w : Nat}

/-- The variables, by address. -/
abbrev Mem (w : Nat) := Nat → BitVec w

def put (m : Mem w) (d : Nat) (x : BitVec w) : Mem w := fun a => if a = d then x else m a

/-! ### Built-in functions: the value returned, and the memory afterwards -/

/-- `_InterlockedCompareExchange(Destination, Exchange, Comperand)` -/
def interlockedCompareExchange (m : Mem w) (d : Nat) (exchange comperand : BitVec w) : BitVec w × Mem w := (m d, if m d = comperand then put m d exchange else m)

/-- `__sync_val_compare_and_swap(ptr, oldval, newval)` -/
def syncValCompareAndSwap (m : Mem w) (d : Nat) (oldval newval : BitVec w) : BitVec w × Mem w := (m d, if m d = oldval then put m d newval else m)

/-- `_InterlockedExchange(Target, Value)` -/
def interlockedExchange (m : Mem w) (d : Nat) (v : BitVec w) : BitVec w × Mem w := (m d, put m d v)

/-- `__atomic_exchange(ptr, val, ret, memorder)` with `*val` and `*ret`. -/
def atomicExchange (m : Mem w) (d : Nat) (val : BitVec w) : BitVec w × Mem w := (m d, put m d val)

/-- `_InterlockedExchangeAdd(Addend, Value)` -/
def interlockedExchangeAdd (m : Mem w) (d : Nat) (v : BitVec w) : BitVec w × Mem w := (m d, put m d (m d + v))

/-- `__sync_fetch_and_add` -/
def syncFetchAndAdd (m : Mem w) (d : Nat) (v : BitVec w) : BitVec w × Mem w := (m d, put m d (m d + v))

/-- `_InterlockedOr(Destination, Value)` -/
def interlockedOr (m : Mem w) (d : Nat) (v : BitVec w) : BitVec w × Mem w := (m d, put m d (m d ||| v))

/-- `__sync_fetch_and_or` -/
def syncFetchAndOr (m : Mem w) (d : Nat) (v : BitVec w) : BitVec w × Mem w := (m d, put m d (m d ||| v))

/-! ### The operations -/

/-- `intrin_cas` (intrinsics.hh:32-48), `intrin_cas_pointer` (50-57), `intrin_cas_pointer_t` (163-167). -/
def cas (c : Compiler) (m : Mem w) (d : Nat) (comparand exchange : BitVec w) : BitVec w × Mem w :=
  match c with
  | .msvc => interlockedCompareExchange m d exchange comparand
  | .other => syncValCompareAndSwap m d comparand exchange

/-- `intrin_atomic_swap` (intrinsics.hh:59-79), `intrin_atomic_swap_pointer` (81-90), `intrin_atomic_swap_pointer_t` (169-173). -/
def swap (c : Compiler) (m : Mem w) (d : Nat) (value : BitVec w) : BitVec w × Mem w :=
  match c with
  | .msvc => interlockedExchange m d value
  | .other => atomicExchange m d value

/-- `intrin_atomic_add` (intrinsics.hh:92-126). -/
def add (c : Compiler) (m : Mem w) (d : Nat) (value : BitVec w) : BitVec w × Mem w :=
  match c with
  | .msvc => interlockedExchangeAdd m d value
  | .other => syncFetchAndAdd m d value

/-- `intrin_atomic_or` (intrinsics.hh:128-162). -/
def or (c : Compiler) (m : Mem w) (d : Nat) (value : BitVec w) : BitVec w × Mem w :=
  match c with
  | .msvc => interlockedOr m d value
  | .other => syncFetchAndOr m d value

/-! ### Threads -/

/-- A call; `dest` is the address of the variable. -/
inductive Op (w : Nat) where
  | cas (dest : Nat) (comparand exchange : BitVec w)
  | swap (dest : Nat) (value : BitVec w)
  | add (dest : Nat) (value : BitVec w)
  | or (dest : Nat) (value : BitVec w)
deriving DecidableEq, Repr

def Op.dest : Op w → Nat
  | .cas d _ _ => d
  | .swap d _ => d
  | .add d _ => d
  | .or d _ => d

def call (c : Compiler) (m : Mem w) : Op w → BitVec w × Mem w
  | .cas d x y => cas c m d x y
  | .swap d v => swap c m d v
  | .add d v => add c m d v
  | .or d v => or c m d v

/-- What a thread calls next, depending on the results it has got so far (the last one first); `none` if it has finished. -/
abbrev Thread (w : Nat) := List (BitVec w) → Option (Op w)

/-- What has happened: a thread has made a call and got a result. -/
structure Event (w : Nat) where
  thread : Nat
  op : Op w
  result : BitVec w
deriving DecidableEq, Repr

/-- Everything that happens with a schedule (which thread is next), and the memory afterwards. A thread that has finished does nothing. -/
def run (c : Compiler) (threads : Nat → Thread w) : (schedule : List Nat) → Mem w → (got : Nat → List (BitVec w)) → List (Event w) × Mem w
  | [], m, _ => ([], m)
  | t :: ts, m, got =>
    match threads t (got t) with
    | none => run c threads ts m got
    | some op =>
      let (r, m) := call c m op
      let (es, m) := run c threads ts m (fun u => if u = t then r :: got u else got u)
      (⟨t, op, r⟩ :: es, m)

end Verif.Atom
