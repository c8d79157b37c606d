import Verif.Spin.Model

/-!
Model of the wrappers `cc::synced_tlsf_allocator` and `cc::synced_virtual_linear_allocator`
(/repo/src/clean-core/allocators/synced_tlsf_allocator.hh, /repo/src/clean-core/allocators/synced_virtual_linear_allocator.hh) with their default
lock: threads that call an object whose calls are guarded by a `lock_guard` on a `spin_lock`.

The lock is that of `Spin.Model`, with its memory model; its non-atomic data is the state of the backing allocator. What a call does to that
state is not one step: a call is a program that accesses the state any number of times, and other threads run between two accesses.
-/
namespace Verif.Synced

variable {S C L A : Type}

/-- How the wrapper calls the backing object. -/
inductive Kind (A : Type) where
  /-- `auto lg = cc::lock_guard(_lock); return _backing.call(...)` -/
  | guarded
  /-- `_backing.call(...)` without the lock -/
  | bare
  /-- nothing but the answer -/
  | nothing (a : A)

/-- An object: `S` its state, `C` the calls with their arguments, `L` what a running call knows, `A` the answers. `micro` is the next access to the
state by a running call, which goes on or answers. -/
structure Obj (S C L A : Type) where
  kind : C → Kind A
  start : C → L
  micro : L → S → R (S × (L ⊕ A))

/-- Where a thread is. -/
inductive Phase (C L A : Type) where
  | idle
  /-- in the constructor of the `lock_guard` (lock_guard.hh:10) -/
  | entering (c : C)
  /-- in the call of the backing object, with the lock -/
  | body (c : C) (l : L)
  /-- at the end of the scope, before the destructor of the `lock_guard` (lock_guard.hh:11) -/
  | leaving (c : C) (a : A)
  /-- in the call of the backing object, without the lock -/
  | bare (c : C) (l : L)

/-- What happens (ghost): a call begins, takes effect, returns. -/
inductive Ev (C A : Type) where
  | inv (t : Nat) (c : C)
  | lin (t : Nat) (c : C) (a : A)
  | ret (t : Nat) (c : C) (a : A)
deriving DecidableEq

/-- Lock and state, threads, and what has happened (newest first). -/
structure World (S C L A : Type) where
  spin : Spin.State S
  phase : Nat → Phase C L A
  events : List (Ev C A)

/-- A fresh object in state `d`. -/
def init (d : S) : World S C L A := { spin := Spin.init d, phase := fun _ => .idle, events := [] }

/-- What the schedule does with a thread: it begins a call, or takes its next step; `k` picks the value of a relaxed load. -/
inductive Act (C : Type) where
  | call (c : C)
  | go (k : Nat)

/-- Begin a call. Guarded: synced_tlsf_allocator.hh:20-48, 53-57 and synced_virtual_linear_allocator.hh:21-31, 35-39, 43-55; bare: `initialize`
(synced_tlsf_allocator.hh:52, synced_virtual_linear_allocator.hh:19) and the calls through `get_backing` (57); nothing: `free`
(synced_virtual_linear_allocator.hh:33). -/
def begin' (o : Obj S C L A) (w : World S C L A) (t : Nat) (c : C) : R (World S C L A) :=
  match o.kind c with
  | .guarded => do
    let s ← Spin.step w.spin t .guard
    .ok { spin := s, phase := Spin.upd w.phase t (.entering c), events := .inv t c :: w.events }
  | .bare => .ok { spin := w.spin, phase := Spin.upd w.phase t (.bare c (o.start c)), events := .inv t c :: w.events }
  | .nothing a => .ok { w with events := .ret t c a :: .lin t c a :: .inv t c :: w.events }

/-- The next step in the constructor of the guard. -/
def enter (o : Obj S C L A) (w : World S C L A) (t k : Nat) (c : C) : R (World S C L A) := do
  let s ← Spin.step w.spin t (.go k)
  .ok { w with spin := s, phase := if (s.threads t).guard then Spin.upd w.phase t (.body c (o.start c)) else w.phase }

/-- The next access; a race is undefined (`Spin.access`), and so is going on after it. -/
def access (o : Obj S C L A) (w : World S C L A) (t : Nat) (l : L) : R (Spin.State S × (L ⊕ A)) := do
  let s ← Spin.step w.spin t (.access id)
  let (d, x) ← o.micro l s.data
  .ok ({ s with data := d }, x)

/-- The next access with the lock; after the last one the call has taken effect. -/
def work (o : Obj S C L A) (w : World S C L A) (t : Nat) (c : C) (l : L) : R (World S C L A) := do
  let (s, x) ← access o w t l
  match x with
  | .inl l => .ok { w with spin := s, phase := Spin.upd w.phase t (.body c l) }
  | .inr a => .ok { spin := s, phase := Spin.upd w.phase t (.leaving c a), events := .lin t c a :: w.events }

/-- The destructor of the guard, and return. -/
def leave (w : World S C L A) (t : Nat) (c : C) (a : A) : R (World S C L A) := do
  let s ← Spin.step w.spin t .endGuard
  .ok { spin := s, phase := Spin.upd w.phase t .idle, events := .ret t c a :: w.events }

/-- The next access without the lock. -/
def workBare (o : Obj S C L A) (w : World S C L A) (t : Nat) (c : C) (l : L) : R (World S C L A) := do
  let (s, x) ← access o w t l
  match x with
  | .inl l => .ok { w with spin := s, phase := Spin.upd w.phase t (.bare c l) }
  | .inr a => .ok { spin := s, phase := Spin.upd w.phase t .idle, events := .ret t c a :: .lin t c a :: w.events }

/-- One step of thread `t`; a thread that is in a call cannot begin another one. -/
def step (o : Obj S C L A) (w : World S C L A) (t : Nat) : Act C → R (World S C L A)
  | .call c =>
    match w.phase t with
    | .idle => begin' o w t c
    | _ => .ok w
  | .go k =>
    match w.phase t with
    | .idle => .ok w
    | .entering c => enter o w t k c
    | .body c l => work o w t c l
    | .leaving c a => leave w t c a
    | .bare c l => workBare o w t c l

/-- A schedule. -/
def run (o : Obj S C L A) (w : World S C L A) : List (Nat × Act C) → R (World S C L A)
  | [] => .ok w
  | (t, a) :: as => do
    let w ← step o w t a
    run o w as

end Verif.Synced
