import Verif.Common

/-!
Memory with object lifetimes, shared by the models of the containers.

A block of memory is an array of slots for elements of one type `T`; a slot is raw storage, a live
object with a value, or an object that has been moved from (still alive, i.e. it has to be destroyed, but its value
may not be relied on). Reading, moving from, assigning to or destroying something that is not alive,
constructing over an object that is still alive, leaving the bounds of a block, using a freed block and freeing
twice are `Fault.ub`. Freeing a block with objects still alive in it is not undefined behaviour in
C++, but those destructors never run: they are counted in `leaked`.

`triv` says whether `T` is trivially copyable (hence trivially destructible). For such types moving is copying, bytes may be
copied over anything and destructors need not run.

Simplifications: allocation never fails; addresses are block numbers that are never reused (so a use after free is always
noticed); alignment is not modelled here; user-provided constructors do not throw and do not touch the
container.
-/
namespace Verif.Mem

/-- Storage for one element. -/
inductive Slot (α : Type) where
  /-- no object here (never constructed, or destroyed) -/
  | raw
  /-- an object with this value -/
  | live (a : α)
  /-- an object that has been moved from -/
  | moved
deriving DecidableEq, Repr

/-- There is an object in the slot. -/
def Slot.alive {α} : Slot α → Bool
  | .raw => false
  | .live _ => true
  | .moved => true

/-- The heap. -/
structure Heap (α : Type) where
  /-- contents of the allocated blocks -/
  blocks : Nat → Option (List (Slot α))
  /-- number of the next block to be allocated -/
  next : Nat
  /-- objects whose storage was freed without running their destructor -/
  leaked : Nat

/-- A pointer to the start of a block; `none` is `nullptr`. -/
abbrev Ptr := Option Nat

/-- No allocations yet. -/
def Heap.init {α} : Heap α := { blocks := fun _ => none, next := 0, leaked := 0 }

variable {α : Type}

/-- Overwrite the contents of a block. -/
def Heap.set (h : Heap α) (b : Nat) (s : List (Slot α)) : Heap α :=
  { h with blocks := fun x => if x = b then some s else h.blocks x }

/-- Make a block unusable. -/
def Heap.unset (h : Heap α) (b : Nat) : Heap α :=
  { h with blocks := fun x => if x = b then none else h.blocks x }

/-- `system_malloc` / `allocator::alloc` for `n` elements (allocators/system_allocator.cc:32-52). -/
def alloc (h : Heap α) (n : Nat) : Ptr × Heap α :=
  (some h.next, { (h.set h.next (List.replicate n .raw)) with next := h.next + 1 })

/-- `system_free` / `allocator::free` (allocators/system_allocator.cc:112-125); `nullptr` is allowed. -/
def free (triv : Bool) (h : Heap α) : Ptr → R (Heap α)
  | none => .ok h
  | some b =>
    match h.blocks b with
    | none => .error .ub
    | some s => .ok { (h.unset b) with leaked := h.leaked + if triv then 0 else (s.filter Slot.alive).length }

/-- The slots of a block. -/
def slots (h : Heap α) : Ptr → R (List (Slot α))
  | none => .error .ub
  | some b =>
    match h.blocks b with
    | none => .error .ub
    | some s => .ok s

/-- Look at slot `i` of a block. -/
def get (h : Heap α) (p : Ptr) (i : Nat) : R (Slot α) := do
  let s ← slots h p
  match s[i]? with
  | some x => .ok x
  | none => .error .ub

/-- Overwrite slot `i` of a block. -/
def put (h : Heap α) (p : Ptr) (i : Nat) (x : Slot α) : R (Heap α) :=
  match p with
  | none => .error .ub
  | some b =>
    match h.blocks b with
    | none => .error .ub
    | some s => if i < s.length then .ok (h.set b (s.set i x)) else .error .ub

/-- `new (&p[i]) T(a)`. -/
def construct (triv : Bool) (h : Heap α) (p : Ptr) (i : Nat) (a : α) : R (Heap α) := do
  let s ← get h p i
  if triv || !s.alive then put h p i (.live a) else .error .ub

/-- `p[i].~T()`. -/
def destroy (h : Heap α) (p : Ptr) (i : Nat) : R (Heap α) := do
  let s ← get h p i
  if s.alive then put h p i .raw else .error .ub

/-- Read the value of `p[i]`. -/
def read (h : Heap α) (p : Ptr) (i : Nat) : R α := do
  match ← get h p i with
  | .live a => .ok a
  | _ => .error .ub

/-- `cc::move(p[i])` consumed by a constructor or assignment. -/
def take (triv : Bool) (h : Heap α) (p : Ptr) (i : Nat) : R (α × Heap α) := do
  let a ← read h p i
  if triv then .ok (a, h) else do
    let h ← put h p i .moved
    .ok (a, h)

/-- `p[i] = a`. -/
def assign (h : Heap α) (p : Ptr) (i : Nat) (a : α) : R (Heap α) := do
  let s ← get h p i
  if s.alive then put h p i (.live a) else .error .ub

/-- `p[i] = cc::move(q[j])`; moving an object into itself leaves it in a moved-from state. -/
def moveAssign (triv : Bool) (h : Heap α) (p : Ptr) (i : Nat) (q : Ptr) (j : Nat) : R (Heap α) :=
  if p = q ∧ i = j then do
    let s ← get h p i
    if s.alive then (if triv then .ok h else put h p i .moved) else .error .ub
  else do
    let (a, h) ← take triv h q j
    assign h p i a

/-- `std::memmove(&p[i], &q[j], n * sizeof(T))`, also `std::memcpy` between different blocks. -/
def memmove (h : Heap α) (p : Ptr) (i : Nat) (q : Ptr) (j : Nat) (n : Nat) : R (Heap α) := do
  let src ← slots h q
  let dst ← slots h p
  match p with
  | none => .error .ub
  | some b =>
    if j + n ≤ src.length ∧ i + n ≤ dst.length then
      .ok (h.set b (dst.take i ++ (src.drop j).take n ++ dst.drop (i + n)))
    else .error .ub

/-- `std::memcpy(&p[i], &q[j], n * sizeof(T))`: the ranges must not overlap. -/
def memcpy (h : Heap α) (p : Ptr) (i : Nat) (q : Ptr) (j : Nat) (n : Nat) : R (Heap α) :=
  if p = q ∧ i < j + n ∧ j < i + n then .error .ub else memmove h p i q j n

/-- `system_realloc` (allocators/system_allocator.cc:54-94, the portable branch): allocate, copy the bytes that fit, free the
old block; a size of zero only frees. Only used for trivially copyable types. -/
def realloc (h : Heap α) (p : Ptr) (n : Nat) : R (Ptr × Heap α) := do
  if n = 0 then do
    let h ← free true h p
    .ok (none, h)
  else
    let (q, h) := alloc h n
    match p with
    | none => .ok (q, h)
    | some _ => do
      let old ← slots h p
      let h ← memcpy h q 0 p 0 (min old.length n)
      let h ← free true h p
      .ok (q, h)

/-! ### detail/container_impl_util.hh -/

/-- The loop of `container_move_construct_range` (container_impl_util.hh:26-27), `k` elements from index `i` on. -/
def moveConstructLoop (h : Heap α) (src dst : Ptr) (i : Nat) : Nat → R (Heap α)
  | 0 => .ok h
  | k + 1 => do
    let (a, h) ← take false h src i
    let h ← construct false h dst i a
    moveConstructLoop h src dst (i + 1) k

/-- `container_move_construct_range` (container_impl_util.hh:14-29). -/
def moveConstructRange (triv : Bool) (h : Heap α) (src : Ptr) (num : Nat) (dst : Ptr) : R (Heap α) :=
  if triv then (if num > 0 then memcpy h dst 0 src 0 num else .ok h)
  else moveConstructLoop h src dst 0 num

/-- Where the values of a copied range come from: outside the container, or from a block. -/
inductive Src (α : Type) where
  | ext (l : List α)
  | mem (p : Ptr) (off : Nat)

/-- `src[i]`. -/
def readSrc (h : Heap α) (s : Src α) (i : Nat) : R α :=
  match s with
  | .ext l => match l[i]? with
    | some a => .ok a
    | none => .error .ub
  | .mem p off => read h p (off + i)

/-- The loop of `container_copy_construct_range` (container_impl_util.hh:42-43); the destination starts at `dst[d]`. -/
def copyConstructLoop (triv : Bool) (h : Heap α) (src : Src α) (dst : Ptr) (d i : Nat) : Nat → R (Heap α)
  | 0 => .ok h
  | k + 1 => do
    let a ← readSrc h src i
    let h ← construct triv h dst (d + i) a
    copyConstructLoop triv h src dst d (i + 1) k

/-- `container_copy_construct_range` (container_impl_util.hh:31-45). The `memcpy` of trivially copyable
types from outside memory is the same element-wise copy; from a block it is `memcpy`. -/
def copyConstructRange (triv : Bool) (h : Heap α) (src : Src α) (num : Nat) (dst : Ptr) (d : Nat) : R (Heap α) :=
  if triv then
    if num > 0 then
      match src with
      | .ext _ => copyConstructLoop true h src dst d 0 num
      | .mem p off => memcpy h dst d p off num
    else .ok h
  else copyConstructLoop false h src dst d 0 num

/-- `container_copy_construct_fill` (container_impl_util.hh:62-68) and the loops of `resize`: indices `i`, `i+1`, ...; for a
default-constructed or zeroed range (47-60) the value is that of `T()`. -/
def fillLoop (triv : Bool) (h : Heap α) (dst : Ptr) (a : α) (i : Nat) : Nat → R (Heap α)
  | 0 => .ok h
  | k + 1 => do
    let h ← construct triv h dst i a
    fillLoop triv h dst a (i + 1) k

/-- The loop of `container_relocate_construct_range` (container_impl_util.hh:82-88): from the last element (`k-1`) down. `dst` and
`src` are offsets in the same block. -/
def relocateLoop (h : Heap α) (p : Ptr) (dst src : Nat) : Nat → R (Heap α)
  | 0 => .ok h
  | k + 1 => do
    let (a, h) ← take false h p (src + k)
    let h ← construct false h p (dst + k) a
    let h ← destroy h p (src + k)
    relocateLoop h p dst src k

/-- `container_relocate_construct_range` (container_impl_util.hh:70-90). -/
def relocateRange (triv : Bool) (h : Heap α) (p : Ptr) (dst src num : Nat) : R (Heap α) :=
  if triv then (if num > 0 then memmove h p dst p src num else .ok h)
  else relocateLoop h p dst src num

/-- The loop of `container_destroy_reverse` (container_impl_util.hh:98-99): destroys indices `lo+k-1` down to `lo`. -/
def destroyLoop (h : Heap α) (p : Ptr) (lo : Nat) : Nat → R (Heap α)
  | 0 => .ok h
  | k + 1 => do
    let h ← destroy h p (lo + k)
    destroyLoop h p lo k

/-- `container_destroy_reverse` (container_impl_util.hh:92-101): nothing happens if `size <= to`. -/
def destroyReverse (triv : Bool) (h : Heap α) (p : Ptr) (size : Nat) (to_ : Nat := 0) : R (Heap α) :=
  if triv then .ok h else destroyLoop h p to_ (size - to_)

end Verif.Mem
