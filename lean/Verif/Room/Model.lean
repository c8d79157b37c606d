/-!
Model of how the containers ask for the memory of their elements: array.hh, vector.hh, alloc_array.hh, alloc_vector.hh, detail/vector_base.hh, sbo_string.hh, fwd_array.hh,
experimental/chunked_buffer.hh, on top of `system_malloc`, `system_realloc` and `system_allocator_t` (allocators/system_allocator.hh, system_allocator.cc) as compiled on Linux.

Only sizes are modelled: a block is its number of bytes, and an element is its index; the values of the elements and the addresses are the subject of the other components.
Sizes are natural numbers below 2^64 and products are taken modulo 2^64, as `size_t` does. The C library is a function that says which requests it grants; a granted block
has exactly the requested bytes. `memset` and `memcpy` of zero bytes do nothing, also for a null pointer. Constructors of elements do not throw.
-/
namespace Verif.Room

/-- Ways in which a call does not return: an assertion, undefined behaviour, `std::bad_alloc` and its kind. -/
inductive Stop where
  | assert
  | ub
  | throws
deriving DecidableEq, Repr

abbrev M (α : Type) := Except Stop α

/-- Results can be compared (used only to check concrete examples). -/
instance {α : Type} [DecidableEq α] : DecidableEq (M α)
  | .ok a, .ok b => if h : a = b then isTrue (by rw [h]) else isFalse (fun e => h (by injection e))
  | .error a, .error b => if h : a = b then isTrue (by rw [h]) else isFalse (fun e => h (by injection e))
  | .ok _, .error _ => isFalse (fun e => by injection e)
  | .error _, .ok _ => isFalse (fun e => by injection e)

/-- A pointer to elements: null, or a block of so many bytes. -/
abbrev Ptr := Option Nat

/-- Which requests (in bytes) the C library grants. -/
abbrev Lib := Nat → Bool

/-- `a * b` of type `size_t`. -/
def mul (a b : Nat) : Nat := a * b % 2 ^ 64

/-- `a + b` of type `size_t`. -/
def add (a b : Nat) : Nat := (a + b) % 2 ^ 64

/-- `cc::system_malloc` (system_allocator.cc:31-51): null if the request is not granted. -/
def systemMalloc (g : Lib) (bytes : Nat) : Ptr := if g bytes then some bytes else none

/-- `system_allocator_t::alloc` (system_allocator.hh:24-29). -/
def allocatorAlloc (g : Lib) (bytes : Nat) : M Ptr :=
  let r := systemMalloc g bytes
  if r ≠ none ∨ bytes = 0 then .ok r else .error .assert

/-- `memcpy(p, …, bytes)` and `memset(p, 0, bytes)` on the side of the target. -/
def fillBytes (p : Ptr) (bytes : Nat) : M Unit :=
  if bytes = 0 then .ok () else
  match p with
  | none => .error .ub
  | some m => if bytes ≤ m then .ok () else .error .ub

/-- `cc::system_realloc` without `_aligned_realloc` (system_allocator.cc:74-91), of a block with `old` bytes. `malloc_usable_size` is taken to be the number of bytes asked for. -/
def systemRealloc (g : Lib) (old : Ptr) (bytes : Nat) : M Ptr :=
  if 0 < bytes then
    let res := systemMalloc g bytes
    match old with
    | none => .ok res
    | some o => do
      fillBytes res (min o bytes)
      .ok res
  else .ok none

/-- `system_allocator_t::realloc` (system_allocator.hh:33-38). -/
def allocatorRealloc (g : Lib) (old : Ptr) (bytes : Nat) : M Ptr := do
  let r ← systemRealloc g old bytes
  if r ≠ none ∨ bytes = 0 then .ok r else .error .assert

/-- `new char[bytes]`, `new std::byte[bytes]`. -/
def cxxNew (g : Lib) (bytes : Nat) : M Ptr := if g bytes then .ok (some bytes) else .error .throws

/-- `new T[n]`: the compiler checks the size of the array before it asks for memory. -/
def cxxNewArray (g : Lib) (s n : Nat) : M Ptr := if n * s < 2 ^ 64 then cxxNew g (n * s) else .error .throws

/-- Construct, read or write element `i` of size `s`. -/
def elem (p : Ptr) (s i : Nat) : M Unit :=
  match p with
  | none => .error .ub
  | some m => if (i + 1) * s ≤ m then .ok () else .error .ub

/-- The loops that construct elements: `k` of them from `i` on. -/
def construct (p : Ptr) (s : Nat) : Nat → Nat → M Unit
  | _, 0 => .ok ()
  | i, k + 1 => do
    elem p s i
    construct p s (i + 1) k

/-- A container: its elements, and where they are. -/
structure Cont where
  size : Nat
  cap : Nat
  data : Ptr
deriving DecidableEq, Repr

/-- Properties of the type of the elements: `sizeof(T)`, `std::is_trivially_constructible_v<T>`, and whether `vector` may use `realloc` for it. -/
structure Elem where
  size : Nat
  trivial : Bool
  realloc : Bool
deriving DecidableEq, Repr

/-- How a container with `n` elements is made. -/
inductive How where
  | defaulted
  | uninitialized
  | filled
deriving DecidableEq, Repr

/-- `container_default_construct_or_zeroed` (detail/container_impl_util.hh:47-60). -/
def defaultConstruct (p : Ptr) (T : Elem) (n : Nat) : M Unit :=
  if T.trivial then fillBytes p (mul n T.size) else construct p T.size 0 n

/-- `array(size)`, `array::uninitialized`, `array::filled` (array.hh:97-131) with `_alloc` (240). -/
def array (g : Lib) (T : Elem) (how : How) (n : Nat) : M Cont := do
  let p ← allocatorAlloc g (mul n T.size)
  match how with
  | .defaulted => defaultConstruct p T n
  | .uninitialized => .ok ()
  | .filled => construct p T.size 0 n
  .ok { size := n, cap := n, data := p }

/-- `alloc_array(size)`, `alloc_array::uninitialized`, `alloc_array::filled` with the system allocator (alloc_array.hh:23-53) with `_alloc` (196). -/
def allocArray (g : Lib) (T : Elem) (how : How) (n : Nat) : M Cont := do
  let p ← allocatorAlloc g (mul n T.size)
  match how with
  | .defaulted => if T.trivial then .ok () else construct p T.size 0 n
  | .uninitialized => .ok ()
  | .filled => construct p T.size 0 n
  .ok { size := n, cap := n, data := p }

/-- `_alloc` of `vector` (`checked = false`, vector_base.hh:43) and of `alloc_vector` with the system allocator (`checked = true`, vector_base.hh:30). -/
def vecAlloc (g : Lib) (checked : Bool) (T : Elem) (n : Nat) : M Ptr :=
  if checked then allocatorAlloc g (mul n T.size) else .ok (systemMalloc g (mul n T.size))

/-- `_realloc` of both (vector_base.hh:32-36, 45-49). -/
def vecRealloc (g : Lib) (checked : Bool) (T : Elem) (p : Ptr) (n : Nat) : M Ptr :=
  if checked then allocatorRealloc g p (mul n T.size) else systemRealloc g p (mul n T.size)

/-- `vector_base::reserve` (vector_base.hh:245-274). Moving the elements to the new block needs room for all of them there. -/
def reserve (g : Lib) (checked : Bool) (T : Elem) (c : Cont) (n : Nat) : M Cont :=
  if ¬ n ≤ 2 ^ 48 then .error .assert else
  if n ≤ c.cap then .ok c else
  let newCap := if mul c.cap 2 < n then n else mul c.cap 2
  if T.realloc then do
    let p ← vecRealloc g checked T c.data newCap
    .ok { c with data := p, cap := newCap }
  else do
    let p ← vecAlloc g checked T newCap
    construct p T.size 0 c.size
    .ok { c with data := p, cap := newCap }

/-- `vector_base::resize(new_size, value)` to a size that is not smaller (vector_base.hh:287-297). -/
def grow (g : Lib) (checked : Bool) (T : Elem) (c : Cont) (n : Nat) : M Cont := do
  let c ← if c.cap < n then reserve g checked T c n else .ok c
  construct c.data T.size c.size (n - c.size)
  .ok { c with size := n }

/-- `vector(size)`, `vector::uninitialized`, `vector::filled` (vector.hh:18-43) and the same of `alloc_vector` (alloc_vector.hh:19-47). -/
def vector (g : Lib) (checked : Bool) (T : Elem) (how : How) (n : Nat) : M Cont :=
  match how with
  | .defaulted => do
    let p ← vecAlloc g checked T n
    defaultConstruct p T n
    .ok { size := n, cap := n, data := p }
  | .uninitialized => do
    let p ← vecAlloc g checked T n
    .ok { size := n, cap := n, data := p }
  | .filled => grow g checked T { size := 0, cap := 0, data := none } n

/-- `vector_base::emplace_back` (vector_base.hh:116-151). The element is constructed elsewhere first or directly at its place, which makes no difference for the memory. -/
def push (g : Lib) (checked : Bool) (T : Elem) (c : Cont) : M Cont :=
  if c.size = c.cap then
    let newCap := if c.cap = 0 then 1 else mul c.cap 2
    if T.realloc ∧ T.size ≤ 512 then do
      let p ← vecRealloc g checked T c.data newCap
      elem p T.size c.size
      .ok { size := c.size + 1, cap := newCap, data := p }
    else do
      let p ← vecAlloc g checked T newCap
      elem p T.size c.size
      construct p T.size 0 c.size
      .ok { size := c.size + 1, cap := newCap, data := p }
  else do
    elem c.data T.size c.size
    .ok { c with size := c.size + 1 }

/-- `fwd_array(size)`, `fwd_array::uninitialized`, `fwd_array::filled` (fwd_array.hh:24-50). -/
def fwdArray (g : Lib) (T : Elem) (n : Nat) : M Cont := do
  let p ← cxxNewArray g T.size n
  construct p T.size 0 n
  .ok { size := n, cap := n, data := p }

/-- `sbo_string::uninitialized` and `sbo_string::filled` (sbo_string.hh:122-136), `reserve` (254-260), `resize` (270-279), `_reserve_force` (750-763): short strings are
stored in the object itself, which has room for `sbo` characters and a zero. -/
def string (g : Lib) (sbo : Nat) (fill : Bool) (n : Nat) : M Cont := do
  let c : Cont ←
    if n ≤ sbo then .ok { size := 0, cap := sbo, data := some (sbo + 1) }
    else do
      let p ← cxxNew g (add n 1)
      fillBytes p 1
      .ok { size := 0, cap := n, data := p }
  if fill ∧ 0 < n then fillBytes c.data n
  elem c.data 1 n
  .ok { c with size := n }

/-- `set_chunk_size(n)` and then as many `emplace_back` of `chunked_buffer` as fit into the first chunk (experimental/chunked_buffer.hh:30-49, 64-68, 145). -/
def chunk (g : Lib) (T : Elem) (n : Nat) : M Cont :=
  if ¬ 0 < n then .error .assert else do
  let p ← cxxNew g (mul n T.size)
  construct p T.size 0 n
  .ok { size := n, cap := n, data := p }

/-- `operator[]` and access to the element (array.hh:205-214, alloc_array.hh:160-169, vector_base.hh:100-109, sbo_string.hh:65-74, fwd_array.hh:105-114). -/
def at' (T : Elem) (c : Cont) (i : Nat) : M Unit := if i < c.size then elem c.data T.size i else .error .assert

end Verif.Room
