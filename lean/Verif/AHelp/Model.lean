import Verif.SysAlloc.Model

/-!
Model of the functions of `cc::allocator` that are the same for every allocator (/repo/src/clean-core/allocator.hh and .cc): objects, arrays with and without
a stored size, copies of strings and data, the default `realloc`; and of `cc::temp_cstr` (/repo/src/clean-core/temp_cstr.hh and .cc), which uses them.

The allocator itself is a parameter (see `Spec.Good` for what is assumed about it). Memory and blocks are those of `SysAlloc.Model`. An object is its bytes;
objects with a destructor are also kept by their address, so that losing one or destroying one twice is seen. Constructors and destructors do nothing else.
Loops whose counter may wrap around get a number of rounds; `none` means that the rounds did not suffice.

`strict` says that the program is compiled by a compiler that takes the standard by the letter: a `size_t` must not be accessed at an address that is not a
multiple of 8, and `memcpy` and `memset` must not be called with null even for size 0.
-/
namespace Verif.AHelp
open Verif.Alloc (Mem)
open Verif.SysAlloc (Heap Blk)

abbrev Byte := BitVec 8

/-- A type: `sizeof`, `alignof`, whether it is trivially constructible and trivially destructible, and the bytes of `T()`. -/
structure Elem where
  size : Nat
  align : Nat
  tctor : Bool
  tdtor : Bool
  dflt : List Byte
deriving DecidableEq, Repr

/-- The virtual functions of an allocator: `alloc(size, align)` gives null or an address and the size of the block, or it asserts;
`get_allocation_size` gives the size of the block, if `sizes`. -/
structure Al where
  alloc : Heap → BitVec 64 → BitVec 64 → R (Option (Nat × Nat))
  sizes : Bool

/-- The memory, the objects with a destructor, and the number of them whose memory was reused or given back before their destructor ran. -/
structure St where
  heap : Heap
  objs : Nat → Option Elem
  lost : Nat

/-! ### memory and objects -/

/-- Store bytes. -/
def putBytes (m : Mem) (a : Nat) (bs : List Byte) : Mem := fun x => if a ≤ x then (bs[x - a]?).getD (m x) else m x

/-- `memcpy` of bytes from elsewhere. -/
def store (h : Heap) (a : Nat) (bs : List Byte) : R Heap := if h.has a bs.length then .ok { h with mem := putBytes h.mem a bs } else .error .ub

/-- `memset(a, 0, n)`. -/
def memset (h : Heap) (a n : Nat) : R Heap := if h.has a n then .ok { h with mem := fun x => if a ≤ x ∧ x < a + n then 0 else h.mem x } else .error .ub

/-- How many objects are in `[a, a + n)`. -/
def countIn (objs : Nat → Option Elem) (a n : Nat) : Nat := (List.range n).countP fun k => (objs (a + k)).isSome

/-- Placement new of an object with bytes `bs`. -/
def construct (s : St) (E : Elem) (a : Nat) (bs : List Byte) : R St :=
  if a % E.align = 0 then do
    let h ← store s.heap a bs
    .ok { heap := h, objs := fun x => if x = a ∧ E.tdtor = false then some E else if a ≤ x ∧ x < a + E.size then none else s.objs x, lost := s.lost + countIn s.objs a E.size }
  else .error .ub

/-- `p->~T()` of a type with a destructor. -/
def destroy (s : St) (E : Elem) (a : Nat) : R St :=
  if s.objs a = some E then .ok { s with objs := fun x => if x = a then none else s.objs x } else .error .ub

/-- `alloc` of the allocator. -/
def allocate (A : Al) (s : St) (size align : BitVec 64) : R (St × Option Nat) := do
  match ← A.alloc s.heap size align with
  | none => .ok (s, none)
  | some (a, u) => .ok ({ s with heap := s.heap.add a u }, some a)

/-- `free` of the allocator: the pointer must be null or one that `alloc` returned. -/
def free (s : St) : Option Nat → R St
  | none => .ok s
  | some a => do
    let n ← SysAlloc.usable s.heap a
    let h ← s.heap.release a
    .ok { heap := h, objs := fun x => if a ≤ x ∧ x < a + n then none else s.objs x, lost := s.lost + countIn s.objs a n }

/-- A `size_t` can be accessed at address `a`. -/
def sizeTOk (strict : Bool) (a : Nat) : R Unit := if strict = true ∧ a % 8 ≠ 0 then .error .ub else .ok ()

/-- The arguments of `memcpy` and `memset` are not null. -/
def notNull (strict : Bool) (null : Bool) : R Unit := if strict = true ∧ null = true then .error .ub else .ok ()

/-! ### allocator.hh -/

/-- `new_t` (allocator.hh:114-120); placement new on null is undefined. -/
def newT (A : Al) (s : St) (E : Elem) (v : List Byte) : R (St × Option Nat) := do
  let (s, p) ← allocate A s (BitVec.ofNat 64 E.size) (BitVec.ofNat 64 E.align)
  match p with
  | none => .error .ub
  | some a => do
    let s ← construct s E a v
    .ok (s, some a)

/-- `delete_t` (allocator.hh:122-135). -/
def deleteT (s : St) (E : Elem) : Option Nat → R St
  | none => .ok s
  | some a => do
    let s ← (if E.tdtor then .ok s else destroy s E a : R St)
    free s (some a)

/-- `detail::get_array_padding` (allocator.hh:106-109). -/
def padding (size : Nat) : Nat := if 8 ≤ size then size else size * (1 + 8 / size)

/-- The loops of `new_array` and `new_array_sized` (allocator.hh:151-152, 196-197), from `i` on; the counter has 32 bits. -/
def ctorLoop (E : Elem) (p : Nat) (n : BitVec 64) : Nat → BitVec 32 → St → R (Option St)
  | f, i, s => if i.setWidth 64 < n then
      match f with
      | 0 => .ok none
      | f + 1 => do
        let s ← construct s E (p + E.size * i.toNat) E.dflt
        ctorLoop E p n f (i + 1#32) s
    else .ok (some s)

/-- The loops of `delete_array` and `delete_array_sized` (allocator.hh:178-179, 217-218). -/
def dtorLoop (E : Elem) (p : Nat) (n : BitVec 64) : Nat → BitVec 32 → St → R (Option St)
  | f, i, s => if i.setWidth 64 < n then
      match f with
      | 0 => .ok none
      | f + 1 => do
        let s ← destroy s E (p + E.size * i.toNat)
        dtorLoop E p n f (i + 1#32) s
    else .ok (some s)

/-- The end of `new_array` and `new_array_sized` (allocator.hh:149-158, 194-203); `none` is null, where only no elements can be. -/
def initArray (strict : Bool) (rounds : Nat) (s : St) (E : Elem) (p : Option Nat) (n : BitVec 64) : R (Option St) :=
  if E.tctor then do
    notNull strict p.isNone
    match p with
    | none => if (BitVec.ofNat 64 E.size * n).toNat = 0 then .ok (some s) else .error .ub
    | some a => do
      let h ← memset s.heap a (BitVec.ofNat 64 E.size * n).toNat
      .ok (some { s with heap := h })
  else
    match p with
    | none => if n = 0 then .ok (some s) else .error .ub
    | some a => ctorLoop E a n rounds 0#32 s

/-- `new_array` (allocator.hh:137-161). -/
def newArray (A : Al) (strict : Bool) (rounds : Nat) (s : St) (E : Elem) (n : BitVec 64) : R (Option (St × Option Nat)) := do
  let (s, p) ← allocate A s (BitVec.ofNat 64 E.size * n + BitVec.ofNat 64 (padding E.size)) (BitVec.ofNat 64 E.align)
  match p with
  | none => .error .ub
  | some buf => do
    sizeTOk strict buf
    let h ← s.heap.write64 buf n
    match ← initArray strict rounds { s with heap := h } E (some (buf + padding E.size)) n with
    | none => .ok none
    | some s => .ok (some (s, some (buf + padding E.size)))

/-- `delete_array` (allocator.hh:163-183). -/
def deleteArray (strict : Bool) (rounds : Nat) (s : St) (E : Elem) : Option Nat → R (Option St)
  | none => .ok (some s)
  | some p => do
    sizeTOk strict (p - padding E.size)
    let n ← s.heap.read64 (p - padding E.size)
    match ← (if E.tdtor then .ok (some s) else dtorLoop E p n rounds 0#32 s : R (Option St)) with
    | none => .ok none
    | some s => do
      let s ← free s (some (p - padding E.size))
      .ok (some s)

/-- `new_array_sized` (allocator.hh:186-206). -/
def newArraySized (A : Al) (strict : Bool) (rounds : Nat) (s : St) (E : Elem) (n : BitVec 64) : R (Option (St × Option Nat)) := do
  let (s, p) ← allocate A s (BitVec.ofNat 64 E.size * n) (BitVec.ofNat 64 E.align)
  match ← initArray strict rounds s E p n with
  | none => .ok none
  | some s => .ok (some (s, p))

/-- `delete_array_sized` (allocator.hh:209-225). -/
def deleteArraySized (rounds : Nat) (s : St) (E : Elem) (n : BitVec 64) : Option Nat → R (Option St)
  | none => .ok (some s)
  | some p => do
    match ← (if E.tdtor then .ok (some s) else dtorLoop E p n rounds 0#32 s : R (Option St)) with
    | none => .ok none
    | some s => do
      let s ← free s (some p)
      .ok (some s)

/-- A span or a string view in memory that does not belong to the allocator; `none`: default constructed, with null as data pointer. -/
abbrev View := Option (List Byte)

/-- `alloc_data_copy` (allocator.hh:227-240); `data` are the bytes of the elements. -/
def dataCopy (A : Al) (strict : Bool) (s : St) (E : Elem) (data : View) : R (St × Option Nat) := do
  let (s, p) ← allocate A s (BitVec.ofNat 64 (data.getD []).length) (BitVec.ofNat 64 E.align)
  match p with
  | none => .ok (s, none)
  | some a => do
    notNull strict data.isNone
    let h ← store s.heap a (data.getD [])
    .ok ({ s with heap := h }, some a)

/-! ### allocator.cc -/

/-- `alloc_string_copy` (allocator.cc:12-25). -/
def stringCopy (A : Al) (s : St) (src : View) : R (St × Option Nat) := do
  let (s, p) ← allocate A s (BitVec.ofNat 64 (src.getD []).length + 1#64) 1#64
  match p with
  | none => .error .ub
  | some a => do
    let h ← (if (src.getD []).length > 0 then store s.heap a (src.getD []) else .ok s.heap : R Heap)
    let h ← h.write8 (a + (src.getD []).length) 0
    .ok ({ s with heap := h }, some a)

/-- The default `realloc` (allocator.cc:27-48), also `try_realloc` (52). -/
def realloc (A : Al) (s : St) (ptr : Option Nat) (n align : BitVec 64) : R (St × Option Nat) :=
  if n > 0#64 then do
    let (s, res) ← allocate A s n align
    match ptr with
    | none => .ok (s, res)
    | some a => do
      let old ← SysAlloc.usable s.heap a
      ccAssert A.sizes
      match res with
      | none => .error .ub
      | some r => do
        let h ← s.heap.copy r a (min old n.toNat)
        let s ← free { s with heap := h } (some a)
        .ok (s, res)
  else do
    let s ← free s ptr
    .ok (s, none)

/-! ### temp_cstr -/

/-- `char`. -/
def char : Elem := { size := 1, align := 1, tctor := true, tdtor := true, dflt := [0] }

/-- `std::byte`. -/
def stdByte : Elem := { size := 1, align := 1, tctor := true, tdtor := true, dflt := [0] }

/-- The members of `temp_cstr` (temp_cstr.hh:76-77). -/
structure Cstr where
  data : Option Nat
  alloc : Bool

/-- `init_from_allocator` (temp_cstr.cc:33-41). -/
def initFromAllocator (A : Al) (strict : Bool) (rounds : Nat) (s : St) (sv : View) : R (Option (St × Cstr)) := do
  match ← newArray A strict rounds s char (BitVec.ofNat 64 (sv.getD []).length + 1#64) with
  | none => .ok none
  | some (_, none) => .error .ub
  | some (s, some a) => do
    notNull strict sv.isNone
    let h ← store s.heap a (sv.getD [])
    let h ← h.write8 (a + (sv.getD []).length) 0
    .ok (some ({ s with heap := h }, { data := some a, alloc := true }))

/-- The constructor from a string view (temp_cstr.cc:5-9); `have` says whether the allocator is not null. -/
def cstrCtor (A : Al) (strict : Bool) (rounds : Nat) (s : St) (sv : View) («have» : Bool) : R (Option (St × Cstr)) := do
  ccAssert «have»
  initFromAllocator A strict rounds s sv

/-- The constructors with a buffer (temp_cstr.cc:11-31) at address `b` of size `n`. -/
def cstrCtorIn (A : Al) (strict : Bool) (rounds : Nat) (s : St) (sv : View) (b n : Nat) («have» : Bool) : R (Option (St × Cstr)) :=
  if (sv.getD []).length < n then do
    notNull strict sv.isNone
    let h ← store s.heap b (sv.getD [])
    let h ← h.write8 (b + (sv.getD []).length) 0
    .ok (some ({ s with heap := h }, { data := some b, alloc := false }))
  else do
    ccAssert «have»
    initFromAllocator A strict rounds s sv

/-- The destructor (temp_cstr.hh:68-73). -/
def cstrDtor (strict : Bool) (rounds : Nat) (s : St) (c : Cstr) : R (Option St) :=
  if c.data.isSome && c.alloc then deleteArray strict rounds s stdByte c.data else .ok (some s)

/-- The C string at `a`, as an external function reads it: up to the first zero, which must come within the first `n + 1` bytes. -/
def cstrAt (h : Heap) (a : Nat) : Nat → R (List Byte)
  | 0 => do
    let v ← h.read8 a
    if v = 0 then .ok [] else .error .ub
  | n + 1 => do
    let v ← h.read8 a
    if v = 0 then .ok []
    else do
      let l ← cstrAt h (a + 1) n
      .ok (v :: l)

/-- `external_fun(temp)`, and the end of the temporary. -/
def cstrUse (strict : Bool) (rounds : Nat) (s : St) (n : Nat) (c : Cstr) : R (Option (St × List Byte)) :=
  match c.data with
  | none => .error .ub
  | some a => do
    let l ← cstrAt s.heap a n
    match ← cstrDtor strict rounds s c with
    | none => .ok none
    | some s => .ok (some (s, l))

/-! ### a program -/

/-- The memory and the pointers of the program. -/
structure World where
  st : St
  vars : Nat → Option Nat

/-- Nothing allocated, all pointers null. -/
def World.init (m : Mem) : World := { st := { heap := { mem := m, blocks := [] }, objs := fun _ => none, lost := 0 }, vars := fun _ => none }

/-- Store a pointer. -/
def World.put (w : World) (s : St) (i : Nat) (p : Option Nat) : World := { st := s, vars := fun j => if j = i then p else w.vars j }

/-- The calls; `i` is the variable that holds the pointer. -/
inductive Op where
  | newT (i : Nat) (E : Elem) (v : List Byte)
  | deleteT (i : Nat) (E : Elem)
  | newArray (i : Nat) (E : Elem) (n : BitVec 64)
  | deleteArray (i : Nat) (E : Elem)
  | newArraySized (i : Nat) (E : Elem) (n : BitVec 64)
  | deleteArraySized (i : Nat) (E : Elem) (n : BitVec 64)
  | dataCopy (i : Nat) (E : Elem) (data : View)
  | stringCopy (i : Nat) (src : View)
  | alloc (i : Nat) (n align : BitVec 64)
  | realloc (i : Nat) (n align : BitVec 64)
  | free (i : Nat)
  /-- `external_fun(temp_cstr(sv, allocator))`; `have`: the allocator is not null -/
  | cstr (sv : View) («have» : Bool)
  /-- `external_fun(temp_cstr(sv, buffer, allocator))` with the first `n` bytes behind pointer `i` as buffer -/
  | cstrIn (sv : View) (i n : Nat) («have» : Bool)
  | write (i off : Nat) (v : Byte)
  | read (i off : Nat)

/-- What a call returns. -/
inductive Obs where
  | none
  /-- a pointer, null or not -/
  | ptr (ok : Bool)
  | byte (v : Byte)
  /-- what the external function saw -/
  | str (l : List Byte)
deriving DecidableEq, Repr

/-- The pointer in variable `i`; using null is undefined. -/
def World.deref (w : World) (i : Nat) : R Nat :=
  match w.vars i with
  | some a => .ok a
  | none => .error .ub

/-- Keep the new pointer in variable `i`. -/
def World.keep (w : World) (i : Nat) (r : St × Option Nat) : World × Obs := (w.put r.1 i r.2, .ptr r.2.isSome)

/-- Variable `i` is null from now on. -/
def World.drop (w : World) (i : Nat) (s : St) : World × Obs := (w.put s i none, .none)

/-- Run one call. -/
def step (A : Al) (strict : Bool) (rounds : Nat) (w : World) : Op → R (Option (World × Obs))
  | .newT i E v => do
    let r ← newT A w.st E v
    .ok (some (w.keep i r))
  | .deleteT i E => do
    let s ← deleteT w.st E (w.vars i)
    .ok (some (w.drop i s))
  | .newArray i E n => do
    let r ← newArray A strict rounds w.st E n
    .ok (r.map (w.keep i))
  | .deleteArray i E => do
    let s ← deleteArray strict rounds w.st E (w.vars i)
    .ok (s.map (w.drop i))
  | .newArraySized i E n => do
    let r ← newArraySized A strict rounds w.st E n
    .ok (r.map (w.keep i))
  | .deleteArraySized i E n => do
    let s ← deleteArraySized rounds w.st E n (w.vars i)
    .ok (s.map (w.drop i))
  | .dataCopy i E d => do
    let r ← dataCopy A strict w.st E d
    .ok (some (w.keep i r))
  | .stringCopy i src => do
    let r ← stringCopy A w.st src
    .ok (some (w.keep i r))
  | .alloc i n al => do
    let r ← allocate A w.st n al
    .ok (some (w.keep i r))
  | .realloc i n al => do
    let r ← realloc A w.st (w.vars i) n al
    .ok (some (w.keep i r))
  | .free i => do
    let s ← free w.st (w.vars i)
    .ok (some (w.drop i s))
  | .cstr sv hv => do
    match ← cstrCtor A strict rounds w.st sv hv with
    | none => .ok none
    | some (s, c) => do
      let r ← cstrUse strict rounds s (sv.getD []).length c
      .ok (r.map fun r => ({ w with st := r.1 }, .str r.2))
  | .cstrIn sv i n hv => do
    let b ← w.deref i
    match ← cstrCtorIn A strict rounds w.st sv b n hv with
    | none => .ok none
    | some (s, c) => do
      let r ← cstrUse strict rounds s (sv.getD []).length c
      .ok (r.map fun r => ({ w with st := r.1 }, .str r.2))
  | .write i off v => do
    let a ← w.deref i
    let h ← w.st.heap.write8 (a + off) v
    .ok (some ({ w with st := { w.st with heap := h } }, .none))
  | .read i off => do
    let a ← w.deref i
    let v ← w.st.heap.read8 (a + off)
    .ok (some (w, .byte v))

/-- Run a history. -/
def run (A : Al) (strict : Bool) (rounds : Nat) (w : World) : List Op → R (Option (World × List Obs))
  | [] => .ok (some (w, []))
  | op :: ops => do
    match ← step A strict rounds w op with
    | none => .ok none
    | some (w, o) => do
      let r ← run A strict rounds w ops
      .ok (r.map fun r => (r.1, o :: r.2))

end Verif.AHelp
