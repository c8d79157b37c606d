import Verif.Common
/-!
# Collections by what they offer

Model of `/repo/src/clean-core/collection_traits.hh` and of `cc::indices_of` (`/repo/src/clean-core/indices_of.hh`).

A type is described by the functions it offers; its objects are states.  An iterator pair is represented by the list of elements a loop over it visits.
Everything is decided while compiling; what does not compile is `none`.
The element type, references and move semantics are not modelled; elements of all kinds live in one type `α`, and what `operator[]` returns is either
an element or something of another type.
-/
namespace Verif.Coll

/-- A class with its member functions; an operation that changes the object gives the new state. -/
structure Cls (σ α β : Type) where
  /-- `begin()` and `end()` -/
  elems : Option (σ → List α) := none
  size : Option (σ → Nat) := none
  /-- `data()[i]` -/
  data : Option (σ → Nat → R α) := none
  /-- `operator[](size_t)` -/
  index : Option (σ → Nat → R ((α ⊕ β) × σ)) := none
  pushBack : Option (σ → α → R σ) := none
  add : Option (σ → α → R σ) := none
  insert : Option (σ → α → R σ) := none
  push : Option (σ → α → R σ) := none
  /-- `c << v` -/
  shl : Option (σ → α → R σ) := none
  /-- `c += v` -/
  plusEq : Option (σ → α → R σ) := none

/-- The types that have their own traits (collection_traits.hh 311-366). An array is its elements. -/
inductive Coll (σ α β : Type) where
  /-- a class, `cc::array<T>` included (collection_traits.hh 316-321, 335-350) -/
  | cls (c : Cls σ α β)
  /-- `ElementT[N]`, const or not (collection_traits.hh 323-331) -/
  | cArray (elems : σ → List α)
  /-- `cc::array<T, N>`, const or not (collection_traits.hh 351-366) -/
  | ccArray (isConst : Bool) (elems : σ → List α)

variable {σ α β : Type}

/-- `has_begin_end_t` and `is_range` (collection_traits.hh 94-105, 218, 262, 290); what is no range has the traits of line 311-314. -/
def isRange : Coll σ α β → Bool
  | .cls c => c.elems.isSome
  | .cArray .. => true
  | .ccArray .. => true

/-- `has_size` (collection_traits.hh 107-117, 198, 216, 260, 288). -/
def hasSize : Coll σ α β → Bool
  | .cls c => c.elems.isSome && c.size.isSome
  | .cArray .. => true
  | .ccArray .. => true

/-- `has_data` (collection_traits.hh 119-129, 197, 215, 259, 287). -/
def hasData : Coll σ α β → Bool
  | .cls c => c.elems.isSome && c.data.isSome
  | .cArray .. => true
  | .ccArray .. => true

/-- `has_index_access` (collection_traits.hh 131-141, 199, 217, 261, 289). -/
def hasIndex : Coll σ α β → Bool
  | .cls c => c.elems.isSome && c.index.isSome
  | .cArray .. => true
  | .ccArray .. => true

/-- `is_indexed_range` (collection_traits.hh 79-80, 201, 219, 263, 291). -/
def isIndexedRange : Coll σ α β → Bool
  | .cls c => hasSize (.cls c) && hasIndex (.cls c)
  | .cArray .. => true
  | .ccArray .. => true

/-- `is_contiguous` (collection_traits.hh 202, 220, 264, 292). -/
def isContiguous : Coll σ α β → Bool
  | .cls c => hasData (.cls c) && hasSize (.cls c)
  | .cArray .. => true
  | .ccArray .. => true

/-- `impl_collection_add` with its priorities (collection_traits.hh 151-191); none is `collection_op_not_supported`. -/
def implAdd (c : Cls σ α β) : Option (σ → α → R σ) :=
  if c.pushBack.isSome then c.pushBack
  else if c.add.isSome then c.add
  else if c.insert.isSome then c.insert
  else if c.push.isSome then c.push
  else if c.shl.isSome then c.shl
  else if c.plusEq.isSome then c.plusEq
  else none

/-- `can_add` (collection_traits.hh 204, 222-224). -/
def canAdd : Coll σ α β → Bool
  | .cls c => c.elems.isSome && (implAdd c).isSome
  | .cArray .. => false
  | .ccArray .. => false

/-- A loop from `collection_begin` to `collection_end` (collection_traits.hh 44-58, 226-227, 268-269, 296-297): the elements visited. For a const `cc::array<T, N>` the
functions return `T*` for a `T const*`, which does not compile. -/
def elements : Coll σ α β → Option (σ → List α)
  | .cls c => if isRange (.cls c) then c.elems else none
  | .cArray e => some e
  | .ccArray isConst e => if isConst then none else some e

/-- `collection_size` (collection_traits.hh 60-66, 229, 271, 299). -/
def size : Coll σ α β → Option (σ → Nat)
  | .cls c => if hasSize (.cls c) then c.size else none
  | .cArray e => some fun s => (e s).length
  | .ccArray _ e => some fun s => (e s).length

/-- `collection_add` (collection_traits.hh 68-74, 231). -/
def addTo : Coll σ α β → Option (σ → α → R σ)
  | .cls c => if canAdd (.cls c) then implAdd c else none
  | .cArray .. => none
  | .ccArray .. => none

/-- Element `i` of an array; beyond the array it is undefined. -/
def arrayAt (e : List α) (i : Nat) : R α :=
  match e[i]? with
  | some a => .ok a
  | none => .error .ub

/-- `collection_traits::get(range, i)` (collection_traits.hh 243-251, 279, 307). -/
def get : Coll σ α β → Option (σ → Nat → R ((α ⊕ β) × σ))
  | .cls c =>
    if hasData (.cls c) then c.data.map fun d s i => do
      let a ← d s i
      .ok (.inl a, s)
    else if hasIndex (.cls c) then c.index
    else none
  | .cArray e => some fun s i => do
      let a ← arrayAt (e s) i
      .ok (.inl a, s)
  | .ccArray isConst e =>
    if isConst then none
    else some fun s i => do
      let a ← arrayAt (e s) i
      .ok (.inl a, s)

/-- The loop over `irange{0, n}` (detail/srange.hh 27-35, 52-70). -/
def indexLoop : (rounds i : Nat) → Nat → List Nat
  | 0, _, _ => []
  | r + 1, i, n => if i != n then i :: indexLoop r (i + 1) n else []

/-- A loop over `indices_of(range)` (indices_of.hh 26-40): the numbers visited. -/
def indicesOf (c : Coll σ α β) : Option (σ → List Nat) :=
  (size c).map fun f s => indexLoop (f s + 1) 0 (f s)

end Verif.Coll
