import Verif.Common

/-!
Model of `operator==` and `operator!=` of arrays, vectors, capped vectors and allocated arrays
(/repo/src/clean-core/array.hh:67-88, 226-247, detail/vector_base.hh:441-463, capped_vector.hh:258-280, alloc_array.hh:170-192), of
`span::equals_content` (span.hh:121-131) and of `contains` (detail/vector_base.hh:432-439, capped_vector.hh:249-256), for elements with any
`operator==` and `operator!=`. The bodies are the same in all of them. A container is the list of its elements; reading behind them is
undefined in the container itself (`_data[i]`) and a failed contract in the span it is compared with.

The comparisons of `capped_array` (capped_array.hh:166-188) cannot be called (the size is deduced as `int`, but it is a `size_t`), nor those of
`capped_vector<T, 0>` (capped_vector.hh:306-317) and `capped_array<T, 0>` (`_size` is private or does not exist).
-/
namespace Verif.SeqEq

variable {α : Type}

/-- The operators of a type. -/
structure Ops (α : Type) where
  eq : α → α → Bool
  ne : α → α → Bool

/-- `_data[i]` of the container. -/
def read (a : List α) (i : Nat) : R α :=
  match a[i]? with
  | some x => .ok x
  | none => .error .ub

/-- `rhs[i]` of a span (span.hh:61-65). -/
def index (a : List α) (i : Nat) : R α :=
  match a[i]? with
  | some x => .ok x
  | none => .error .assert

/-- The loop of `operator==` (vector_base.hh:445-448) from `i` on, with this many elements left. -/
def eqLoop (E : Ops α) (a b : List α) (i : Nat) : Nat → R Bool
  | 0 => .ok true
  | left + 1 => do
    let x ← read a i
    let y ← index b i
    if !(E.eq x y) then .ok false else eqLoop E a b (i + 1) left

/-- `operator==(span)` (vector_base.hh:441-449, array.hh:67-75, 226-234, capped_vector.hh:258-266, alloc_array.hh:170-178). -/
def equal (E : Ops α) (a b : List α) : R Bool :=
  if a.length ≠ b.length then .ok false else eqLoop E a b 0 a.length

/-- The loop of `operator!=` (vector_base.hh:455-458). -/
def neLoop (E : Ops α) (a b : List α) (i : Nat) : Nat → R Bool
  | 0 => .ok false
  | left + 1 => do
    let x ← read a i
    let y ← index b i
    if E.ne x y then .ok true else neLoop E a b (i + 1) left

/-- `operator!=(span)` (vector_base.hh:451-459, array.hh:77-85, 236-244, capped_vector.hh:268-276, alloc_array.hh:180-188). -/
def notEqual (E : Ops α) (a b : List α) : R Bool :=
  if a.length ≠ b.length then .ok true else neLoop E a b 0 a.length

/-- The loop of `equals_content` (span.hh:126-130). -/
def contentLoop (E : Ops α) (a b : List α) (i : Nat) : Nat → R Bool
  | 0 => .ok true
  | left + 1 => do
    let x ← read a i
    let y ← read b i
    if E.ne x y then .ok false else contentLoop E a b (i + 1) left

/-- `equals_content` (span.hh:121-131). -/
def equalsContent (E : Ops α) (a b : List α) : R Bool :=
  if a.length ≠ b.length then .ok false else contentLoop E a b 0 a.length

/-- The loop of `contains` (vector_base.hh:435-438). -/
def containsLoop (E : Ops α) (a : List α) (v : α) (i : Nat) : Nat → R Bool
  | 0 => .ok false
  | left + 1 => do
    let x ← read a i
    if E.eq x v then .ok true else containsLoop E a v (i + 1) left

/-- `contains` (vector_base.hh:432-439, capped_vector.hh:249-256). -/
def contains (E : Ops α) (a : List α) (v : α) : R Bool := containsLoop E a v 0 a.length

/-- The operators of the container, as operators of the elements of another container. -/
def Ops.seq (E : Ops α) : Ops (List α) where
  eq a b := (equal E a b).toOption = some true
  ne a b := (notEqual E a b).toOption = some true

end Verif.SeqEq
