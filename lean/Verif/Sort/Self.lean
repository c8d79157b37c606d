import Verif.Sort.Model
import Verif.Variant.Model
import Verif.Result.Model
import Verif.Opt.Model

/-!
Model of `cc::swap(a, b)` (/repo/src/clean-core/utility.hh:6-20, 76-83) where `a` and `b` may be the
same object, and of the algorithms of /repo/src/clean-core/sort.hh with it. `Sort/Model.lean` treats
the exchange of a position with itself as doing nothing; here it is a parameter, what
`tmp = move(a); a = move(a); a = move(tmp)` does to an element.

Simplification: an exchange of two different objects exchanges their values.
-/
namespace Verif.Sort

variable {α κ : Type}

/-- `cc::swap(values[a], values[b])` (`values_swap`, sort.hh:348-354). -/
def swapElems (selfSwap : α → R α) (l : List α) (i j : Nat) : R (List α) :=
  if i = j then
    match l[i]? with
    | some x => do
      let y ← selfSwap x
      .ok (l.set i y)
    | none => .error .ub
  else swapAt l i j

/-- The functors of the sort family over such elements (sort.hh:334-354). -/
def elemAcc (selfSwap : α → R α) (key : α → κ) : Acc (List α) κ where
  get := (listAcc key).get
  swap := swapElems selfSwap

/-- `sort_by` (sort.hh:426-435). -/
def sortElems (selfSwap : α → R α) (key : α → κ) (cmp : κ → κ → Bool) (l : List α) : R (List α) :=
  sortEx (elemAcc selfSwap key) cmp selectAll (l.length + 1) l 0 l.length

/-- `quickselect_by` (sort.hh:492-502). -/
def quickselectElems (selfSwap : α → R α) (key : α → κ) (cmp : κ → κ → Bool) (l : List α)
    (idx : BitVec 64) : R (List α) :=
  sortEx (elemAcc selfSwap key) cmp (indexInRange idx) (l.length + 1) l 0 l.length

/-- `partition_by` (sort.hh:403-411). -/
def partitionElems (selfSwap : α → R α) (isRight : α → Bool) (l : List α) : R (List α × Nat) :=
  partitionEx (elemAcc selfSwap isRight) l 0 l.length

/-- `remove_at_unordered` (detail/vector_base.hh:418-423, capped_vector.hh:241-246). -/
def removeUnordered (selfSwap : α → R α) (l : List α) (i : Nat) : R (List α) := do
  ccAssert (i < l.length)
  let l ← swapElems selfSwap l i (l.length - 1)
  .ok l.dropLast

/-- `cc::swap(v, v)` of a `cc::variant`: move constructor (variant.hh:147-160), move assignment from
itself (variant.hh:184-193: `emplace` with a reference to the own, moved-from value) and from the
temporary. -/
def variantSelfSwap (types : List Variant.Ty) (v : Variant.Var α) : R (Variant.Var α) := do
  let (tmp, v) ← Variant.ctorMove types v
  let v ← Variant.emplaceOwn types v v.ty
  let (t, a) ← Variant.visit types tmp
  Variant.emplace types v t a

/-- `cc::swap(r, r)` of a `cc::result`: move constructor (result.hh:69-76), then move assignment
(result.hh:93-105) from itself and from the temporary. -/
def resultSelfSwap {V E : Type} (r : Result.Res V E) : R (Result.Res V E) := do
  let tmp ← Result.copyInto .raw r
  let r ← Result.selfMoveAssign (Result.movedFrom r)
  let (r, _) ← Result.moveAssign r tmp
  .ok r

/-- `cc::swap(o, o)` of a `cc::optional` (move constructor and assignment, optional.hh:72-81,
100-116). The second block of the self-assignment finds the optional empty and does nothing. -/
def optSelfSwap (o : Opt.Opt α) : R (Opt.Opt α) := do
  let (tmp, o) ← Opt.ctorMove o
  let o ← Opt.reset o
  let o ← if o.has then .error .ub else .ok o
  let o ← Opt.reset o
  let (o, _) ← Opt.moveInto o tmp
  .ok o

end Verif.Sort
