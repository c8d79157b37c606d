import Verif.Common

/-!
Model of `cc::disjoint_set` (/repo/src/clean-core/experimental/disjoint_set.hh).

Elements and sizes are `int` in C++, natural numbers here: negative element numbers become huge `size_t` indices and fail the
bounds check of `cc::vector::operator[]` like every other index out of range. `entries` is a list (`cc::vector` is shown to behave
like one in Verif/Vector). The recursion of `get_representative` is unbounded in C++; the model counts recursion depth and turns a
recursion deeper than `fuel` into undefined behaviour (stack overflow).
-/
namespace Verif.DSet

/-- `struct entry` (disjoint_set.hh:106-110). -/
structure Entry where
  parent : Nat
  size : Nat
deriving DecidableEq, Repr

/-- The members (disjoint_set.hh:112-114). -/
structure DS where
  entries : List Entry
  count : Nat
deriving DecidableEq, Repr

/-- `init` (disjoint_set.hh:30-41) for sizes that fit an `int`; `int(size)` of larger sizes is not modelled. -/
def init (n : Nat) : DS := { entries := (List.range n).map fun i => { parent := i, size := 1 }, count := n }

/-- `entries[e]`: `cc::vector::operator[]` checks the index (detail/vector_base.hh). -/
def entry (ds : DS) (e : Nat) : R Entry :=
  match ds.entries[e]? with
  | some x => .ok x
  | none => .error .assert

/-- `get_representative` (disjoint_set.hh:62-68). -/
def find : Nat → DS → Nat → R (Nat × DS)
  | 0, _, _ => .error .ub
  | fuel + 1, ds, e => do
    let ee ← entry ds e
    if ee.parent ≠ e then do
      let (r, ds) ← find fuel ds ee.parent
      let ee ← entry ds e
      .ok (r, { ds with entries := ds.entries.set e { ee with parent := r } })
    else .ok (ee.parent, ds)

/-- `get_representative` as called by the user; there is room for a recursion as deep as there are elements. -/
def getRepresentative (ds : DS) (e : Nat) : R (Nat × DS) := find (ds.entries.length + 1) ds e

/-- `size_of_set_by_element` (disjoint_set.hh:44). -/
def sizeByElement (ds : DS) (e : Nat) : R (Nat × DS) := do
  let (r, ds) ← getRepresentative ds e
  let x ← entry ds r
  .ok (x.size, ds)

/-- `is_representative` (disjoint_set.hh:55). -/
def isRepresentative (ds : DS) (e : Nat) : R (Bool × DS) := do
  let (r, ds) ← getRepresentative ds e
  .ok (r == e, ds)

/-- `size_of_set_by_representative` (disjoint_set.hh:48-52). -/
def sizeByRepresentative (ds : DS) (e : Nat) : R (Nat × DS) := do
  let (b, ds) ← isRepresentative ds e
  ccAssert b
  let x ← entry ds e
  .ok (x.size, ds)

/-- `are_in_same_set` (disjoint_set.hh:58). C++ leaves the order of the two calls open; the model goes left to right. -/
def sameSet (ds : DS) (a b : Nat) : R (Bool × DS) := do
  let (ra, ds) ← getRepresentative ds a
  let (rb, ds) ← getRepresentative ds b
  .ok (ra == rb, ds)

/-- `get_parent` (disjoint_set.hh:74). -/
def getParent (ds : DS) (e : Nat) : R Nat := do
  let x ← entry ds e
  .ok x.parent

/-- The linking step of `merge_sets_by_representative` (disjoint_set.hh:98-100): `small` becomes a child of `big`. The `int`
addition must not overflow; the `size_t` counter must not become negative. -/
def link (ds : DS) (big small : Nat) : R DS := do
  let xs ← entry ds small
  let es := ds.entries.set small { xs with parent := big }
  let xb ← entry { ds with entries := es } big
  if xb.size + xs.size < 2 ^ 31 then
    .ok { entries := es.set big { xb with size := xb.size + xs.size }, count := (ds.count + (2 ^ 64 - 1)) % 2 ^ 64 }
  else .error .ub

/-- `merge_sets_by_representative` (disjoint_set.hh:87-103). -/
def mergeByRepresentative (ds : DS) (a b : Nat) : R (Bool × DS) := do
  let (ba, ds) ← isRepresentative ds a
  ccAssert ba
  let (bb, ds) ← isRepresentative ds b
  ccAssert bb
  if a = b then .ok (false, ds)
  else do
    let xa ← entry ds a
    let xb ← entry ds b
    let ds ← if xa.size < xb.size then link ds b a else link ds a b
    .ok (true, ds)

/-- `merge_sets_by_element` (disjoint_set.hh:78-83). -/
def mergeByElement (ds : DS) (a b : Nat) : R (Bool × DS) := do
  let (ra, ds) ← getRepresentative ds a
  let (rb, ds) ← getRepresentative ds b
  mergeByRepresentative ds ra rb

/-- The calls of a program. -/
inductive Op where
  | representative (e : Nat)
  | isRepresentative (e : Nat)
  | sameSet (a b : Nat)
  | sizeByElement (e : Nat)
  | sizeByRepresentative (e : Nat)
  | mergeByElement (a b : Nat)
  | mergeByRepresentative (a b : Nat)
  | numberOfElements
  | numberOfPartitions
deriving DecidableEq, Repr

/-- What a call returns. -/
inductive Obs where
  | nat (n : Nat)
  | bool (b : Bool)
deriving DecidableEq, Repr

/-- Wrap a call that returns a number. -/
def callN (x : R (Nat × DS)) : R (DS × Obs) := do
  let (n, ds) ← x
  .ok (ds, .nat n)

/-- Wrap a call that returns a flag. -/
def callB (x : R (Bool × DS)) : R (DS × Obs) := do
  let (b, ds) ← x
  .ok (ds, .bool b)

/-- Run one call (`number_of_elements`, `number_of_partitions`: disjoint_set.hh:25-26). -/
def step (ds : DS) : Op → R (DS × Obs)
  | .representative e => callN (getRepresentative ds e)
  | .isRepresentative e => callB (DSet.isRepresentative ds e)
  | .sameSet a b => callB (DSet.sameSet ds a b)
  | .sizeByElement e => callN (DSet.sizeByElement ds e)
  | .sizeByRepresentative e => callN (DSet.sizeByRepresentative ds e)
  | .mergeByElement a b => callB (DSet.mergeByElement ds a b)
  | .mergeByRepresentative a b => callB (DSet.mergeByRepresentative ds a b)
  | .numberOfElements => .ok (ds, .nat ds.entries.length)
  | .numberOfPartitions => .ok (ds, .nat ds.count)

/-- Run a history. -/
def run (ds : DS) : List Op → R (DS × List Obs)
  | [] => .ok (ds, [])
  | op :: ops => do
    let (ds, o) ← step ds op
    let (ds, os) ← run ds ops
    .ok (ds, o :: os)

end Verif.DSet
