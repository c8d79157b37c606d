import Verif.Common

/-!
Model of the iterators of `cc::map` (/repo/src/clean-core/map.hh:328-396) and `cc::set` (/repo/src/clean-core/set.hh:186-228) as what they are in
memory: two pointers into the array of chains and one to a node. Unlike `Map.Iter` and `Set.Iter`, which carry the rest of an unchanging
table with them, these can be used after the table has been changed, as happens if the body of a loop changes what it loops over.

The two iterators have the same code. `S` is the state of the program, `N` the nodes; what the body does is a parameter.
Addresses are never reused (as in `Map.Model`), so touching a freed node or array is always seen as undefined behaviour.
-/
namespace Verif.Walk

/-- Where the table is in a state: the chains, which array they are in (the arrays are numbered in the order of their allocation; map.hh:455,
set.hh:255), and the addresses of the nodes. -/
structure Table (S N : Type _) where
  entries : S → List (List N)
  arr : S → Nat
  addr : N → Nat

/-- `iterator_base` (map.hh:348-351) and `set::iterator` (set.hh:210-212): the array pointed into, the indices of `curr` and `last`, and the
address of the node `it` points to. -/
structure Live where
  arr : Nat
  curr : Nat
  last : Nat
  it : Option Nat
deriving DecidableEq

variable {S N : Type _}

/-- The member `next` of the node at `a`, if it is in this chain (forward_list.hh:20-33, 184-198). -/
def nextIn (addr : N → Nat) (a : Nat) : List N → Option (Option Nat)
  | [] => none
  | n :: ns => if addr n = a then some (ns.head?.map addr) else nextIn addr a ns

/-- `++it` (forward_list.hh:26): read `next` of a node; the node may have been freed. -/
def nextOf (addr : N → Nat) (es : List (List N)) (a : Nat) : R (Option Nat) :=
  match es.findSome? (nextIn addr a) with
  | some r => .ok r
  | none => .error .ub

/-- The node at `a`, if it still is one. -/
def nodeAt (addr : N → Nat) (es : List (List N)) (a : Nat) : R N :=
  match es.flatten.find? (fun n => addr n == a) with
  | some n => .ok n
  | none => .error .ub

/-- `find_next_it` (map.hh:353-364, set.hh:214-225) with `k` chains to go; the result is `curr` and `it`. `here`: the array still exists. -/
def findNext (addr : N → Nat) (here : Bool) (es : List (List N)) (last : Nat) : Nat → R (Nat × Option Nat)
  | 0 => .ok (last, none)
  | k + 1 =>
    if here then
      match es[last - (k + 1)]? with
      | none => .error .ub
      | some [] => findNext addr here es last k
      | some (n :: _) => .ok (last - (k + 1), some (addr n))
    else .error .ub

/-- `begin()` (map.hh:346, 391-396; set.hh:204-209, 227). -/
def first (T : Table S N) (s : S) : R Live := do
  let (c, it) ← findNext T.addr true (T.entries s) (T.entries s).length (T.entries s).length
  .ok { arr := T.arr s, curr := c, last := (T.entries s).length, it := it }

/-- `operator!=(sentinel)` (map.hh:344, set.hh:201). -/
def Live.more (i : Live) : Bool := i.curr != i.last

/-- `operator*` (map.hh:369, 374, 379, 384, 389; set.hh:190). -/
def deref (T : Table S N) (s : S) (i : Live) : R N :=
  match i.it with
  | none => .error .ub
  | some a => nodeAt T.addr (T.entries s) a

/-- `operator++` (map.hh:334-343, set.hh:191-200). -/
def inc (T : Table S N) (s : S) (i : Live) : R Live :=
  match i.it with
  | none => .error .ub
  | some a => do
    match ← nextOf T.addr (T.entries s) a with
    | some b => .ok { i with it := some b }
    | none => do
      let (c, it) ← findNext T.addr (i.arr == T.arr s) (T.entries s) i.last (i.last - (i.curr + 1))
      .ok { i with curr := c, it := it }

/-- One round of `for (auto&& e : table) body`: visit an entry, run the body, which knows all entries visited so far, step on. -/
def round (T : Table S N) (body : List N → S → R S) (c : List N × S × Live) : R (List N × S × Live) := do
  let n ← deref T c.2.1 c.2.2
  let s ← body (c.1 ++ [n]) c.2.1
  let i ← inc T s c.2.2
  .ok (c.1 ++ [n], s, i)

/-- The first rounds of the loop: `k` of them, or as many as there are. -/
def rounds (T : Table S N) (body : List N → S → R S) : Nat → List N × S × Live → R (List N × S × Live)
  | 0, c => .ok c
  | k + 1, c =>
    if c.2.2.more then do
      let c ← round T body c
      rounds T body k c
    else .ok c

end Verif.Walk
