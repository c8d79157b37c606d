import Verif.Map.Model

/-
Model of `cc::set` (/repo/src/clean-core/set.hh) on top of `cc::array` and `cc::forward_list`.

Simplifications: as for the map (Verif/Map/Model.lean): `size_t` is `Nat`, allocation succeeds and
returns fresh addresses, copying an element is the identity, lookup uses the element type.
-/
namespace Verif.Set

open Verif.Map (HashEq)

/-- `forward_list<T>::node` (forward_list.hh:184-198) with its address. -/
structure Node (T : Type _) where
  addr : Nat
  val : T

/-- Members of `cc::set` (set.hh:255-256); `next` is the allocator's next fresh address (ghost). -/
structure SetSt (T : Type _) where
  entries : List (List (Node T))
  size : Nat
  next : Nat

variable {T : Type _}

/-- `set() = default` (set.hh:40). -/
def empty : SetSt T := { entries := [], size := 0, next := 0 }

/-- `_get_location` (set.hh:233-239) with `hash_combine` (hash_combine.hh:9), `cap` buckets. -/
def location (H : HashEq T) (cap : Nat) (v : T) : R Nat := do
  ccAssert (decide (0 < cap))
  let h := H.hash v * 6364136223846793005#64 + 0#64 + 0xda3e39cb94b95bdb#64
  pure (h.toNat % cap)

/-- `cc::array::operator[]`: bounds contract, then the element. -/
def bucket (es : List (List (Node T))) (i : Nat) : R (List (Node T)) :=
  match es[i]? with
  | some l => .ok l
  | none => .error .assert

/-- The loop `for (auto& e : l) if (EqualT{}(e, value))` (set.hh:31-33, 74-76). -/
def chainHas (H : HashEq T) (v : T) : List (Node T) → Bool
  | [] => false
  | n :: ns => if H.eq n.val v then true else chainHas H v ns

/-- `contains` (set.hh:24-36). -/
def contains (H : HashEq T) (m : SetSt T) (v : T) : R Bool :=
  if m.size = 0 then .ok false else do
    let idx ← location H m.entries.length v
    let l ← bucket m.entries idx
    pure (chainHas H v l)

/-- Loop body of `_reserve` (set.hh:246-249): a new node is put in front of its new chain.
The accumulator is the new table together with the next fresh address. -/
def reinsert (H : HashEq T) (acc : List (List (Node T)) × Nat) (n : Node T) :
    R (List (List (Node T)) × Nat) := do
  let idx ← location H acc.1.length n.val
  let l ← bucket acc.1 idx
  pure (acc.1.set idx ({ addr := acc.2, val := n.val } :: l), acc.2 + 1)

/-- `_reserve` (set.hh:241-251) and `reserve` (set.hh:156), which just calls it. The nodes of the
old table are destroyed when `old_entries` goes out of scope. -/
def reserve (H : HashEq T) (m : SetSt T) (newCap : Nat) : R (SetSt T) := do
  let (es, nx) ← m.entries.foldlM (fun acc l => l.foldlM (reinsert H) acc)
    (List.replicate newCap [], m.next)
  pure { m with entries := es, next := nx }

/-- The growth check of `add` (set.hh:69-70). -/
def ensure (H : HashEq T) (m : SetSt T) : R (SetSt T) :=
  if m.size ≥ m.entries.length then reserve H m (if m.size = 0 then 4 else m.size * 2) else .ok m

/-- The part of `add` after the growth check (set.hh:72-80). -/
def addTail (H : HashEq T) (m : SetSt T) (v : T) : R (SetSt T × Bool) := do
  let idx ← location H m.entries.length v
  let l ← bucket m.entries idx
  if chainHas H v l then pure (m, false)
  else pure ({ entries := m.entries.set idx ({ addr := m.next, val := v } :: l),
               size := m.size + 1, next := m.next + 1 }, true)

/-- `add` (set.hh:67-81) of a value that lives outside the set. -/
def add (H : HashEq T) (m : SetSt T) (v : T) : R (SetSt T × Bool) := do
  let m ← ensure H m
  addTail H m v

/-- Read the element a reference designates; a reference to a freed node is undefined behaviour. -/
def readRef (m : SetSt T) (a : Nat) : R T :=
  match m.entries.flatten.find? (fun n => n.addr == a) with
  | some n => .ok n.val
  | none => .error .ub

/-- `add` (set.hh:67-81) where the argument `T const& value` is a reference to an element of the
set itself (obtained from an iterator): the reference is first read at set.hh:72, after the growth
check. -/
def addRef (H : HashEq T) (m : SetSt T) (a : Nat) : R (SetSt T × Bool) := do
  let m ← ensure H m
  let v ← readRef m a
  addTail H m v

/-- The loop of `remove` (set.hh:109-119) with `forward_list::erase_after` (forward_list.hh:68-81);
see `Verif.Map.eraseAfterLoop`. -/
def eraseAfterLoop (H : HashEq T) (v : T) : Node T → List (Node T) → Option (List (Node T))
  | _, [] => none
  | prev, n :: ns =>
    if H.eq n.val v then some (prev :: ns)
    else (eraseAfterLoop H v n ns).map (prev :: ·)

/-- `remove` (set.hh:86-122). -/
def remove (H : HashEq T) (m : SetSt T) (v : T) : R (SetSt T × Bool) :=
  if m.size = 0 then .ok (m, false) else do
    let idx ← location H m.entries.length v
    let l ← bucket m.entries idx
    match l with
    | [] => pure (m, false)
    | n :: ns =>
      if H.eq n.val v then
        pure ({ m with entries := m.entries.set idx ns, size := m.size - 1 }, true)
      else match eraseAfterLoop H v n ns with
        | some l' => pure ({ m with entries := m.entries.set idx l', size := m.size - 1 }, true)
        | none => pure (m, false)

/-- `operator|=` over a range (set.hh:132-145) and the range constructors (set.hh:50-61), for a
range that does not alias the set. -/
def addAll (H : HashEq T) (m : SetSt T) : List T → R (SetSt T)
  | [] => .ok m
  | v :: vs => do
    let (m', _) ← add H m v
    addAll H m' vs

/-- `clear` (set.hh:177-182). -/
def clear (m : SetSt T) : SetSt T :=
  { m with entries := m.entries.map (fun _ => []), size := 0 }

/-- Copy one chain (forward_list.hh:135-146). -/
def copyChain (a : Nat) : List (Node T) → List (Node T)
  | [] => []
  | n :: ns => { n with addr := a } :: copyChain (a + 1) ns

/-- Copy the array of chains. -/
def copyEntries (a : Nat) : List (List (Node T)) → List (List (Node T))
  | [] => []
  | l :: ls => copyChain a l :: copyEntries (a + l.length) ls

/-- `set(set const&) = default` (set.hh:43). -/
def copy (m : SetSt T) (a : Nat) : SetSt T :=
  { entries := copyEntries a m.entries, size := m.size,
    next := a + (m.entries.map List.length).sum }

/-- `operator|` (set.hh:148-153). -/
def union (H : HashEq T) (m : SetSt T) (vs : List T) : R (SetSt T) := addAll H (copy m m.next) vs

/-- State of the source after `set(set&&) = default` (set.hh:42). -/
def movedFrom (m : SetSt T) : SetSt T := { m with entries := [] }

/-- `iterator` (set.hh:186-226): rest of the array and rest of the current chain. -/
structure Iter (T : Type _) where
  curr : List (List (Node T))
  it : List (Node T)

/-- `find_next_it` (set.hh:213-224). -/
def findNextIt : List (List (Node T)) → List (Node T) → Iter T
  | [], it => { curr := [], it := it }
  | l :: ls, _ =>
    match l with
    | _ :: _ => { curr := l :: ls, it := l }
    | [] => findNextIt ls []

/-- `begin()` (set.hh:227 with the constructor at 203-208). -/
def Iter.begin (m : SetSt T) : Iter T := findNextIt m.entries []

/-- `operator!=(sentinel)` (set.hh:200). -/
def Iter.more (i : Iter T) : Bool := !i.curr.isEmpty

/-- `operator*` (set.hh:190). -/
def Iter.deref (i : Iter T) : R (Node T) :=
  match i.it with
  | n :: _ => .ok n
  | [] => .error .ub

/-- `operator++` (set.hh:191-199). -/
def Iter.inc (i : Iter T) : R (Iter T) :=
  match i.it with
  | [] => .error .ub
  | _ :: rest =>
    match rest with
    | _ :: _ => .ok { i with it := rest }
    | [] => match i.curr with
      | [] => .error .ub
      | _ :: ls => .ok (findNextIt ls [])

/-- A range-based for loop over the set that collects the visited nodes, with a step bound. -/
def iterate : Nat → Iter T → R (List (Node T))
  | 0, i => if i.more then .error .ub else .ok []
  | fuel + 1, i =>
    if i.more then do
      let n ← i.deref
      let i' ← i.inc
      let rest ← iterate fuel i'
      pure (n :: rest)
    else .ok []

/-- The visited nodes of `for (auto const& e : s)`. -/
def iterAll (m : SetSt T) : R (List (Node T)) :=
  iterate m.entries.flatten.length (Iter.begin m)

/-- The loops of `operator==` (set.hh:164-167), over the elements of `rhs`. -/
def eqLoop (H : HashEq T) (lhs : SetSt T) : List (Node T) → R Bool
  | [] => .ok true
  | n :: ns => do
    if ← contains H lhs n.val then eqLoop H lhs ns else pure false

/-- `operator==` (set.hh:159-170). -/
def setEq (H : HashEq T) (lhs rhs : SetSt T) : R Bool :=
  if lhs.size ≠ rhs.size then .ok false else eqLoop H lhs rhs.entries.flatten

end Verif.Set
