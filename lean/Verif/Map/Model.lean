import Verif.Common

/-
Model of `cc::map` (/repo/src/clean-core/map.hh) on top of `cc::array` and
`cc::forward_list` (/repo/src/clean-core/forward_list.hh).

Simplifications:
* `size_t` is `Nat`; element counts and capacities stay far below 2^64 on a real machine.
  (The doubling loop of `reserve` would not terminate for n > 2^63.)
* allocation (`cc::alloc`) always succeeds and returns an address never handed out before.
* `KeyT`, `ValueT` are Lean types; copying a key/value is the identity.
* the heterogeneous lookup type is the key type.
-/
namespace Verif.Map

/-- `HashT` and `EqualT` template arguments of `cc::map` (map.hh:55). -/
structure HashEq (K : Type _) where
  hash : K → BitVec 64
  eq : K → K → Bool

/-- What the user of the map has to guarantee: `EqualT` is an equivalence and the hash respects it. -/
structure HashEq.Lawful {K} (H : HashEq K) : Prop where
  refl : ∀ a, H.eq a a = true
  symm : ∀ a b, H.eq a b = true → H.eq b a = true
  trans : ∀ a b c, H.eq a b = true → H.eq b c = true → H.eq a c = true
  hash_eq : ∀ a b, H.eq a b = true → H.hash a = H.hash b

/-- `forward_list<entry>::node` (forward_list.hh:184-198) holding an `entry` (map.hh:445-454).
`addr` is the address returned by `cc::alloc<node>`; references to `entry.value` are modelled by it. -/
structure Node (K V : Type _) where
  addr : Nat
  key : K
  val : V

/-- The members of `cc::map` (map.hh:455-456). `entries` is the array of chains, each chain the
list of nodes reachable from `_first`. `next` is the allocator's next fresh address (ghost). -/
structure MapSt (K V : Type _) where
  entries : List (List (Node K V))
  size : Nat
  next : Nat

variable {K V : Type _}

/-- `map() = default` (map.hh:83): null `_entries`, `_size = 0`. -/
def empty : MapSt K V := { entries := [], size := 0, next := 0 }

/-- `_get_location` (map.hh:402-414), for an `_entries.size()` of `cap`. -/
def location (H : HashEq K) (cap : Nat) (k : K) : R Nat := do
  ccAssert (decide (0 < cap))
  let h := H.hash k ^^^ 0x0bd64917a71585ad#64
  let h := (h * 0xd989bcacc137dcd5#64) >>> 32
  pure (h.toNat &&& (cap - 1))

/-- `cc::array::operator[]` (array.hh): bounds contract, then the element. -/
def bucket (es : List (List (Node K V))) (i : Nat) : R (List (Node K V)) :=
  match es[i]? with
  | some l => .ok l
  | none => .error .assert

/-- The lookup loop `for (auto& e : l) if (EqualT{}(e.key, key)) ...`
(map.hh:121-123, 143-145, 160-162, 188-190). -/
def findNode (H : HashEq K) (k : K) : List (Node K V) → Option (Node K V)
  | [] => none
  | n :: ns => if H.eq n.key k then some n else findNode H k ns

/-- Relink one node at the front of its new chain (map.hh:431-434). -/
def relink (H : HashEq K) (es : List (List (Node K V))) (n : Node K V) :
    R (List (List (Node K V))) := do
  let idx ← location H es.length n.key
  let l ← bucket es idx
  pure (es.set idx (n :: l))

/-- `_reserve` (map.hh:417-441). -/
def rehash (H : HashEq K) (m : MapSt K V) (newCap : Nat) : R (MapSt K V) := do
  ccAssert (decide (newCap &&& (newCap - 1) = 0))
  let es ← m.entries.foldlM (fun es l => l.foldlM (relink H) es) (List.replicate newCap [])
  pure { m with entries := es }

/-- The doubling loop of `reserve` (map.hh:280-282). -/
def growCap (cap n : Nat) : Nat :=
  if h : 0 < cap ∧ cap < n then growCap (2 * cap) n else cap
termination_by n - cap

/-- `reserve` (map.hh:275-285). -/
def reserve (H : HashEq K) (m : MapSt K V) (n : Nat) : R (MapSt K V) :=
  if n ≤ m.entries.length then .ok m else rehash H m (growCap 4 n)

/-- The growth check at the start of `operator[]` and `get_or_create`
(map.hh:116-117, 138-139). -/
def ensure (H : HashEq K) (m : MapSt K V) : R (MapSt K V) :=
  if m.entries = [] ∨ m.size > m.entries.length then
    reserve H m (if m.size = 0 then 4 else m.size + 1)
  else .ok m

/-- `operator[]` (map.hh:111-127) and `get_or_create` (map.hh:136-150), which differ only in how
the new value `v` is created. Returns the new state and the address of the node whose value the
returned reference designates. -/
def index (H : HashEq K) (m : MapSt K V) (k : K) (v : V) : R (MapSt K V × Nat) := do
  let m ← ensure H m
  let idx ← location H m.entries.length k
  let l ← bucket m.entries idx
  match findNode H k l with
  | some n => pure (m, n.addr)
  | none =>
    let n : Node K V := { addr := m.next, key := k, val := v }
    pure ({ entries := m.entries.set idx (n :: l), size := m.size + 1, next := m.next + 1 }, m.next)

/-- Apply `f` to the value designated by a reference (the user's `map[k] = v`, `++map[k]`, ...).
A dangling reference (no node with this address) is undefined behaviour. -/
def modifyRef (m : MapSt K V) (a : Nat) (f : V → V) : R (MapSt K V) :=
  if m.entries.any (fun l => l.any (fun n => n.addr == a)) then
    .ok { m with entries := m.entries.map (fun l => l.map (fun n =>
      if n.addr == a then { n with val := f n.val } else n)) }
  else .error .ub

/-- Read the value designated by a reference. -/
def readRef (m : MapSt K V) (a : Nat) : R V :=
  match m.entries.flatten.find? (fun n => n.addr == a) with
  | some n => .ok n.val
  | none => .error .ub

/-- `contains_key` (map.hh:68-79). -/
def containsKey (H : HashEq K) (m : MapSt K V) (k : K) : R Bool :=
  if m.size = 0 then .ok false else do
    let idx ← location H m.entries.length k
    let l ← bucket m.entries idx
    match findNode H k l with
    | some _ => pure true
    | none => pure false

/-- `get` (map.hh:155-177); the returned reference is given by address and value. -/
def get (H : HashEq K) (m : MapSt K V) (k : K) : R (Nat × V) := do
  ccAssert (decide (0 < m.size))
  let idx ← location H m.entries.length k
  let l ← bucket m.entries idx
  match findNode H k l with
  | some n => pure (n.addr, n.val)
  | none => throw .assert

/-- `get_ptr` (map.hh:182-206); `none` is `nullptr`. -/
def getPtr (H : HashEq K) (m : MapSt K V) (k : K) : R (Option (Nat × V)) :=
  if m.size = 0 then .ok none else do
    let idx ← location H m.entries.length k
    let l ← bucket m.entries idx
    match findNode H k l with
    | some n => pure (some (n.addr, n.val))
    | none => pure none

/-- `get_or` (map.hh:211-217). -/
def getOr (H : HashEq K) (m : MapSt K V) (k : K) (d : V) : R V := do
  match ← getPtr H m k with
  | some (_, v) => pure v
  | none => pure d

/-- `get_to` (map.hh:222-231): returns the bool and the new content of `out_val`. -/
def getTo (H : HashEq K) (m : MapSt K V) (k : K) (out : V) : R (Bool × V) := do
  match ← getPtr H m k with
  | some (_, v) => pure (true, v)
  | none => pure (false, out)

/-- The loop of `remove_key` (map.hh:257-269) together with `forward_list::erase_after`
(forward_list.hh:68-81): the chain starts at `prev`, `rest` is the chain after it. The result is
the new chain, or `none` if nothing was found. (The loop of the code starts with `it = prev` and
compares the first node a second time; that comparison just failed.) -/
def eraseAfterLoop (H : HashEq K) (k : K) : Node K V → List (Node K V) → Option (List (Node K V))
  | _, [] => none
  | prev, n :: ns =>
    if H.eq n.key k then some (prev :: ns)
    else (eraseAfterLoop H k n ns).map (prev :: ·)

/-- `remove_key` (map.hh:237-272). -/
def removeKey (H : HashEq K) (m : MapSt K V) (k : K) : R (MapSt K V × Bool) :=
  if m.size = 0 then .ok (m, false) else do
    let idx ← location H m.entries.length k
    let l ← bucket m.entries idx
    match l with
    | [] => pure (m, false)
    | n :: ns =>
      if H.eq n.key k then
        -- list.pop_front()
        pure ({ m with entries := m.entries.set idx ns, size := m.size - 1 }, true)
      else match eraseAfterLoop H k n ns with
        | some l' => pure ({ m with entries := m.entries.set idx l', size := m.size - 1 }, true)
        | none => pure (m, false)

/-- `clear` (map.hh:287-292): the array is kept, every chain is freed. -/
def clear (m : MapSt K V) : MapSt K V :=
  { m with entries := m.entries.map (fun _ => []), size := 0 }

/-- Copy one chain: `forward_list(forward_list const&)` (forward_list.hh:135-146). -/
def copyChain (a : Nat) : List (Node K V) → List (Node K V)
  | [] => []
  | n :: ns => { n with addr := a } :: copyChain (a + 1) ns

/-- Copy the array of chains: `array(array const&)` (array.hh). -/
def copyEntries (a : Nat) : List (List (Node K V)) → List (List (Node K V))
  | [] => []
  | l :: ls => copyChain a l :: copyEntries (a + l.length) ls

/-- `map(map const&) = default` (map.hh:84): copies `_entries` and `_size`. New nodes get the
addresses starting at `a`. -/
def copy (m : MapSt K V) (a : Nat) : MapSt K V :=
  { entries := copyEntries a m.entries, size := m.size,
    next := a + (m.entries.map List.length).sum }

/-- State of the source after `map(map&&) = default` (map.hh:85): `cc::array`'s move constructor
leaves a null array, the defaulted move of `_size` leaves it unchanged. -/
def movedFrom (m : MapSt K V) : MapSt K V := { m with entries := [] }

/-- `iterator_base` (map.hh:328-365). `curr` is the rest of the array from `curr` to `last`;
`it` the rest of the chain from the current node. -/
structure Iter (K V : Type _) where
  curr : List (List (Node K V))
  it : List (Node K V)

/-- `find_next_it` (map.hh:353-364). -/
def findNextIt : List (List (Node K V)) → List (Node K V) → Iter K V
  | [], it => { curr := [], it := it }
  | l :: ls, _ =>
    match l with
    | _ :: _ => { curr := l :: ls, it := l }
    | [] => findNextIt ls []

/-- `begin()` (map.hh:391-396 with the constructor at 346). -/
def Iter.begin (m : MapSt K V) : Iter K V := findNextIt m.entries []

/-- `operator!=(sentinel)` (map.hh:344). -/
def Iter.more (i : Iter K V) : Bool := !i.curr.isEmpty

/-- `operator*` (map.hh:369, 374, 379, 384, 389): dereferences the current node. -/
def Iter.deref (i : Iter K V) : R (Node K V) :=
  match i.it with
  | n :: _ => .ok n
  | [] => .error .ub

/-- `operator++` (map.hh:334-343). -/
def Iter.inc (i : Iter K V) : R (Iter K V) :=
  match i.it with
  | [] => .error .ub
  | _ :: rest =>
    match rest with
    | _ :: _ => .ok { i with it := rest }
    | [] => match i.curr with
      | [] => .error .ub
      | _ :: ls => .ok (findNextIt ls [])

/-- A range-based for loop over the map that collects the visited nodes;
`fuel` bounds the number of iterations (running out of fuel is reported as a fault, and the
theorems show that `size` iterations suffice). -/
def iterate : Nat → Iter K V → R (List (Node K V))
  | 0, i => if i.more then .error .ub else .ok []
  | fuel + 1, i =>
    if i.more then do
      let n ← i.deref
      let i' ← i.inc
      let rest ← iterate fuel i'
      pure (n :: rest)
    else .ok []

/-- The visited nodes of `for (auto const& kvp : m)`. -/
def iterAll (m : MapSt K V) : R (List (Node K V)) :=
  iterate m.entries.flatten.length (Iter.begin m)

/-- The loop of `operator==` (map.hh:301-312) over the visited nodes of the left map;
`ne a b` is `a != b` on values. -/
def eqLoop (H : HashEq K) (ne : V → V → Bool) (rhs : MapSt K V) : List (Node K V) → R Bool
  | [] => .ok true
  | n :: ns => do
    if ← containsKey H rhs n.key then
      let (_, v) ← get H rhs n.key
      if ne v n.val then pure false else eqLoop H ne rhs ns
    else pure false

/-- `operator==` (map.hh:296-313). -/
def mapEq (H : HashEq K) (ne : V → V → Bool) (lhs rhs : MapSt K V) : R Bool :=
  if lhs.size ≠ rhs.size then .ok false else do
    let ns ← iterAll lhs
    eqLoop H ne rhs ns

end Verif.Map
