import Verif.Map.Model

/-
Abstract specification of a finite map, independent of buckets, capacities and addresses:
an association list in which no two keys are equal.
-/
namespace Verif.Map

variable {K V : Type _}

/-- A finite map as an association list. -/
abbrev AMap (K V : Type _) := List (K × V)

namespace AMap

/-- The value stored under `k`. -/
def lookup (H : HashEq K) (k : K) : AMap K V → Option V
  | [] => none
  | (k', v) :: s => if H.eq k' k then some v else lookup H k s

/-- Is there an entry for `k`? -/
def has (H : HashEq K) (k : K) (s : AMap K V) : Bool := s.any (fun p => H.eq p.1 k)

/-- Change the value under `k` by `f`; if there is none, add the entry `(k, f d)`. -/
def upsert (H : HashEq K) (k : K) (d : V) (f : V → V) (s : AMap K V) : AMap K V :=
  if has H k s then s.map (fun p => if H.eq p.1 k then (p.1, f p.2) else p) else (k, f d) :: s

/-- Remove the entry of `k`. -/
def erase (H : HashEq K) (k : K) (s : AMap K V) : AMap K V := s.filter (fun p => !H.eq p.1 k)

end AMap

/-- The operations a user can perform on one map. `index k d f` is "apply `f` to the value
designated by `m[k]`", where `d` is the value-initialised `ValueT` a new entry gets: `m[k] = v` is
`index k d (fun _ => v)`, `m[k] += x` is `index k d (· + x)`. -/
inductive Op (K V : Type _) where
  | index (k : K) (d : V) (f : V → V)
  | getOrCreate (k : K) (v : V)
  | removeKey (k : K)
  | reserve (n : Nat)
  | clear
  /-- replace the map by a copy of itself (copy construction, then destruction of the source) -/
  | copySelf
  | containsKey (k : K)
  | getPtr (k : K)
  | get (k : K)
  | getOr (k : K) (d : V)
  | getTo (k : K) (out : V)
  | size

/-- What the user can observe of one operation. -/
inductive Out (V : Type _) where
  | unit
  | bool (b : Bool)
  | val (v : V)
  | opt (v : Option V)
  | boolVal (b : Bool) (v : V)
  | nat (n : Nat)

/-- The abstract map's behaviour. `none`: the call is outside its documented contract
(`get` of a missing key, map.hh:153 "UB if key is not present"). -/
def specStep (H : HashEq K) (s : AMap K V) : Op K V → Option (AMap K V × Out V)
  | .index k d f => some (s.upsert H k d f, .unit)
  | .getOrCreate k v =>
    let s' := s.upsert H k v id
    (s'.lookup H k).map (fun r => (s', .val r))
  | .removeKey k => some (s.erase H k, .bool (s.has H k))
  | .reserve _ => some (s, .unit)
  | .clear => some ([], .unit)
  | .copySelf => some (s, .unit)
  | .containsKey k => some (s, .bool (s.has H k))
  | .getPtr k => some (s, .opt (s.lookup H k))
  | .get k => (s.lookup H k).map (fun v => (s, .val v))
  | .getOr k d => some (s, .val ((s.lookup H k).getD d))
  | .getTo k out => some (s, .boolVal (s.has H k) ((s.lookup H k).getD out))
  | .size => some (s, .nat s.length)

/-- The observations of a whole history on the abstract map, and its final state. -/
def specRun (H : HashEq K) : AMap K V → List (Op K V) → Option (AMap K V × List (Out V))
  | s, [] => some (s, [])
  | s, op :: ops => do
    let (s', o) ← specStep H s op
    let (s'', os) ← specRun H s' ops
    pure (s'', o :: os)

/-- One operation on the modelled `cc::map`. -/
def implStep (H : HashEq K) (m : MapSt K V) : Op K V → R (MapSt K V × Out V)
  | .index k d f => do
    let (m', a) ← index H m k d
    let m'' ← modifyRef m' a f
    pure (m'', .unit)
  | .getOrCreate k v => do
    let (m', a) ← index H m k v
    let r ← readRef m' a
    pure (m', .val r)
  | .removeKey k => do
    let (m', b) ← removeKey H m k
    pure (m', .bool b)
  | .reserve n => do
    let m' ← reserve H m n
    pure (m', .unit)
  | .clear => .ok (clear m, .unit)
  | .copySelf => .ok (copy m m.next, .unit)
  | .containsKey k => do
    let b ← containsKey H m k
    pure (m, .bool b)
  | .getPtr k => do
    let p ← getPtr H m k
    pure (m, .opt (p.map Prod.snd))
  | .get k => do
    let (_, v) ← get H m k
    pure (m, .val v)
  | .getOr k d => do
    let v ← getOr H m k d
    pure (m, .val v)
  | .getTo k out => do
    let (b, v) ← getTo H m k out
    pure (m, .boolVal b v)
  | .size => .ok (m, .nat m.size)

/-- A whole history on the modelled `cc::map`. -/
def implRun (H : HashEq K) : MapSt K V → List (Op K V) → R (MapSt K V × List (Out V))
  | m, [] => .ok (m, [])
  | m, op :: ops => do
    let (m', o) ← implStep H m op
    let (m'', os) ← implRun H m' ops
    pure (m'', o :: os)

end Verif.Map
