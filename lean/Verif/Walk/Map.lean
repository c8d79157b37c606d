import Verif.Walk.Model
import Verif.Map.Spec

/-! Loops over `cc::map` (/repo/src/clean-core/map.hh) whose body changes the map. -/
namespace Verif.Walk

open Verif.Map (HashEq MapSt Node)

variable {K V : Type _}

/-- A map, and which array its chains are in. -/
structure MapW (K V : Type _) where
  m : MapSt K V
  arr : Nat

/-- Does the call replace `_entries`? `operator[]` and `get_or_create` before they look for the key (map.hh:116-117, 138-139), `reserve`
if it is asked for more than there is (map.hh:275-285), copying (map.hh:84). `clear` keeps the array (map.hh:287-292). -/
def replaces (m : MapSt K V) : Map.Op K V → Bool
  | .index .. => m.entries.isEmpty || decide (m.size > m.entries.length)
  | .getOrCreate .. => m.entries.isEmpty || decide (m.size > m.entries.length)
  | .reserve n => decide (m.entries.length < n)
  | .copySelf => true
  | _ => false

/-- One call on the map. -/
def stepMap (H : HashEq K) (w : MapW K V) (op : Map.Op K V) : R (MapW K V) := do
  let (m', _) ← Map.implStep H w.m op
  .ok { m := m', arr := if replaces w.m op then w.arr + 1 else w.arr }

/-- Several calls. -/
def runMap (H : HashEq K) : MapW K V → List (Map.Op K V) → R (MapW K V)
  | w, [] => .ok w
  | w, op :: ops => do
    let w ← stepMap H w op
    runMap H w ops

/-- Where the table is. -/
def mapTable : Table (MapW K V) (Node K V) := { entries := fun w => w.m.entries, arr := MapW.arr, addr := Node.addr }

/-- The body of a loop: which calls it makes, given the keys and values it has been shown (the last is the current one). -/
def mapBody (H : HashEq K) (prog : List (K × V) → List (Map.Op K V)) (vis : List (Node K V)) (w : MapW K V) : R (MapW K V) :=
  runMap H w (prog (vis.map (fun n => (n.key, n.val))))

end Verif.Walk
