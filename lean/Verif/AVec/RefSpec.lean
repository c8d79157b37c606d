import Verif.AVec.Spec
import Verif.Vector.RefSpec

/-!
Specification of references to the elements of an `alloc_vector`: which vector, if any, has the memory that a reference was
taken from after a history of calls. Written with the elements and the values of `capacity()`; the numbers `roomFor`, `pushed`
and `pushedN` are those of `cc::vector` (`Vector/RefSpec.lean`).
-/
namespace Verif.AVec.Spec
open Verif.AVec Verif.Vector
open Verif.Vector.Spec (Caps updc roomFor pushed pushedN)

variable {α : Type}

/-- `capacity()` of a vector with `len` elements and capacity `cap` after a call on it. -/
def callCap (len cap : Nat) : Call α → Nat
  | .pushBack _ => pushed len cap
  | .pushRange contiguous sized l =>
    if contiguous || sized then roomFor cap (len + l.length) else pushedN len cap l.length
  | .insertRange _ l => roomFor cap (len + l.length)
  | .reserve n => roomFor cap n
  | .resize n => roomFor cap n
  | .resizeWith n _ => roomFor cap n
  | .shrinkToFit => len
  | _ => cap

/-- `capacity()` of a newly constructed vector. -/
def ctorCap (s : State α) : Ctor α → Nat
  | .dflt => 0
  | .sized n => n
  | .filled n _ => n
  | .range l => l.length
  | .each l => pushedN 0 0 l.length
  | .copyOf j => (s j).l.length

/-- What a call does to `capacity()` of all the vectors. -/
def capStep (s : State α) (c : Caps) : Op α → Caps
  | .call i k => updc c i (callCap (s i).l.length (c i) k)
  | .pushElem i _ _ => updc c i (pushed (s i).l.length (c i))
  | .eq _ _ => c
  | .allocator _ => c
  | .moveAssign i j => updc (updc c i (c j)) j 0
  | .moveCtor i j => updc (updc c j 0) i (c j)
  | .assignNew i _ k => updc c i (ctorCap s k)
  | .resetReserve i _ n => updc c i n

/-- Vector `i` has the memory; which vector has it after the call? `none` if it has been given back. Vectors keep their memory
unless `capacity()` changes, whatever their allocator; moving a vector hands its memory over, with the allocator; an
assigned or reset vector has new memory, even if the capacity is the same. -/
def track (s : State α) (c : Caps) (op : Op α) : Option Nat → Option Nat
  | none => none
  | some i =>
    match op with
    | .moveAssign a b => if a = i then none else if b = i then some a else some i
    | .moveCtor a b => if a = b then some i else if a = i then none else if b = i then some a else some i
    | .assignNew a _ _ => if a = i then none else some i
    | .resetReserve a _ _ => if a = i then none else some i
    | op => if capStep s c op i = c i then some i else none

/-- `capacity()` of all the vectors after a history. -/
def capRun (dflt : α) (eqv : α → α → Bool) (s : State α) (c : Caps) : List (Op α) → Caps
  | [] => c
  | op :: ops =>
    match step dflt eqv s op with
    | none => c
    | some (s', _) => capRun dflt eqv s' (capStep s c op) ops

/-- Where the memory of a reference is after a history. -/
def trackRun (dflt : α) (eqv : α → α → Bool) (s : State α) (c : Caps) (t : Option Nat) : List (Op α) → Option Nat
  | [] => t
  | op :: ops =>
    match step dflt eqv s op with
    | none => none
    | some (s', _) => trackRun dflt eqv s' (capStep s c op) (track s c op t) ops

end Verif.AVec.Spec
