import Verif.Vector.Spec

/-!
Specification of references and iterators to the elements of a vector: which vector, if any, the memory that a reference was
taken from belongs to after a history of calls. Written with nothing but the elements and the value of `capacity()`.
-/
namespace Verif.Vector.Spec
open Verif.Vector

variable {α : Type}

/-- One number for each vector variable. -/
abbrev Caps := Nat → Nat

/-- Replace number `i`. -/
def updc (c : Caps) (i n : Nat) : Caps := fun j => if j = i then n else c j

/-- `capacity()` after asking a vector with capacity `cap` to have room for `n` elements: unchanged if there is room, otherwise
at least doubled. -/
def roomFor (cap n : Nat) : Nat := if n ≤ cap then cap else max n (2 * cap)

/-- `capacity()` after `push_back` onto `len` elements: unchanged if there is room, otherwise doubled. -/
def pushed (len cap : Nat) : Nat := if len = cap then max 1 (2 * cap) else cap

/-- `capacity()` after `n` times `push_back`. -/
def pushedN (len cap : Nat) : Nat → Nat
  | 0 => cap
  | n + 1 => pushedN (len + 1) (pushed len cap) n

/-- `capacity()` of a newly constructed vector. -/
def ctorCap (s : Lists α) : Ctor α → Nat
  | .sized n => n
  | .filled n _ => n
  | .reserved n => n
  | .range l => l.length
  | .copyOf j => (s j).length

/-- What a call does to `capacity()` of all the vectors. -/
def capStep (s : Lists α) (c : Caps) : Op α → Caps
  | .pushBack i _ => updc c i (pushed (s i).length (c i))
  | .pushRange i contiguous sized l =>
    updc c i (if contiguous || sized then roomFor (c i) ((s i).length + l.length) else pushedN (s i).length (c i) l.length)
  | .insertRange i _ l => updc c i (roomFor (c i) ((s i).length + l.length))
  | .reserve i n => updc c i (roomFor (c i) n)
  | .resize i n => updc c i (roomFor (c i) n)
  | .resizeWith i n _ => updc c i (roomFor (c i) n)
  | .shrinkToFit i => updc c i (s i).length
  | .copyAssign i j => updc c i (if (s j).length ≤ c i then c i else (s j).length)
  | .moveAssign i j => updc (updc c i (c j)) j 0
  | .assignNew i k => updc c i (ctorCap s k)
  | _ => c

/-- A reference is taken to an element of vector `i`; which vector has that element's memory after the call? `none` if the memory
has been given back. A vector keeps its memory unless `capacity()` changes; moving a vector hands its memory over. -/
def track (s : Lists α) (c : Caps) (op : Op α) : Option Nat → Option Nat
  | none => none
  | some i =>
    match op with
    | .moveAssign a b => if a = i then none else if b = i then some a else some i
    | .assignNew a _ => if a = i then none else some i
    | op => if capStep s c op i = c i then some i else none

/-- `capacity()` of all the vectors after a history. -/
def capRun (dflt : α) (eqv : α → α → Bool) (s : Lists α) (c : Caps) : List (Op α) → Caps
  | [] => c
  | op :: ops =>
    match step dflt eqv s op with
    | none => c
    | some (s', _) => capRun dflt eqv s' (capStep s c op) ops

/-- Where the memory of a reference is after a history. -/
def trackRun (dflt : α) (eqv : α → α → Bool) (s : Lists α) (c : Caps) (t : Option Nat) : List (Op α) → Option Nat
  | [] => t
  | op :: ops =>
    match step dflt eqv s op with
    | none => none
    | some (s', _) => trackRun dflt eqv s' (capStep s c op) (track s c op t) ops

end Verif.Vector.Spec
