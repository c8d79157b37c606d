import Verif.Own.Model

/-!
Specification of the owning pointers: only where each pointer points to. Which objects are alive is then a consequence: those that have an
owner.
-/
namespace Verif.Own.Spec

/-- The variables, and the members of every object ever made. -/
structure State where
  vars : List (Option Nat)
  objs : List (List (Option Nat))
deriving DecidableEq

def init (n : Nat) : State := { vars := List.replicate n none, objs := [] }

/-- The pointer at a location; `none` if there is no such location. -/
def State.get (s : State) : Loc → Option (Option Nat)
  | .var i => s.vars[i]?
  | .field o k => (s.objs[o]?).bind (·[k]?)

/-- Change the pointer at a location. -/
def State.set (s : State) (l : Loc) (p : Option Nat) : State :=
  match l with
  | .var i => { s with vars := s.vars.set i p }
  | .field o k =>
    match s.objs[o]? with
    | some fs => { s with objs := s.objs.set o (fs.set k p) }
    | none => s

/-- What the pointer at a location points to. -/
def State.ptr (s : State) (l : Loc) : Option Nat := (s.get l).getD none

/-- One call: the new pointers and the object reached by a dereference; `none` for dereferencing a null pointer. -/
def step (s : State) : Op → Option (State × Option Nat)
  | .make dst n => some ({ s with objs := s.objs ++ [List.replicate n none] }.set dst (some s.objs.length), none)
  | .copy dst src => some (s.set dst (s.ptr src), none)
  | .move dst src => some ((s.set dst (s.ptr src)).set src none, none)
  | .reset l => some (s.set l none, none)
  | .resetFrom dst src => some ((s.set src none).set dst (s.ptr src), none)
  | .deref l =>
    match s.ptr l with
    | some o => some (s, some o)
    | none => none

/-- A history. -/
def run (s : State) : List Op → Option (State × List (Option Nat))
  | [] => some (s, [])
  | op :: ops =>
    match step s op with
    | none => none
    | some (s, o) =>
      match run s ops with
      | none => none
      | some (s, os) => some (s, o :: os)

/-- Object `o` can be reached from a variable along pointers at locations outside `avoid`. -/
inductive Reach (avoid : List Loc) (s : State) : Nat → Prop
  | var {i o : Nat} : Loc.var i ∉ avoid → s.get (.var i) = some (some o) → Reach avoid s o
  | field {a k o : Nat} : Reach avoid s a → Loc.field a k ∉ avoid → s.get (.field a k) = some (some o) → Reach avoid s o

/-- The location exists, and if it is a member, its object can be reached without using the pointers in `avoid`. -/
def Acc (avoid : List Loc) (s : State) (l : Loc) : Prop :=
  (s.get l).isSome = true ∧ match l with
    | .var _ => True
    | .field o _ => Reach avoid s o

/-- The locations a call uses can be reached without the pointer that it drops (so they do not disappear together with the old object). -/
def Safe (s : State) : Op → Prop
  | .make dst _ => Acc [dst] s dst
  | .copy dst src => Acc [dst] s dst ∧ Acc [dst] s src
  | .move dst src => Acc [dst] s dst ∧ Acc [dst] s src
  | .reset l => Acc [l] s l
  | .resetFrom dst src => Acc [] s src ∧ Acc [src, dst] s dst
  | .deref l => Acc [] s l

/-- All calls of a history are safe when they are made. -/
def SafeRun (s : State) : List Op → Prop
  | [] => True
  | op :: ops => Safe s op ∧ ∀ s' o, step s op = some (s', o) → SafeRun s' ops

/-- The owners of object `o`: variables, and members of objects that have not been freed, that point to it. -/
def owners (w : World) (o : Nat) : Nat := (w.vars ++ (w.heap.filter (fun b => !b.freed)).flatMap (·.fields)).count (some o)

/-- The pointers are as specified; an object has been freed exactly if it has no owner, its destructor ran exactly once if it was freed and not at
all otherwise; the reference count is the number of owners. -/
structure Agrees (s : State) (w : World) : Prop where
  vars : w.vars = s.vars
  objs : w.heap.map (·.fields) = s.objs
  freed : ∀ (o : Nat) b, w.heap[o]? = some b → (b.freed = true ↔ owners w o = 0)
  once : ∀ (o : Nat) b, w.heap[o]? = some b → w.log.count o = if b.freed then 1 else 0
  refcount : ∀ (o : Nat) b, w.heap[o]? = some b → b.freed = false → b.rc = owners w o

/-- Calls that exist for shared pointers. -/
def isShared : Op → Prop
  | .resetFrom _ _ => False
  | _ => True

/-- Calls that exist for unique pointers. -/
def isUnique : Op → Prop
  | .copy _ _ => False
  | _ => True

end Verif.Own.Spec
