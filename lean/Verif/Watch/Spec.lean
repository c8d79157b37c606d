import Verif.Watch.Model

/-!
Watches as a user sees them: each has a file and says whether a change of that file was reported since the watch was created or last cleared. Changes of files in a directory are reported in order, some time
after they happen, as long as some watch in that directory exists.
-/
namespace Verif.Watch.Spec

/-- A watch: the directory and name of its file, and whether it has changed. -/
structure W where
  dir : Str
  name : Str
  changed : Bool
deriving DecidableEq, Repr

/-- The watches, the number of them per directory, which files have one, and the changes not yet reported per directory. -/
structure S where
  watches : Nat → Option (Option W)
  count : Str → Nat
  taken : Str × Str → Bool
  pending : Str → List Str

def S.init : S := { watches := fun _ => none, count := fun _ => 0, taken := fun _ => false, pending := fun _ => [] }

def updS {K X : Type} [DecidableEq K] (f : K → X) (i : K) (x : X) : K → X := fun j => if j = i then x else f j

/-- The directory and the name of a path. -/
def parts (p : Str) : Str × Str := ((getFileLocation p).directory, (getFileLocation p).filename)

/-- A call is allowed: new variables are unused, others exist, only valid watches are cleared. Names of files are not empty and have no slash. -/
def allowed (s : S) : Op → Bool
  | .new i => (s.watches i).isNone
  | .create i _ => (s.watches i).isNone
  | .move i j => (s.watches i).isNone && (s.watches j).isSome
  | .assign i j => (s.watches i).isSome && (s.watches j).isSome
  | .drop i => (s.watches i).isSome
  | .valid i => (s.watches i).isSome
  | .has i => (s.watches i).isSome
  | .clear i => match s.watches i with
    | some (some _) => true
    | _ => false
  | .change _ n => !n.isEmpty && !n.contains '/'
  | .thread _ => true

/-- The end of a watch. With the last one of a directory, what is not yet reported is forgotten. -/
def finish (s : S) : Option W → S
  | none => s
  | some w => { s with count := updS s.count w.dir (s.count w.dir - 1), taken := updS s.taken (w.dir, w.name) false, pending := if s.count w.dir = 1 then updS s.pending w.dir [] else s.pending }

/-- What each call does and returns. -/
def next (resolve : Str → Nat) (s : S) : Op → S × Obs
  | .new i => ({ s with watches := upd s.watches i (some none) }, .none)
  | .create i p =>
    ({ watches := upd s.watches i (some (some { dir := (parts p).1, name := (parts p).2, changed := false })), count := updS s.count (parts p).1 (s.count (parts p).1 + 1), taken := updS s.taken (parts p) true, pending := s.pending }, .none)
  | .move i j => ({ s with watches := upd (upd s.watches i (s.watches j)) j (some none) }, .none)
  | .assign i j =>
    let t := finish s ((s.watches i).getD none)
    ({ t with watches := upd (upd s.watches i (s.watches j)) j (some none) }, .none)
  | .drop i =>
    let t := finish s ((s.watches i).getD none)
    ({ t with watches := upd s.watches i none }, .none)
  | .valid i => (s, .bool ((s.watches i).getD none).isSome)
  | .has i => (s, .bool (((s.watches i).getD none).elim false (·.changed)))
  | .clear i => ({ s with watches := upd s.watches i ((s.watches i).map (·.map fun w => { w with changed := false })) }, .none)
  | .change d n => ({ s with pending := fun p => if resolve p = d ∧ s.count p ≠ 0 then s.pending p ++ [n] else s.pending p }, .none)
  | .thread p =>
    match s.pending p with
    | [] => (s, .none)
    | n :: q => ({ s with pending := updS s.pending p q, watches := fun i => (s.watches i).map (·.map fun w => if w.dir = p ∧ w.name = n then { w with changed := true } else w) }, .none)

/-- A history of allowed calls in which no file gets a second watch. -/
def Allowed (resolve : Str → Nat) (s : S) : List Op → Prop
  | [] => True
  | op :: ops => allowed s op = true ∧ (∀ i p, op = .create i p → s.taken (parts p) = false) ∧ Allowed resolve (next resolve s op).1 ops

/-- Run a history. -/
def run (resolve : Str → Nat) (s : S) : List Op → S × List Obs
  | [] => (s, [])
  | op :: ops => ((run resolve (next resolve s op).1 ops).1, (next resolve s op).2 :: (run resolve (next resolve s op).1 ops).2)

end Verif.Watch.Spec
