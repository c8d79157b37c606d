import Verif.Common

/-!
Model of `cc::filewatch` (/repo/src/clean-core/experimental/filewatch.hh, filewatch.cc; the unix part).

All calls of the program are made by one thread (the list of monitors is not protected); each monitor has a thread of its own that reads events and sets flags. The steps of these threads come at any time between the
calls: within a call only `files` and the flags are shared, `files` is written under the mutex only, and the threads read it under the mutex, so one event is processed at once. The kernel keeps a
queue of events per monitor (its limit is not modelled, nor is failure of the inotify calls, which are assertions). Which directory a path means is a parameter. Static destruction is not
modelled.
-/
namespace Verif.Watch

abbrev Str := List Char

/-- `Monitor::FileLocation` (filewatch.cc:80-86). -/
structure Loc where
  directory : Str
  filename : Str
deriving DecidableEq, Repr

/-- The part of a path up to its last slash, and the rest (filewatch.cc:99, 103, 106). -/
def pivot : Str → Str × Str
  | [] => ([], [])
  | c :: cs =>
    match pivot cs with
    | (d, f) => if d.isEmpty then (if c = '/' then ([c], f) else ([], c :: f)) else (c :: d, f)

/-- `getFileLocation` (filewatch.cc:88-108). -/
def getFileLocation (path : Str) : Loc :=
  let (d, f) := pivot path
  { directory := if d.isEmpty then ['.', '/'] else d, filename := f }

/-- `FileEntry` (filewatch.cc:110-117); the weak pointer is used by `getFlag` only, which is not reached (`create` passes `forceUnique`, filewatch.cc:437). -/
structure Entry where
  path : Loc
  flag : Nat
deriving DecidableEq, Repr

/-- `Monitor` (filewatch.cc:76-134): its path and files, and the names in the queue of the kernel. -/
structure Mon where
  path : Str
  files : List Entry
  queue : List Str
deriving DecidableEq, Repr

/-- Monitors (filewatch.cc:60), flags that are alive, and the watches of the program: `some none` is an invalid one. -/
structure State where
  mons : List Mon
  flags : Nat → Option Bool
  next : Nat
  watches : Nat → Option (Option Nat)

def State.init : State := { mons := [], flags := fun _ => none, next := 0, watches := fun _ => none }

def upd {X : Type} (f : Nat → X) (i : Nat) (x : X) : Nat → X := fun j => if j = i then x else f j

/-- `Monitor::add` on the monitors in order (filewatch.cc:291-304, 382-390), `none` if there is none for the directory. -/
def addTo (e : Entry) : List Mon → Option (List Mon)
  | [] => none
  | m :: ms =>
    if e.path.directory = m.path then some ({ m with files := m.files ++ [e] } :: ms)
    else (addTo e ms).map (m :: ·)

/-- `createFileWatchFlag` with `forceUnique` (filewatch.cc:360-414). -/
def createFlag (s : State) (filename : Str) : State × Nat :=
  let path := getFileLocation filename
  let e : Entry := { path := path, flag := s.next }
  let s := { s with flags := upd s.flags s.next (some false), next := s.next + 1 }
  match addTo e s.mons with
  | some ms => ({ s with mons := ms }, e.flag)
  | none => ({ s with mons := s.mons ++ [{ path := path.directory, files := [e], queue := [] }] }, e.flag)

/-- `Monitor::remove` (filewatch.cc:307-318): the first entry with this flag. -/
def removeFile (f : Nat) : List Entry → Option (List Entry)
  | [] => none
  | e :: es => if e.flag = f then some es else (removeFile f es).map (e :: ·)

/-- `onFlagDestruction` (filewatch.cc:340-358); an empty monitor ends its thread, which finds no files any more. -/
def onFlagDestruction (f : Nat) : List Mon → List Mon
  | [] => []
  | m :: ms =>
    match removeFile f m.files with
    | some es => if es.isEmpty then ms else { m with files := es } :: ms
    | none => m :: onFlagDestruction f ms

/-- Destroy the `state` of a watch, and with it the flag (filewatch.cc:69, 418-421). -/
def release (s : State) (w : Option Nat) : R State :=
  match w with
  | none => .ok s
  | some f =>
    match s.flags f with
    | none => .error .ub
    | some _ =>
      .ok { s with mons := onFlagDestruction f s.mons, flags := upd s.flags f none }

/-- One event in the thread of a monitor (filewatch.cc:167-183): setting a flag that is not alive is undefined. -/
def onEvent (flags : Nat → Option Bool) (name : Str) (files : List Entry) : R (Nat → Option Bool) :=
  if name.isEmpty then .ok flags
  else
    let changed := getFileLocation name
    match files.find? (fun e => decide (changed.filename = e.path.filename)) with
    | none => .ok flags
    | some e =>
      match flags e.flag with
      | none => .error .ub
      | some _ => .ok (upd flags e.flag (some true))

/-- The program's calls, and what happens in between. -/
inductive Op where
  /-- `filewatch()` -/
  | new (i : Nat)
  | create (i : Nat) (filename : Str)
  | move (i j : Nat)
  | assign (i j : Nat)
  | drop (i : Nat)
  | valid (i : Nat)
  | has (i : Nat)
  | clear (i : Nat)
  /-- a file with this name in this directory is created or written to -/
  | change (d : Nat) (name : Str)
  /-- the thread of the monitor for this path reads an event, if there is one -/
  | thread (path : Str)
deriving DecidableEq, Repr

inductive Obs where
  | none
  | bool (b : Bool)
deriving DecidableEq, Repr

def look {X : Type} (f : Nat → Option X) (i : Nat) : R X :=
  match f i with
  | some x => .ok x
  | none => .error .ub

/-- One step; `resolve` gives the directory a path means. -/
def step (resolve : Str → Nat) (s : State) : Op → R (State × Obs)
  | .new i => .ok ({ s with watches := upd s.watches i (some none) }, .none)
  /- filewatch.cc:433-439 -/
  | .create i p =>
    let (s, f) := createFlag s p
    .ok ({ s with watches := upd s.watches i (some (some f)) }, .none)
  /- the move constructor (filewatch.cc:442) and assignment (filewatch.cc:443) of the unique pointer (unique_ptr.hh:37-51) -/
  | .move i j => do
    let w ← look s.watches j
    .ok ({ s with watches := upd (upd s.watches i (some w)) j (some none) }, .none)
  | .assign i j => do
    let v ← look s.watches i
    let w ← look s.watches j
    let s ← release s v
    .ok ({ s with watches := upd (upd s.watches i (some w)) j (some none) }, .none)
  | .drop i => do
    let v ← look s.watches i
    let s ← release s v
    .ok ({ s with watches := upd s.watches i none }, .none)
  /- filewatch.hh:32 -/
  | .valid i => do
    let v ← look s.watches i
    .ok (s, .bool v.isSome)
  /- filewatch.cc:423 -/
  | .has i => do
    let v ← look s.watches i
    match v with
    | none => .ok (s, .bool false)
    | some f => do
      let b ← look s.flags f
      .ok (s, .bool b)
  /- filewatch.cc:425-429 -/
  | .clear i => do
    let v ← look s.watches i
    ccAssert v.isSome
    match v with
    | none => .error .assert
    | some f => do
      let _ ← look s.flags f
      .ok ({ s with flags := upd s.flags f (some false) }, .none)
  | .change d n => .ok ({ s with mons := s.mons.map fun m => if resolve m.path = d then { m with queue := m.queue ++ [n] } else m }, .none)
  | .thread p =>
    match s.mons.find? (fun m => decide (m.path = p)) with
    | none => .ok (s, .none)
    | some m =>
      match m.queue with
      | [] => .ok (s, .none)
      | n :: q => do
        let fl ← onEvent s.flags n m.files
        .ok ({ s with flags := fl, mons := s.mons.map fun m => if m.path = p then { m with queue := q } else m }, .none)

/-- A history. -/
def run (resolve : Str → Nat) (s : State) : List Op → R (State × List Obs)
  | [] => .ok (s, [])
  | op :: ops => do
    let (s, o) ← step resolve s op
    let (s, os) ← run resolve s ops
    .ok (s, o :: os)

end Verif.Watch
