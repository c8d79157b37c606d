import Verif.Str.Model
import Verif.Str.Spec
/-!
# Histories of operations on string variables

The operations of `/repo/src/clean-core/sbo_string.hh` (see `Verif.Str.Model`) applied to the variables of a program.
An operation on a variable that is not alive is undefined.
-/
namespace Verif.Str
open Verif.StrView (Chr)

/-- The string variables of a program. `gone` keeps the block counts of objects whose life has ended. -/
structure Sys where
  vars : List (Option Str)
  gone : Int
deriving DecidableEq, Repr

/-- A member function call on variable `d`. -/
def Sys.modify (st : Sys) (d : Nat) (f : Str → R Str) : R Sys :=
  match st.vars[d]? with
  | some (some s) => do
    let s ← f s
    pure { st with vars := st.vars.set d (some s) }
  | _ => .error .ub

/-- Construction of variable `d`. -/
def Sys.create (st : Sys) (d : Nat) (mk : R Str) : R Sys :=
  match st.vars[d]? with
  | some none => do
    let s ← mk
    pure { st with vars := st.vars.set d (some s) }
  | _ => .error .ub

/-- Construction of variable `d` from variable `s`. -/
def Sys.createFrom (st : Sys) (d s : Nat) (f : Str → R Str) : R Sys :=
  match st.vars[s]? with
  | some (some x) => st.create d (f x)
  | _ => .error .ub

/-- The value of variable `d`. -/
def Sys.get (st : Sys) (d : Nat) : R Str :=
  match st.vars[d]? with
  | some (some s) => .ok s
  | _ => .error .ub

/-- One operation (the lines are those of the definitions used). -/
def Sys.step (C : Nat) (junk : Nat → Chr) (st : Sys) : Op → R Sys
  | .make d l => st.create d (fromView C junk l)
  | .makeFilled d n c => st.create d (filled C junk n c)
  | .copyNew d s => st.createFrom d s (copyCtor C junk)
  | .moveNew d s => do
    let rhs ← st.get s
    let st ← st.create d (pure (moveCtor C rhs).1)
    pure { st with vars := st.vars.set s (some (moveCtor C rhs).2) }
  | .assign d s =>
    if d = s then do
      let _ ← st.get s
      pure st
    else do
      let rhs ← st.get s
      st.modify d fun this => copyAssign C junk this rhs
  | .moveAssign d s =>
    if d = s then st.modify d fun this => pure (selfMoveAssign this)
    else do
      let this ← st.get d
      let rhs ← st.get s
      pure { st with vars := (st.vars.set d (some (moveAssign this rhs).1)).set s (some (moveAssign this rhs).2) }
  | .destroy d => do
    let s ← st.get d
    pure { vars := st.vars.set d none, gone := st.gone + s.destroy.bal }
  | .pushBack d c => st.modify d fun s => s.pushBack C junk c
  | .popBack d => st.modify d fun s => s.popBack
  | .reserve d n => st.modify d fun s => s.reserve C junk n
  | .resize d n c => st.modify d fun s => s.resize C junk n c
  | .clear d => st.modify d fun s => pure s.clear
  | .shrink d => st.modify d fun s => s.shrinkToFit C junk
  | .fillAll d c => st.modify d fun s => s.fill C junk c dynamicSize
  | .fill d c n => st.modify d fun s => s.fill C junk c n
  | .lowerNew d s => st.createFrom d s fun s => s.mapped C junk StrView.toLower
  | .upperNew d s => st.createFrom d s fun s => s.mapped C junk StrView.toUpper
  | .capitalizedNew d s => st.createFrom d s fun s => s.capitalized C junk
  | .replacedCharsNew d s old new => st.createFrom d s fun s => s.mapped C junk (replaceChar old new)
  | .capitalize d => st.modify d fun s => s.capitalize
  | .replaceChars d old new => st.modify d fun s => s.replaceChars old new
  | .removePrefix d n => st.modify d fun s => s.removePrefix n
  | .removeSuffix d n => st.modify d fun s => s.removeSuffix n
  | .removePrefixStr d p => st.modify d fun s => s.removePrefixStr p
  | .removeSuffixStr d p => st.modify d fun s => s.removeSuffixStr p
  | .trimStart d p => st.modify d fun s => s.trimStart p
  | .trimEnd d p => st.modify d fun s => s.trimEnd p
  | .trim d p => st.modify d fun s => s.trim p
  | .padStart d n c => st.modify d fun s => s.padStart C junk n c
  | .padEnd d n c => st.modify d fun s => s.padEnd C junk n c
  | .replaceAt d pos count m => st.modify d fun s => s.replaceAt C junk pos count (.ext m)
  | .insert d pos m => st.modify d fun s => s.insert C junk pos (.ext m)
  | .replaceAll d old new => st.modify d fun s => s.replaceAll C junk old new
  | .append d m => st.modify d fun s => s.append C junk (.ext m)
  | .appendOwn d off len => st.modify d fun s => s.append C junk (.own off len)
  | .replacedAtNew d s pos count m => st.createFrom d s fun s => s.replacedAt C junk pos count (.ext m)
  | .replacedNew d s old new => st.createFrom d s fun s => s.replaced C junk old new
  | .concatNew d m s => st.createFrom d s fun s => concat C junk m s
  | .substringNew d s off n => st.createFrom d s fun s => s.substring C junk off n

/-- A history. -/
def Sys.run (C : Nat) (junk : Nat → Chr) : Sys → List Op → R Sys
  | st, [] => pure st
  | st, op :: ops => do
    let st ← st.step C junk op
    Sys.run C junk st ops

/-- `n` variables, none of them alive. -/
def Sys.init (n : Nat) : Sys := ⟨List.replicate n none, 0⟩

end Verif.Str
