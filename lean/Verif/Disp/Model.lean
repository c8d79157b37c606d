import Verif.Fmt.Model
/-!
# How `cc::format` turns a value of any type into text

Model of `detail::default_do_format` (`/repo/src/clean-core/format.hh` 72-205).

A type is described by the functions it offers.  Each is the text it produces for a value, or nothing if there is no such function.
What is chosen with `if constexpr` happens while the program is compiled; a program that does not compile is `none`.
Implicit conversions of the value to another type that offers a function are not modelled, nor is the type of the returned string.
-/
namespace Verif.Disp
open Verif.StrView (Chr)

/-- The functions that a type offers to be turned into text. -/
structure Offers (V : Type) where
  /-- `to_string(stream_ref<char>, T, string_view)` (format.hh 72-80). -/
  ssArgs : Option (V → List Chr → R (List Chr)) := none
  /-- `to_string(T, string_view)`, as declared in format.hh 94-101. -/
  args : Option (V → List Chr → R (List Chr)) := none
  /-- `to_string(stream_ref<char>, T)` (format.hh 83-91). -/
  ss : Option (V → R (List Chr)) := none
  /-- `to_string(T)` (format.hh 105-113). -/
  plain : Option (V → R (List Chr)) := none
  /-- The member `to_string()` (format.hh 127-135). -/
  member : Option (V → R (List Chr)) := none
  /-- The member `toStdString()` (format.hh 116-124). -/
  std : Option (V → R (List Chr)) := none

variable {V : Type}

/-- `has_to_string_ss_args` (format.hh 80). -/
def hasSsArgs (o : Offers V) : Bool := o.ssArgs.isSome

/-- `has_to_string_ss` (format.hh 91). -/
def hasSs (o : Offers V) : Bool := o.ss.isSome

/-- `has_to_string_args` (format.hh 102): its value is `has_to_string_ss_t<T>::value`, not `has_to_string_args_t<T>::value`. -/
def hasArgs (o : Offers V) : Bool := o.ss.isSome

/-- `has_to_string` (format.hh 113). -/
def hasPlain (o : Offers V) : Bool := o.plain.isSome

/-- `has_member_to_string` (format.hh 135). -/
def hasMember (o : Offers V) : Bool := o.member.isSome

/-- `has_member_toStdString` (format.hh 124). -/
def hasStd (o : Offers V) : Bool := o.std.isSome

/-- `to_string(s, string_view(f(v)), fmt_args)`: the text of a function, formatted as a string (format.hh 165, 169, 173). -/
def viaString (f : V → R (List Chr)) (v : V) (spec : List Chr) : R (List Chr) := do
  let t ← f v
  Fmt.strFmt t spec

/-- `do_format` (format.hh 137-180).  A call to a function that the type does not offer does not compile. -/
def doFormat (o : Offers V) : Option (V → List Chr → R (List Chr)) :=
  if hasSsArgs o then o.ssArgs
  else if hasArgs o then
    if hasSs o then do
      let f ← o.ss
      let g ← o.args
      some (fun v spec => if spec.isEmpty then f v else g v spec)
    else o.args
  else if hasSs o then do
    let f ← o.ss
    some (fun v _ => f v)
  else if hasPlain o then do
    let f ← o.plain
    some (viaString f)
  else if hasMember o then do
    let f ← o.member
    some (viaString f)
  else if hasStd o then do
    let f ← o.std
    some (viaString f)
  else none

end Verif.Disp
