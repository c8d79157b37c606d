import Verif.Disp.Model
/-!
# What a user expects of the functions that a type offers
-/
namespace Verif.Disp
open Verif.StrView (Chr)

variable {V : Type}

/-- The type offers a function that makes text of its values. -/
def Offers.Any (o : Offers V) : Prop :=
  o.ssArgs.isSome ∨ o.args.isSome ∨ o.ss.isSome ∨ o.plain.isSome ∨ o.member.isSome ∨ o.std.isSome

/-- The text is the one that a function of the type makes without a specification. -/
def Offers.Bare (o : Offers V) (v : V) (r : R (List Chr)) : Prop :=
  (∃ f, o.ssArgs = some f ∧ r = f v []) ∨ (∃ f, o.args = some f ∧ r = f v []) ∨ (∃ f, o.ss = some f ∧ r = f v) ∨
  (∃ f, o.plain = some f ∧ r = Except.bind (f v) fun t => Fmt.strFmt t []) ∨
  (∃ f, o.member = some f ∧ r = Except.bind (f v) fun t => Fmt.strFmt t []) ∨
  (∃ f, o.std = some f ∧ r = Except.bind (f v) fun t => Fmt.strFmt t [])

/-- The text is the one that a function of the type makes with this specification. -/
def Offers.With (o : Offers V) (v : V) (spec : List Chr) (r : R (List Chr)) : Prop :=
  (∃ f, o.ssArgs = some f ∧ r = f v spec) ∨ (∃ f, o.args = some f ∧ r = f v spec)

/-- The text is the one a function of the type makes, formatted as a string by the specification. -/
def Offers.Text (o : Offers V) (v : V) (spec : List Chr) (r : R (List Chr)) : Prop :=
  (∃ f, o.plain = some f ∧ r = Except.bind (f v) fun t => Fmt.strFmt t spec) ∨
  (∃ f, o.member = some f ∧ r = Except.bind (f v) fun t => Fmt.strFmt t spec) ∨
  (∃ f, o.std = some f ∧ r = Except.bind (f v) fun t => Fmt.strFmt t spec)

/-- What formatting has to do for a type: without a specification it gives the text of one of its functions; with a specification it
calls a function of the type that takes one if there is any; otherwise the text is formatted as a string. -/
structure Formats (o : Offers V) (f : V → List Chr → R (List Chr)) : Prop where
  bare : ∀ v, o.Bare v (f v [])
  spec : ∀ v s, s ≠ [] → (o.ssArgs.isSome ∨ o.args.isSome) → o.With v s (f v s)
  text : ∀ v s, s ≠ [] → o.ssArgs = none → o.args = none → o.ss = none → o.Text v s (f v s)

/-- The property: every type that offers a function can be formatted, and is formatted as its functions say. -/
def Right (o : Offers V) : Prop := ∃ f, doFormat o = some f ∧ Formats o f

end Verif.Disp
