import Verif.Cursor.Model
/-!
# What a user expects of a cursor

A cursor stands for the list of the elements that are left.
-/
namespace Verif.Cursor

variable {σ α β ι : Type}

/-- The documented guarantee (cursor.hh 18-20): `get` and `advance` are called on valid objects only. -/
def Guarantee (I : Impl σ α) (calls : List (Call σ)) : Prop := ∀ c ∈ calls, I.valid c.on = true

/-- From this state on the class has exactly these elements. -/
inductive Yields (I : Impl σ α) : σ → List α → Prop
  | nil (s) : I.valid s = false → Yields I s []
  | cons (s s' a l) : I.valid s = true → I.get s = .ok a → I.advance s = .ok s' → Yields I s' l → Yields I s (a :: l)

/-- The iterators from `b` to `e` enumerate these elements; an iterator to an element is true, if it can be asked. -/
inductive Between (I : Iter ι α) (e : ι) : ι → List α → Prop
  | nil (b) : I.ne b e = false → Between I e b []
  | cons (b b' a l) : I.ne b e = true → I.deref b = .ok a → I.next b = .ok b' → (∀ t, I.truth = some t → t b = true) → Between I e b' l →
      Between I e b (a :: l)

/-- A loop over a list that can be left early. -/
def each (body : Body α β) : List α → β → R β
  | [], b => .ok b
  | a :: l, b =>
    match body b a with
    | .error e => .error e
    | .ok (b, true) => .ok b
    | .ok (b, false) => each body l b

/-- One use of a cursor that stands for a list. -/
def useSpec (l : List α) : Use → R (Obs α × List α)
  | .deref => match l with
    | [] => .error .assert
    | a :: _ => .ok (.value a, l)
  | .incr | .incrPost => match l with
    | [] => .error .assert
    | _ :: r => .ok (.none, r)
  | .toBool => .ok (.bool (!l.isEmpty), l)
  | .notAtEnd => .ok (.bool (!l.isEmpty), l)
  | .atEnd => .ok (.bool l.isEmpty, l)
  | .each n => .ok (.values (l.take n), l)

/-- A program with a cursor that stands for a list. -/
def runSpec : List α → List Use → R (List (Obs α))
  | _, [] => .ok []
  | l, u :: us => match useSpec l u with
    | .error e => .error e
    | .ok (o, l) => match runSpec l us with
      | .error e => .error e
      | .ok os => .ok (o :: os)

end Verif.Cursor
