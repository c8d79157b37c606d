import Verif.Coll.Model
/-!
# What a user expects of the functions for collections
-/
namespace Verif.Coll

variable {σ α β : Type}

/-- A class whose functions agree with each other: the size is the number of elements, and `data()` points to them. -/
structure Cls.Agrees (c : Cls σ α β) : Prop where
  size : ∀ e n, c.elems = some e → c.size = some n → ∀ s, n s = (e s).length
  data : ∀ e d, c.elems = some e → c.data = some d → ∀ s i a, (e s)[i]? = some a → d s i = .ok a

/-- What the subscript operator has to do for an indexed range: element `i` is the `i`-th element of a loop, and looking at it changes nothing. -/
def Cls.IndexAgrees (c : Cls σ α β) : Prop := ∀ e f, c.elems = some e → c.index = some f → ∀ s i a, (e s)[i]? = some a → f s i = .ok (.inl a, s)

/-- The six ways to add an element, the preferred one first. -/
def Cls.ways (c : Cls σ α β) : List (Option (σ → α → R σ)) := [c.pushBack, c.add, c.insert, c.push, c.shl, c.plusEq]

/-- The property of a range: it can be looped over. -/
def Loopable (c : Coll σ α β) : Prop := ∃ e, elements c = some e

/-- The property of an indexed range: it can be looped over, it has a size, the number of its elements, and `get` gives the `i`-th of them. -/
def Indexed (c : Coll σ α β) : Prop :=
  ∃ e n g, elements c = some e ∧ size c = some n ∧ get c = some g ∧ (∀ s, n s = (e s).length) ∧
    ∀ s i a, (e s)[i]? = some a → g s i = .ok (.inl a, s)

end Verif.Coll
