import Verif.Common
/-!
# Cursors

Model of `cc::cursor`, `cc::iterator_cursor` and `cc::to_cursor` (`/repo/src/clean-core/cursor.hh`).

A class that derives from `cursor` is given by its three functions.  Every call of `get` and `advance` is recorded together with the state of the object at that time.
Contracts are checked.  Returned references are represented by the value they refer to.
-/
namespace Verif.Cursor

/-- The functions of a class derived from `cursor` (cursor.hh 11-16). -/
structure Impl (σ α : Type) where
  get : σ → R α
  advance : σ → R σ
  valid : σ → Bool

/-- A call of a function of the derived class. -/
inductive Call (σ : Type) where
  | get (s : σ)
  | advance (s : σ)
deriving DecidableEq, Repr

/-- The object the function was called on. -/
def Call.on {σ : Type} : Call σ → σ
  | .get s => s
  | .advance s => s

/-- What a piece of a program does: the calls it makes, in order, and how it ends. -/
structure Run (σ β : Type) where
  calls : List (Call σ)
  out : R β

variable {σ α β γ : Type}

/-- One piece after the other; nothing follows a failure. -/
def Run.seq (x : Run σ β) (f : β → Run σ γ) : Run σ γ :=
  match x.out with
  | .ok b => ⟨x.calls ++ (f b).calls, (f b).out⟩
  | .error e => ⟨x.calls, .error e⟩

/-- No call. -/
def Run.done (b : β) : Run σ β := ⟨[], .ok b⟩

/-- `operator*` (cursor.hh 25). -/
def deref (I : Impl σ α) (s : σ) : Run σ α := ⟨[.get s], I.get s⟩

/-- `operator++()` (cursor.hh 26). -/
def incr (I : Impl σ α) (s : σ) : Run σ σ := ⟨[.advance s], I.advance s⟩

/-- `operator++(int)` (cursor.hh 27), which returns nothing. -/
def incrPost (I : Impl σ α) (s : σ) : Run σ σ := ⟨[.advance s], I.advance s⟩

/-- `operator bool` (cursor.hh 28). -/
def toBool (I : Impl σ α) (s : σ) : Bool := I.valid s

/-- `operator==(sentinel)` (cursor.hh 30). -/
def atEnd (I : Impl σ α) (s : σ) : Bool := !I.valid s

/-- `operator!=(sentinel)` (cursor.hh 31). -/
def notAtEnd (I : Impl σ α) (s : σ) : Bool := I.valid s

/-- `begin()` (cursor.hh 34): a copy. -/
def begin_ (s : σ) : σ := s

/-- What the body of a loop does with a variable of the program: the new value, and whether it leaves the loop. -/
abbrev Body (α β : Type) := β → α → R (β × Bool)

/-- The loop behind `for (auto&& v : c)` from a cursor on; `n` bounds the rounds, `none` if they do not suffice. -/
def loop (I : Impl σ α) (body : Body α β) : Nat → σ → β → Run σ (Option β)
  | n, it, b =>
    if notAtEnd I it then
      match n with
      | 0 => .done none
      | n + 1 =>
        (deref I it).seq fun a =>
          match body b a with
          | .error e => ⟨[], .error e⟩
          | .ok (b, true) => .done (some b)
          | .ok (b, false) => (incr I it).seq fun it => loop I body n it b
    else .done (some b)

/-- `for (auto&& v : c) body` with `begin` and `end` of cursor.hh 34-35. -/
def rangeFor (I : Impl σ α) (body : Body α β) (n : Nat) (c : σ) (b : β) : Run σ (Option β) := loop I body n (begin_ c) b

/-! ### iterators -/

/-- The operations of an iterator: `!=`, `*`, `++` and the conversion to `bool`, which a class need not have. -/
structure Iter (ι α : Type) where
  ne : ι → ι → Bool
  deref : ι → R α
  next : ι → R ι
  truth : Option (ι → Bool)

variable {ι : Type}

/-- `iterator_cursor` (cursor.hh 57-59). -/
structure ItCur (ι : Type) where
  curr : ι
  fin : ι
deriving DecidableEq, Repr

/-- `iterator_cursor::is_valid` (cursor.hh 55). -/
def itValid (I : Iter ι α) (c : ItCur ι) : Bool := I.ne c.curr c.fin

/-- `iterator_cursor::get` (cursor.hh 44-49), given the conversion to `bool`. -/
def itGet (I : Iter ι α) (truth : ι → Bool) (c : ItCur ι) : R α := do
  ccAssert (truth c.curr)
  ccAssert (itValid I c)
  I.deref c.curr

/-- `iterator_cursor::advance` (cursor.hh 50-54). -/
def itAdvance (I : Iter ι α) (c : ItCur ι) : R (ItCur ι) := do
  ccAssert (itValid I c)
  let x ← I.next c.curr
  .ok { c with curr := x }

/-- The class `iterator_cursor` (cursor.hh 39-60); using its `get` does not compile (`none`) if the iterator has no conversion to `bool`. -/
def itImpl (I : Iter ι α) : Option (Impl (ItCur ι) α) :=
  match I.truth with
  | none => none
  | some t => some { get := itGet I t, advance := itAdvance I, valid := itValid I }

/-- `to_cursor(range)` (cursor.hh 64-69) for a range with these iterators. -/
def toCursor (b e : ι) : ItCur ι := { curr := b, fin := e }

/-! ### programs that use a cursor -/

/-- A use of a cursor variable. -/
inductive Use where
  | deref
  | incr
  | incrPost
  | toBool
  | atEnd
  | notAtEnd
  /-- a loop that collects the elements, leaving after the given number of them -/
  | each (n : Nat)
deriving DecidableEq, Repr

/-- What a program sees of a use. -/
inductive Obs (α : Type) where
  | value (a : α)
  | none
  | bool (b : Bool)
  | values (l : List α)
deriving DecidableEq, Repr

/-- The body that collects elements and leaves when it has `n`. -/
def collect (n : Nat) : Body α (List α) := fun l a => .ok (l ++ [a], l.length + 1 == n)

/-- One use of the variable: what is seen and the variable afterwards. -/
def use (I : Impl σ α) (s : σ) : Use → Run σ (Obs α × σ)
  | .deref => (deref I s).seq fun a => .done (.value a, s)
  | .incr => (incr I s).seq fun s => .done (.none, s)
  | .incrPost => (incrPost I s).seq fun s => .done (.none, s)
  | .toBool => .done (.bool (toBool I s), s)
  | .atEnd => .done (.bool (atEnd I s), s)
  | .notAtEnd => .done (.bool (notAtEnd I s), s)
  | .each n => (rangeFor I (collect n) n s []).seq fun r => .done (.values (r.getD []), s)

/-- A program. -/
def run (I : Impl σ α) : σ → List Use → Run σ (List (Obs α))
  | _, [] => .done []
  | s, u :: us => (use I s u).seq fun (o, s) => (run I s us).seq fun os => .done (o :: os)

end Verif.Cursor
