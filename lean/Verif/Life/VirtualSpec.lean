import Verif.Life.Virtual

/-!
What a user expects of the life of a virtual allocator: it holds one range from `initialize` to `destroy` or the destructor, whichever
comes first, and that is all that is reserved.
-/
namespace Verif.Life.Virtual

/-- For every object that is alive: nothing, or the range it holds and how many bytes of it are allocated. -/
abbrev Spec := Nat → Option (Option (Nat × Nat × Nat))

def Spec.put (s : Spec) (i : Nat) (v : Option (Option (Nat × Nat × Nat))) : Spec := fun j => if j = i then v else s j

/-- The expected effect of a call and what it returns, as a relation; a call without an entry is an error. `initialize` of an object
that holds a range is one. -/
inductive Spec.Step : Spec → Op → Spec → Nat → Prop where
  | make {s : Spec} {i : Nat} (h : s i = none) : Spec.Step s (.make i) (s.put i (some none)) 0
  | setup {s : Spec} {i n c a : Nat} (h : s i = some none) (hn : 0 < n) (hc : ∃ k, c = 2 ^ k) (ha : a ≠ 0) (hb : a + n < 2 ^ 64)
      (hd : ∀ j b m u, s j = some (some (b, m, u)) → a + n ≤ b ∨ b + m ≤ a) :
      Spec.Step s (.setup i n c (some a)) (s.put i (some (some (a, n, 0)))) 0
  | destroy {s : Spec} {i : Nat} {v : Option (Nat × Nat × Nat)} (h : s i = some v) : Spec.Step s (.destroy i) (s.put i (some none)) 0
  | drop {s : Spec} {i : Nat} {v : Option (Nat × Nat × Nat)} (h : s i = some v) : Spec.Step s (.drop i) (s.put i none) 0
  | alloc {s : Spec} {i n a m u : Nat} (h : s i = some (some (a, m, u))) (hu : u + n ≤ m) :
      Spec.Step s (.alloc i n) (s.put i (some (some (a, m, u + n)))) (a + u)
  | reset {s : Spec} {i a m u : Nat} (h : s i = some (some (a, m, u))) : Spec.Step s (.reset i) (s.put i (some (some (a, m, 0)))) u
  | virtualSize {s : Spec} {i a m u : Nat} (h : s i = some (some (a, m, u))) : Spec.Step s (.virtualSize i) s m
  | allocatedSize {s : Spec} {i a m u : Nat} (h : s i = some (some (a, m, u))) : Spec.Step s (.allocatedSize i) s u

/-- A history. -/
inductive Spec.Run : Spec → List Op → Spec → List Nat → Prop where
  | nil {s : Spec} : Spec.Run s [] s []
  | cons {s t u : Spec} {op : Op} {ops : List Op} {n : Nat} {ns : List Nat} (h : Spec.Step s op t n) (hr : Spec.Run t ops u ns) :
      Spec.Run s (op :: ops) u (n :: ns)

/-- Nothing there. -/
def Spec.start : Spec := fun _ => none

end Verif.Life.Virtual
