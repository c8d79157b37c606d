import Verif.Room.Model

/-! Specification for C123. It knows sizes and which requests are granted, nothing about how the containers work. -/
namespace Verif.Room.Spec

/-- The containers. -/
inductive Kind where
  | array
  | allocArray
  | vector
  | allocVector
  | fwdArray
  | chunk
deriving DecidableEq, Repr

/-- Make a container with `n` elements. -/
def make (k : Kind) (g : Lib) (T : Elem) (how : How) (n : Nat) : M Cont :=
  match k with
  | .array => Room.array g T how n
  | .allocArray => Room.allocArray g T how n
  | .vector => Room.vector g false T how n
  | .allocVector => Room.vector g true T how n
  | .fwdArray => Room.fwdArray g T n
  | .chunk => Room.chunk g T n

/-- Make the container, then use element `i`. -/
def makeAndUse (k : Kind) (g : Lib) (T : Elem) (how : How) (n i : Nat) : M Unit := do
  let c ← make k g T how n
  at' T c i

/-- `n` elements need more bytes than a `size_t` can say. -/
def TooMany (T : Elem) (n : Nat) : Prop := 2 ^ 64 ≤ n * T.size

/-- The bytes that are asked for then. -/
def asked (T : Elem) (n : Nat) : Nat := n * T.size % 2 ^ 64

/-- When something undefined happens, for some element. -/
def Bad (k : Kind) (g : Lib) (T : Elem) (how : How) (n : Nat) : Prop :=
  match k with
  | .array | .allocArray => TooMany T n ∧ (g (asked T n) ∨ asked T n = 0)
  | .vector => 0 < n ∧ (how = .filled → n ≤ 2 ^ 48) ∧ (TooMany T n ∨ ¬ g (asked T n))
  | .allocVector => (how = .filled → n ≤ 2 ^ 48) ∧ TooMany T n ∧ (g (asked T n) ∨ asked T n = 0)
  | .fwdArray => False
  | .chunk => TooMany T n ∧ g (asked T n)

/-- A vector whose elements fill its memory. -/
def full (T : Elem) (n : Nat) : Cont := { size := n, cap := n, data := if n = 0 then none else some (n * T.size) }

/-- The number of elements for which `emplace_back` asks for memory then. -/
def next (n : Nat) : Nat := if n = 0 then 1 else 2 * n

end Verif.Room.Spec
