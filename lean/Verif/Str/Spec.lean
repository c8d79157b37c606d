import Verif.StrView.Spec
/-!
# What strings are: mathematical character sequences

A program has a fixed number of string variables.  Each is not alive, moved from, or holds a sequence of
characters.  `step` says what each operation makes of them, and is `none` when the caller breaks the rules:
an operation on a variable that is not alive, reading a string that was moved from, an index out of range, a text
of `2^61` characters or more, or moving a string onto itself.

The flag next to the characters says whether a zero byte is known to follow them (for `c_str`).
-/
namespace Verif.Str
open Verif.StrView (Chr)

/-- Operations on string variables; `d` is the variable changed, `s` another one that is read. -/
inductive Op where
  | make (d : Nat) (l : List Chr)
  | makeFilled (d n : Nat) (c : Chr)
  | copyNew (d s : Nat)
  | moveNew (d s : Nat)
  | assign (d s : Nat)
  | moveAssign (d s : Nat)
  | destroy (d : Nat)
  | pushBack (d : Nat) (c : Chr)
  | popBack (d : Nat)
  | reserve (d n : Nat)
  | resize (d n : Nat) (c : Chr)
  | clear (d : Nat)
  | shrink (d : Nat)
  | fillAll (d : Nat) (c : Chr)
  | fill (d : Nat) (c : Chr) (n : Nat)
  | lowerNew (d s : Nat)
  | upperNew (d s : Nat)
  | capitalizedNew (d s : Nat)
  | replacedCharsNew (d s : Nat) (old new : Chr)
  | capitalize (d : Nat)
  | replaceChars (d : Nat) (old new : Chr)
  | removePrefix (d n : Nat)
  | removeSuffix (d n : Nat)
  | removePrefixStr (d : Nat) (p : List Chr)
  | removeSuffixStr (d : Nat) (p : List Chr)
  | trimStart (d : Nat) (p : Chr → Bool)
  | trimEnd (d : Nat) (p : Chr → Bool)
  | trim (d : Nat) (p : Chr → Bool)
  | padStart (d n : Nat) (c : Chr)
  | padEnd (d n : Nat) (c : Chr)
  | replaceAt (d pos count : Nat) (m : List Chr)
  | insert (d pos : Nat) (m : List Chr)
  | replaceAll (d : Nat) (old new : List Chr)
  | append (d : Nat) (m : List Chr)
  | appendOwn (d off len : Nat)
  | replacedAtNew (d s pos count : Nat) (m : List Chr)
  | replacedNew (d s : Nat) (old new : List Chr)
  | concatNew (d : Nat) (m : List Chr) (s : Nat)
  | substringNew (d s off n : Nat)

namespace Spec

/-- State of a variable. -/
inductive Cell where
  | dead
  | moved
  | val (l : List Chr) (zero : Bool)
deriving DecidableEq, Repr

/-- Replaces every leftmost non-overlapping occurrence of `old`; `skip` characters of an occurrence are left out. -/
def subst (old new : List Chr) : List Chr → Nat → List Chr
  | [], _ => []
  | _ :: t, skip + 1 => subst old new t skip
  | c :: t, 0 => if old.isPrefixOf (c :: t) then new ++ subst old new t (old.length - 1) else c :: subst old new t 0

/-- `r` is `l` with every leftmost non-overlapping occurrence of `old` replaced by `new`. -/
inductive Replaced (old new : List Chr) : List Chr → List Chr → Prop where
  | done (l) : (∀ i, ¬ StrView.Spec.OccursAt l old i) → Replaced old new l l
  | step (a b r) : (∀ i, i < a.length → ¬ StrView.Spec.OccursAt (a ++ old ++ b) old i) → Replaced old new b r →
      Replaced old new (a ++ old ++ b) (a ++ new ++ r)

/-- The upper-case form of a lower-case letter; other characters stay. -/
def upperChr (c : Chr) : Chr := if 97 ≤ c.toNat ∧ c.toNat ≤ 122 then c - 32#8 else c

/-- Without the longest prefix of characters satisfying `p`. -/
def dropStart (p : Chr → Bool) : List Chr → List Chr
  | [] => []
  | c :: t => if p c then dropStart p t else c :: t

/-- Without the longest suffix of characters satisfying `p`. -/
def dropEnd (p : Chr → Bool) (l : List Chr) : List Chr := (dropStart p l.reverse).reverse

/-- Texts must have fewer than `2^61` characters. -/
def small (l : List Chr) (t : Bool) : Option (List Chr × Bool) := if l.length < 2 ^ 61 then some (l, t) else none

/-- Changes the text of a variable. -/
def modify (σ : List Cell) (d : Nat) (f : List Chr → Bool → Option (List Chr × Bool)) : Option (List Cell) :=
  match σ[d]? with
  | some (.val l t) => (f l t).map fun p => σ.set d (.val p.1 p.2)
  | _ => none

/-- Starts the life of a variable. -/
def create (σ : List Cell) (d : Nat) (v : Option (List Chr × Bool)) : Option (List Cell) :=
  match σ[d]? with
  | some .dead => v.map fun p => σ.set d (.val p.1 p.2)
  | _ => none

/-- Starts the life of a variable with a text made from that of another. -/
def createFrom (σ : List Cell) (d s : Nat) (f : List Chr → Bool → Option (List Chr × Bool)) : Option (List Cell) :=
  match σ[s]? with
  | some (.val l t) => create σ d (f l t)
  | _ => none

/-- The variable is alive (it may have been moved from). -/
def alive (σ : List Cell) (d : Nat) : Bool :=
  match σ[d]? with
  | some (.val _ _) => true
  | some .moved => true
  | _ => false

/-- The operations on sequences. -/
def step (σ : List Cell) : Op → Option (List Cell)
  | .make d l => create σ d (small l true)
  | .makeFilled d n c => create σ d (small (List.replicate n c) true)
  | .copyNew d s => createFrom σ d s fun l t => some (l, t)
  | .moveNew d s => (createFrom σ d s fun l t => some (l, t)).map fun σ => σ.set s .moved
  | .assign d s =>
    match σ[s]? with
    | some (.val l t) => if d = s then some σ else if alive σ d then some (σ.set d (.val l t)) else none
    | _ => none
  | .moveAssign d s =>
    match σ[s]? with
    | some (.val l t) => if d ≠ s ∧ alive σ d then some ((σ.set d (.val l t)).set s .moved) else none
    | _ => none
  | .destroy d => if alive σ d then some (σ.set d .dead) else none
  | .pushBack d c => modify σ d fun l _ => small (l ++ [c]) true
  | .popBack d => modify σ d fun l _ => if l = [] then none else some (l.dropLast, true)
  | .reserve d n => modify σ d fun l t => if n < 2 ^ 61 then some (l, t) else none
  | .resize d n c => modify σ d fun l _ => if n < 2 ^ 61 then some (l.take n ++ List.replicate (n - l.length) c, true) else none
  | .clear d => if alive σ d then some (σ.set d (.val [] true)) else none
  | .shrink d => modify σ d fun l t => some (l, t)
  | .fillAll d c => modify σ d fun l t => some (List.replicate l.length c, t)
  | .fill d c n => modify σ d fun _ _ => if n < 2 ^ 61 then some (List.replicate n c, true) else none
  | .lowerNew d s => createFrom σ d s fun l _ => some (l.map StrView.Spec.lowerChr, true)
  | .upperNew d s => createFrom σ d s fun l _ => some (l.map upperChr, true)
  | .capitalizedNew d s => createFrom σ d s fun l _ => some ((l.take 1).map upperChr ++ (l.drop 1).map StrView.Spec.lowerChr, true)
  | .replacedCharsNew d s old new => createFrom σ d s fun l _ => some (l.map fun c => if c = old then new else c, true)
  | .capitalize d => modify σ d fun l t => some ((l.take 1).map upperChr ++ (l.drop 1).map StrView.Spec.lowerChr, t)
  | .replaceChars d old new => modify σ d fun l t => some (l.map fun c => if c = old then new else c, t)
  | .removePrefix d n => modify σ d fun l _ => if n ≤ l.length then some (l.drop n, false) else none
  | .removeSuffix d n => modify σ d fun l _ => if n ≤ l.length then some (l.take (l.length - n), false) else none
  | .removePrefixStr d p => modify σ d fun l _ => if p <+: l then some (l.drop p.length, false) else none
  | .removeSuffixStr d p => modify σ d fun l _ => if p <:+ l then some (l.take (l.length - p.length), false) else none
  | .trimStart d p => modify σ d fun l t => some (dropStart p l, t)
  | .trimEnd d p => modify σ d fun l _ => some (dropEnd p l, true)
  | .trim d p => modify σ d fun l _ => some (dropEnd p (dropStart p l), true)
  | .padStart d n c => modify σ d fun l t => if n < 2 ^ 61 then some (List.replicate (n - l.length) c ++ l, t) else none
  | .padEnd d n c => modify σ d fun l t => if n < 2 ^ 61 then some (l ++ List.replicate (n - l.length) c, t) else none
  | .replaceAt d pos count m => modify σ d fun l t =>
      if pos + count ≤ l.length then small (l.take pos ++ m ++ l.drop (pos + count)) t else none
  | .insert d pos m => modify σ d fun l t => if pos ≤ l.length then small (l.take pos ++ m ++ l.drop pos) t else none
  | .replaceAll d old new => modify σ d fun l t => if old = [] then none else small (subst old new l 0) t
  | .append d m => modify σ d fun l _ => small (l ++ m) true
  | .appendOwn d off len => modify σ d fun l _ => if off + len ≤ l.length then small (l ++ (l.drop off).take len) true else none
  | .replacedAtNew d s pos count m => createFrom σ d s fun l _ =>
      if pos + count ≤ l.length then small (l.take pos ++ m ++ l.drop (pos + count)) true else none
  | .replacedNew d s old new => createFrom σ d s fun l t => if old = [] then none else small (subst old new l 0) t
  | .concatNew d m s => createFrom σ d s fun l _ => small (m ++ l) true
  | .substringNew d s off n => createFrom σ d s fun l _ => if off + n ≤ l.length then some ((l.drop off).take n, true) else none

/-- A history. -/
def run : List Cell → List Op → Option (List Cell)
  | σ, [] => some σ
  | σ, op :: ops => (step σ op).bind fun σ => run σ ops

/-- `n` variables, none of them alive. -/
def init (n : Nat) : List Cell := List.replicate n .dead

end Spec
end Verif.Str
