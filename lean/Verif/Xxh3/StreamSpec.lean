import Verif.Xxh3.Spec
import Verif.Xxh3.Stream

/-! What streaming should give: the hash of all data since the last reset. -/
namespace Verif.Xxh3.Spec

inductive Key where
  | plain
  | seed (s : U64)
  | secret (m : Mem)
deriving DecidableEq, Repr

/-- The hash of a message at once. -/
def hashOf : Key → Mem → U64
  | .plain, m => xxh3 0#64 m
  | .seed s, m => xxh3 s m
  | .secret k, m => xxh3Secret k m

/-- A state since its last reset: the data of the updates, one after the other. -/
structure Sess where
  key : Key
  chunks : List Mem

def Sess.msg (s : Sess) : Mem := s.chunks.flatten

def Sess.add (s : Sess) (m : Mem) : Sess := { s with chunks := s.chunks ++ [m] }

abbrev View := Nat → Option Sess

def View.put (v : View) (i : Nat) (s : Option Sess) : View := fun j => if j = i then s else v j

/-- The effect of a call on the sessions. -/
def next (v : View) : Op → View
  | .reset i => v.put i (some ⟨.plain, []⟩)
  | .resetSeed i s => v.put i (some ⟨.seed s, []⟩)
  | .resetSecret i k => v.put i (some ⟨.secret k, []⟩)
  | .update i m => v.put i ((v i).map (·.add m))
  | .updateNull _ => v
  | .digest _ => v
  | .copy d i => v.put d (v i)
  | .free i => v.put i none

/-- What the call should return. -/
def obs (v : View) : Op → Obs
  | .updateNull _ => .status false
  | .digest i => match v i with | some s => .hash (hashOf s.key s.msg) | none => .none
  | .copy _ _ => .none
  | _ => .status true

def observations (v : View) : List Op → List Obs
  | [] => []
  | op :: ops => obs v op :: observations (next v op) ops

/-- What the documentation asks of a caller: states are reset before they are used, secrets have at least 136 bytes (and their size fits into 32 bits), and a state is not copied onto itself. -/
def legal (v : View) : Op → Prop
  | .resetSecret _ k => 136 ≤ k.length ∧ k.length < 2 ^ 32
  | .update i m => ∃ s, v i = some s ∧ s.msg.length + m.length < 2 ^ 64
  | .digest i => ∃ s, v i = some s
  | .copy d i => d ≠ i ∧ ∃ s, v i = some s
  | _ => True

/-- The cases in which the code is right: all pieces are shorter than 256 bytes, or the end of the message does not lie in the first quarter of a buffer; a state with a seed is not copied. -/
def safe (debug : Bool) (v : View) : Op → Prop
  | .digest i => ∀ s, v i = some s → (debug = false ∨ s.msg.length ≠ 8) ∧
      ((∀ c ∈ s.chunks, c.length < 256) ∨ s.msg.length ≤ 256 ∨ s.msg.length % 256 = 0 ∨ 64 ≤ s.msg.length % 256)
  | .copy _ i => ∀ s, v i = some s → ∀ x, s.key ≠ .seed x
  | _ => True

def history (p : View → Op → Prop) (v : View) : List Op → Prop
  | [] => True
  | op :: ops => p v op ∧ history p (next v op) ops

end Verif.Xxh3.Spec
