import Verif.AHelp.Model
import Verif.SysAlloc.Spec

/-! Specification of the helpers of `cc::allocator`, and what is assumed about an allocator. -/
namespace Verif.AHelp.Spec
open Verif.AHelp Verif.Bits
open Verif.SysAlloc (Heap)

/-! ### the allocator -/

/-- What `cc::allocator` says about `alloc`: a block that is aligned as asked for, at least as large as asked for, and has no byte in common with a block
that is in use. It asserts if there is no memory; null is returned for size 0 only. -/
structure Good (A : Al) : Prop where
  fails : ∀ h n al f, A.alloc h n al = .error f → f = .assert
  null : ∀ h n al, A.alloc h n al = .ok none → n = 0
  fresh : ∀ h n al a u, IsPowerOfTwo al.toNat → A.alloc h n al = .ok (some (a, u)) → SysAlloc.Spec.Fresh h a u ∧ n.toNat ≤ u ∧ al.toNat ∣ a

/-- A type of C++. A type with a destructor is not trivially constructible. -/
structure Ok (E : Elem) : Prop where
  pos : 0 < E.size
  small : E.size < 2 ^ 64
  align : IsPowerOfTwo E.align
  dvd : E.align ∣ E.size
  dflt : E.dflt.length = E.size
  tctor : E.tctor = true → E.tdtor = true

/-! ### what the program sees -/

/-- How memory was obtained. -/
inductive Kind where
  | single (E : Elem)
  | array (E : Elem)
  | sized (E : Elem)
  | raw
deriving DecidableEq

/-- The memory behind a pointer: how it was obtained, its alignment, and its bytes as far as they are known. -/
structure Item where
  kind : Kind
  align : Nat
  bytes : List (Option Byte)

/-- The memory behind each variable, `none`: null. -/
abbrev State := Nat → Option Item

def upd (s : State) (i : Nat) (b : Option Item) : State := fun j => if j = i then b else s j

/-- `n` default constructed objects: all bytes are zero if the type is trivially constructible. -/
def arrayBytes (E : Elem) (n : Nat) : List (Option Byte) :=
  (List.range (E.size * n)).map fun o => some (if E.tctor then 0 else E.dflt.getD (o % E.size) 0)

/-- The bytes of a view. -/
def bytesOf (v : View) : List Byte := v.getD []

/-- The string that a C function sees. -/
def cstring (l : List Byte) : List Byte := l.takeWhile (fun v => v != 0)

/-- Calls that a program may make: pointers are not overwritten, memory is given back in the way it was obtained, accesses are inside. -/
def Legal (s : State) : Op → Prop
  | .newT i E v => s i = none ∧ Ok E ∧ v.length = E.size
  | .newArray i E _ => s i = none ∧ Ok E
  | .newArraySized i E _ => s i = none ∧ Ok E
  | .dataCopy i E _ => s i = none ∧ Ok E
  | .stringCopy i _ => s i = none
  | .alloc i _ al => s i = none ∧ IsPowerOfTwo al.toNat
  | .realloc i _ al => (∀ b, s i = some b → b.kind = .raw) ∧ IsPowerOfTwo al.toNat
  | .deleteT i E => ∀ b, s i = some b → b.kind = .single E
  | .deleteArray i E => ∀ b, s i = some b → b.kind = .array E
  | .deleteArraySized i E n => ∀ b, s i = some b → b.kind = .sized E ∧ b.bytes.length = E.size * n.toNat
  | .free i => ∀ b, s i = some b → b.kind = .raw
  | .cstr _ _ => True
  | .cstrIn _ i n _ => ∃ b, s i = some b ∧ b.kind = .raw ∧ n ≤ b.bytes.length
  | .write i off _ => ∃ b, s i = some b ∧ off < b.bytes.length
  | .read i off => ∃ b, s i = some b ∧ off < b.bytes.length

/-- A new item behind variable `i`; null if there is nothing to store. -/
def made (s : State) (i : Nat) (b : Item) (ok : Bool) : Option State := if ok then some (upd s i (some b)) else if b.bytes.length = 0 then some s else none

/-- The state after a call that returned `o`; `none`: the call must not return `o`. -/
def step (s : State) (op : Op) (o : Obs) : Option State :=
  match op, o with
  | .newT i E v, .ptr ok => made s i ⟨.single E, E.align, v.map some⟩ ok
  | .newArray i E n, .ptr true => some (upd s i (some ⟨.array E, E.align, arrayBytes E n.toNat⟩))
  | .newArraySized i E n, .ptr ok => made s i ⟨.sized E, E.align, arrayBytes E n.toNat⟩ ok
  | .dataCopy i E d, .ptr ok => made s i ⟨.raw, E.align, (bytesOf d).map some⟩ ok
  | .stringCopy i d, .ptr ok => made s i ⟨.raw, 1, (bytesOf d ++ [0]).map some⟩ ok
  | .alloc i n al, .ptr ok => made s i ⟨.raw, al.toNat, List.replicate n.toNat none⟩ ok
  | .realloc i n al, .ptr ok => if ok = decide (n ≠ 0) then some (upd s i (resized (s i) n.toNat al.toNat)) else none
  | .deleteT i _, .none | .deleteArray i _, .none | .deleteArraySized i _ _, .none | .free i, .none => some (upd s i none)
  | .cstr sv _, .str l => if l = cstring (bytesOf sv) then some s else none
  | .cstrIn sv i n _, .str l => if l = cstring (bytesOf sv) then (s i).map fun b => upd s i (some { b with bytes := filled b.bytes n (bytesOf sv) }) else none
  | .write i off v, .none => (s i).map fun b => upd s i (some { b with bytes := b.bytes.set off (some v) })
  | .read i off, .byte v =>
    match s i with
    | some b => if b.bytes[off]? = some none ∨ b.bytes[off]? = some (some v) then some s else none
    | none => none
  | _, _ => none
where
  /-- The memory after it has been given a new size: the bytes that fit stay, new ones are unknown. Size 0 is null. -/
  resized (b : Option Item) (n al : Nat) : Option Item :=
    if n = 0 then none else some ⟨.raw, al, ((b.map Item.bytes).getD []).take n ++ List.replicate (n - ((b.map Item.bytes).getD []).length) none⟩
  /-- The buffer of a C string: it holds the string and a zero, if they fit into its first `n` bytes. -/
  filled (b : List (Option Byte)) (n : Nat) (l : List Byte) : List (Option Byte) :=
    if l.length < n then (l ++ [0]).map some ++ b.drop (l.length + 1) else b

/-- A history and what its calls returned. -/
def run (s : State) : List Op → List Obs → Option State
  | [], [] => some s
  | op :: ops, o :: os => (step s op o).bind fun s => run s ops os
  | _, _ => none

/-- All calls of a history are legal, whatever they return. -/
def AllLegal (s : State) : List Op → Prop
  | [] => True
  | op :: ops => Legal s op ∧ ∀ o s', step s op o = some s' → AllLegal s' ops

/-- Every item is aligned and has no byte in common with another one, and exactly the elements with a destructor that belong to an item are alive. -/
structure Placed (w : World) (s : State) : Prop where
  null : ∀ i, s i = none ↔ w.vars i = none
  aligned : ∀ i b a, s i = some b → w.vars i = some a → b.align ∣ a
  apart : ∀ i j b c a d, i ≠ j → s i = some b → s j = some c → w.vars i = some a → w.vars j = some d →
    a + b.bytes.length ≤ d ∨ d + c.bytes.length ≤ a ∨ b.bytes.length = 0 ∨ c.bytes.length = 0
  alive : ∀ x E, w.st.objs x = some E ↔ E.tdtor = false ∧ ∃ i b a k, s i = some b ∧ w.vars i = some a ∧
    (b.kind = .single E ∨ b.kind = .array E ∨ b.kind = .sized E) ∧ x = a + E.size * k ∧ E.size * k < b.bytes.length

/-! ### cases that are left out, and the case that there is no memory -/

/-- The sizes that are computed do not wrap around, and loops have less than `2^32` rounds. -/
def Small : Op → Prop
  | .newArray _ E n => E.size * n.toNat + padding E.size < 2 ^ 64 ∧ (E.tctor = false ∨ E.tdtor = false → n.toNat < 2 ^ 32)
  | .newArraySized _ E n => E.size * n.toNat < 2 ^ 64 ∧ (E.tctor = false ∨ E.tdtor = false → n.toNat < 2 ^ 32)
  | .dataCopy _ _ d => (bytesOf d).length < 2 ^ 64
  | .stringCopy _ d => (bytesOf d).length + 1 < 2 ^ 64
  | .cstr sv _ | .cstrIn sv _ _ _ => (bytesOf sv).length + 10 < 2 ^ 64
  | _ => True

/-- Calls without unaligned stores and without null arguments for the C library. -/
def ByTheLetter : Op → Prop
  | .newArray _ E _ | .deleteArray _ E => 8 ∣ E.align
  | .newArraySized _ E n => E.tctor = false ∨ n ≠ 0
  | .dataCopy _ _ d => d ≠ none
  | .cstr _ _ => False
  | .cstrIn sv _ n _ => sv ≠ none ∧ (bytesOf sv).length < n
  | _ => True

/-- The allocator has no memory for this request. -/
def Refused (A : Al) (w : World) (n al : Nat) : Prop := A.alloc w.st.heap (BitVec.ofNat 64 n) (BitVec.ofNat 64 al) = .error .assert

/-- The call asks for memory that the allocator does not have; or `realloc` needs a size that the allocator does not know; or a C string needs an allocator, but
there is none. -/
def Stops (A : Al) (w : World) : Op → Prop
  | .newT _ E _ => Refused A w E.size E.align
  | .newArray _ E n => Refused A w (E.size * n.toNat + padding E.size) E.align
  | .newArraySized _ E n => Refused A w (E.size * n.toNat) E.align
  | .dataCopy _ E d => Refused A w (bytesOf d).length E.align
  | .stringCopy _ d => Refused A w ((bytesOf d).length + 1) 1
  | .alloc _ n al => Refused A w n.toNat al.toNat
  | .realloc i n al => Refused A w n.toNat al.toNat ∨ (w.vars i ≠ none ∧ A.sizes = false)
  | .cstr sv hv => hv = false ∨ Refused A w ((bytesOf sv).length + 10) 1
  | .cstrIn sv _ n hv => n ≤ (bytesOf sv).length ∧ (hv = false ∨ Refused A w ((bytesOf sv).length + 10) 1)
  | _ => False

/-- One of the calls does. -/
def SomeStops (A : Al) (strict : Bool) (rounds : Nat) (w : World) : List Op → Prop
  | [] => False
  | op :: ops => Stops A w op ∨ ∃ w' o, AHelp.step A strict rounds w op = .ok (some (w', o)) ∧ SomeStops A strict rounds w' ops

end Verif.AHelp.Spec
