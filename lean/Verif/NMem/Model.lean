import Verif.Bits.Model
import Verif.Common

/-!
Model of /repo/src/clean-core/native/memory.cc on Linux, with the parts of the operating system it calls: `mmap`, `munmap` and `mprotect` as
their manual pages describe them. The operating system knows for each page if it is mapped and accessible, which bytes it holds, and if there
is memory behind it. It picks the address of a new mapping, which is a parameter here. `grow_physical_memory` is in `Verif/Alloc/Pages.lean`.

Simplified: all mappings are private, anonymous ones made by `reserve`; a call of `mprotect` that fails changes nothing (the code asserts then).
-/
namespace Verif.NMem
open Verif.Bits

/-- State of a page. -/
inductive Page where
  | unmapped | noAccess | readWrite
deriving DecidableEq, Repr

/-- The operating system: pages are given by their number, bytes by their address. -/
structure OS where
  /-- size of a page -/
  psize : Nat
  page : Nat → Page
  /-- is there physical memory behind this page? -/
  resident : Nat → Bool
  mem : Nat → BitVec 8

/-- Are all pages with a byte of `[a, a + n)` of one kind? -/
def OS.allPages (os : OS) (a n : Nat) (f : Page → Bool) : Bool := (List.range n).all (fun i => f (os.page ((a + i) / os.psize)))

/-- Is page `k` one of those with a byte of `[a, a + n)`? -/
def OS.overlaps (os : OS) (a n k : Nat) : Bool := decide (a / os.psize ≤ k ∧ k * os.psize < a + n)

/-- `mmap(nullptr, size, PROT_NONE, MAP_PRIVATE | MAP_ANONYMOUS | ..., -1, offset)`: fails (`none`) for size zero, for an offset that is no
multiple of the page size, and if there is no room. -/
def mmap (os : OS) (size offset : Nat) (room : Option (BitVec 64)) : Option (BitVec 64 × OS) :=
  if size = 0 ∨ offset % os.psize ≠ 0 then none
  else
    match room with
    | none => none
    | some a => some (a, { os with
        page := fun k => if os.overlaps a.toNat size k then .noAccess else os.page k
        resident := fun k => if os.overlaps a.toNat size k then false else os.resident k
        mem := fun x => if os.overlaps a.toNat size (x / os.psize) then 0#8 else os.mem x })

/-- `munmap`: fails if the address is no multiple of the page size, or for size zero. -/
def munmap (os : OS) (a size : Nat) : Option OS :=
  if a % os.psize ≠ 0 ∨ size = 0 then none
  else some { os with
    page := fun k => if os.overlaps a size k then .unmapped else os.page k
    resident := fun k => if os.overlaps a size k then false else os.resident k }

/-- `mprotect`: fails if the address is no multiple of the page size, or if some page is not mapped. -/
def mprotect (os : OS) (a size : Nat) (prot : Page) : Option OS :=
  if a % os.psize ≠ 0 then none
  else if os.allPages a size (fun p => decide (p ≠ .unmapped)) then
    some { os with page := fun k => if os.overlaps a size k then prot else os.page k }
  else none

/-- A read of one byte by the program. -/
def read (os : OS) (a : Nat) : R (BitVec 8) :=
  if os.page (a / os.psize) = .readWrite then .ok (os.mem a) else .error .ub

/-- A write of one byte by the program: the page needs physical memory now. -/
def write (os : OS) (a : Nat) (v : BitVec 8) : R OS :=
  if os.page (a / os.psize) = .readWrite then
    .ok { os with mem := fun x => if x = a then v else os.mem x, resident := fun k => if k = a / os.psize then true else os.resident k }
  else .error .ub

/-- `reserve_virtual_memory` (memory.cc:24-49). -/
def reserve (os : OS) (size : BitVec 64) (room : Option (BitVec 64)) : R (BitVec 64 × OS) :=
  match mmap os size.toNat 4096 room with
  | none => .error .assert
  | some r => .ok r

/-- `free_virtual_memory` (memory.cc:51-67). -/
def free (os : OS) (ptr size : BitVec 64) : R OS :=
  match munmap os ptr.toNat size.toNat with
  | none => .error .assert
  | some os => .ok os

/-- The loop of `prefault_memory` (memory.cc:82-85): the addresses read. `fuel` bounds the number of turns. -/
def prefaultLoop (os : OS) (fin : BitVec 64) : Nat → BitVec 64 → R (List Nat)
  | 0, ptr => if ptr < fin then .error .ub else .ok []
  | fuel + 1, ptr =>
    if ptr < fin then do
      let _ ← read os ptr.toNat
      let l ← prefaultLoop os fin fuel (ptr + 4096#64)
      .ok (ptr.toNat :: l)
    else .ok []

/-- `prefault_memory` (memory.cc:71-87): the addresses read, in order; the value written to `s_byte_sink` is left out. -/
def prefault (os : OS) (fuel : Nat) (ptr size : BitVec 64) : R (List Nat) :=
  if size = 0#64 then .ok []
  else do
    let _ ← read os ptr.toNat
    let l ← prefaultLoop os (ptr + size) fuel (alignUp ptr 4096#64)
    .ok (ptr.toNat :: l)

/-- `commit_physical_memory` (memory.cc:89-108). -/
def commit (os : OS) (ptr size : BitVec 64) : R OS :=
  let newPtr := alignDown ptr 4096#64
  let newSize := alignUp (size + (ptr - newPtr)) 4096#64
  match mprotect os newPtr.toNat newSize.toNat .readWrite with
  | none => .error .assert
  | some os => .ok os

/-- `decommit_physical_memory` (memory.cc:110-130). -/
def decommit (os : OS) (ptr size : BitVec 64) : R OS :=
  let newPtr := alignDown ptr 4096#64
  let newSize := alignUp (size + (ptr - newPtr)) 4096#64
  match mprotect os newPtr.toNat newSize.toNat .noAccess with
  | none => .error .assert
  | some os => .ok os

/-! ### programs -/

/-- The calls and accesses of a program; `room` is the operating system's choice. -/
inductive Op where
  | reserve (size : BitVec 64) (room : Option (BitVec 64))
  | free (ptr size : BitVec 64)
  | commit (ptr size : BitVec 64)
  | decommit (ptr size : BitVec 64)
  | prefault (ptr size : BitVec 64)
  | read (a : Nat)
  | write (a : Nat) (v : BitVec 8)

/-- What the program gets back: an address, a byte, or nothing. -/
inductive Out where
  | addr (a : BitVec 64)
  | byte (v : BitVec 8)
  | unit
deriving DecidableEq

/-- One step. -/
def step (os : OS) : Op → R (OS × Out)
  | .reserve size room => do
    let (a, os) ← reserve os size room
    .ok (os, .addr a)
  | .free ptr size => do
    let os ← free os ptr size
    .ok (os, .unit)
  | .commit ptr size => do
    let os ← commit os ptr size
    .ok (os, .unit)
  | .decommit ptr size => do
    let os ← decommit os ptr size
    .ok (os, .unit)
  | .prefault ptr size => do
    let _ ← prefault os (size.toNat / 4096 + 1) ptr size
    .ok (os, .unit)
  | .read a => do
    let v ← read os a
    .ok (os, .byte v)
  | .write a v => do
    let os ← write os a v
    .ok (os, .unit)

/-- A history. -/
def run (os : OS) : List Op → R (OS × List Out)
  | [] => .ok (os, [])
  | op :: ops => do
    let (os, o) ← step os op
    let (os, l) ← run os ops
    .ok (os, o :: l)

/-- Nothing is mapped. -/
def boot (psize : Nat) : OS := { psize := psize, page := fun _ => .unmapped, resident := fun _ => false, mem := fun _ => 0#8 }

end Verif.NMem
