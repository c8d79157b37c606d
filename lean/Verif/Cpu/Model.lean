import Verif.Common

/-!
Model of `cc::test_cpuid_register`, `test_cpu_support_lzcnt` and `test_cpu_support_popcount` (/repo/src/clean-core/intrinsics.hh:251-269).

A processor is what `cpuid` answers: four registers for the levels it has. `__get_cpuid` of GCC and Clang does not write the registers for a level
the processor does not have; `__cpuid` of MSVC writes something for every level.
-/
namespace Verif.Cpu

abbrev U32 := BitVec 32

/-- `eax`, `ebx`, `ecx`, `edx`. -/
abbrev Regs := List U32

structure Processor where
  cpuid : Nat → Regs
  has : Nat → Bool

inductive Compiler where
  | msvc | other
deriving DecidableEq

def reg (info : Regs) (i : Nat) : R U32 :=
  match info[i]? with
  | some x => .ok x
  | none => .error .ub

/-- `test_cpuid_register` (intrinsics.hh:251-262). -/
def test_cpuid_register (c : Compiler) (p : Processor) (level register_index bit_index : Nat) : R Bool :=
  match c with
  | .msvc => do
    let x ← reg (p.cpuid level) register_index
    if bit_index < 32 then .ok (x.sshiftRight bit_index != 0#32) else .error .ub
  | .other =>
    if p.has level then do
      let x ← reg (p.cpuid level) register_index
      if bit_index < 32 then .ok (x >>> bit_index != 0#32) else .error .ub
    else .error .ub

/-- `test_cpu_support_lzcnt` (intrinsics.hh:266). -/
def test_cpu_support_lzcnt (c : Compiler) (p : Processor) : R Bool := test_cpuid_register c p 0x80000001 2 5

/-- `test_cpu_support_popcount` (intrinsics.hh:269). -/
def test_cpu_support_popcount (c : Compiler) (p : Processor) : R Bool := test_cpuid_register c p 0x00000001 2 23

end Verif.Cpu
