import Verif.Set.Growth
import Verif.Set.Props

/-! Property C105 for `cc::set`. -/
namespace Verif.Set
open Verif.Map (HashEq)

variable {T : Type _}

/-- **C105** for `set`, without `reserve`. Over every history of `add`, `remove`, `clear` and queries, the nodes made are at most one for
each `add` and one for each chain of the table at the end, and the table is at most twice as long as the greatest size `p` (or four). -/
theorem C105_set_partial (H : HashEq T) (L : H.Lawful) (ops : List (Op T)) (hp : ∀ op ∈ ops, op.plain = true)
    {m : SetSt T} {os : List Out} (h : implRun H empty ops = .ok (m, os)) :
    ∃ p, peak H empty ops = .ok (m, p) ∧ m.next ≤ adds ops + m.entries.length ∧ m.entries.length ≤ max 4 (2 * p) := by
  obtain ⟨p, e⟩ := peak_run ops h
  obtain ⟨a1, a2, -⟩ := growth_bound L ops (empty_rel H) (by simp [empty]) hp e
  simp only [empty, List.length_nil] at a1 a2
  exact ⟨p, e, by omega, by omega⟩

/-- Twelve values: tables of 4, 8, 16 chains, 4 and 8 nodes are made again. -/
example : (peak natHash (empty : SetSt Nat) ((List.range 12).map (fun k => Op.add k))).map
    (fun r => (r.1.entries.length, r.1.next, r.2)) = .ok (16, 24, 12) := by decide +kernel

/-- **C105 fails** for `reserve` (set.hh 156, 241-251), which makes all nodes anew each time, whether or not the table is long enough:
a program that calls `s.reserve(s.size() + 1)` before each `s.add(...)` of a new value makes half the square of all nodes. -/
theorem C105_set_reserve_quadratic (H : HashEq T) (L : H.Lawful) (f : Nat → T) (hf : ∀ i j, i < j → H.eq (f i) (f j) = false) (n : Nat) :
    ∃ m, reserveAdd H f empty n = .ok m ∧ m.size = n ∧ 2 * m.next = n * (n + 1) := by
  obtain ⟨m, e, z, k⟩ := reserveAdd_ok L f n (empty_rel H) (by simp) hf
  simp only [empty] at z k
  refine ⟨m, e, by omega, ?_⟩
  rw [k]; simp

example : (reserveAdd natHash id (empty : SetSt Nat) 6).map (fun m => (m.size, m.next)) = .ok (6, 21) := by decide +kernel

end Verif.Set
