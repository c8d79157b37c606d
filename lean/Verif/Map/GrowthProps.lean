import Verif.Map.Growth
import Verif.Map.Props

/-! Property C105 for `cc::map`. -/
namespace Verif.Map

variable {K V : Type _}

/-- **C105** for `map`. Over every history of calls on a map, growing links in total at most twice as many entries again as the table
is long at the end, the table is at most twice as long as the greatest number `p` of entries there were or were asked for (or four),
and there are at most as many tables as powers of two up to its length. -/
theorem C105_map (H : HashEq K) (ops : List (Op K V)) {m : MapSt K V} {os : List (Out V)} (h : implRun H empty ops = .ok (m, os)) :
    ∃ r c p, growth H empty ops = .ok (m, r, c, p) ∧ r ≤ 2 * m.entries.length ∧ m.entries.length ≤ max 4 (2 * p + 1) ∧
      (c = 0 ∨ 2 ^ (c + 1) ≤ m.entries.length) := by
  obtain ⟨r, c, p, e⟩ := growth_run ops h
  obtain ⟨a1, a2, -, a4, -⟩ := growth_bound ops ⟨by simp [empty], .inl ⟨rfl, rfl⟩⟩ e
  simp only [empty, List.length_nil] at a1 a2
  exact ⟨r, c, p, e, by omega, by omega, a4⟩

/-- Twelve keys: tables of 4, 8, 16 chains; 5 and 9 entries are linked again. -/
example : (growth natHash (empty : MapSt Nat Nat) ((List.range 12).map (fun k => Op.index k 0 (fun _ => k)))).map
    (fun r => (r.1.entries.length, r.2)) = .ok (16, 14, 3, 12) := by decide +kernel

end Verif.Map
