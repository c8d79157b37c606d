import Verif.Str.Growth
import Verif.Str.Props

/-! Property C105 for `sbo_string`. -/
namespace Verif.Str
open Verif.StrView (Chr View)

/-- **C105** for `push_back` and `+=`. Whatever is appended to an empty string, piece by piece (the pieces may be views of the string
itself): the string holds it, growing moves in total no more characters than the capacity gained, the capacity is the small one or
less than twice the size, and each new block at least doubles it. -/
theorem C105_string_partial (C : Nat) (h7 : 7 ≤ C) (hC : C < 2 ^ 61) (junk : Nat → Chr) (ps : List Piece) (l : List Chr)
    (hs : spell [] ps = some l) (hl : l.length < 2 ^ 61) :
    ∃ s m c, putAll C junk (Str.empty C) ps = .ok (s, m, c) ∧ s.chars = .ok l ∧ m + C ≤ s.capacity C ∧
      (s.capacity C = C ∨ s.capacity C < 2 * l.length) ∧ C * 2 ^ c ≤ s.capacity C := by
  obtain ⟨s, m, c, t, e, g, -, a1, a2, a3⟩ := putAll_ok h7 (junk := junk) ps (empty_good C hC) hs hl
  rw [empty_cap] at a1 a2 a3
  exact ⟨s, m, c, e, chars_ok g, a1, a2, a3⟩

/-- Three pieces, one of them a part of the string: from the small buffer to 30, then to 60 characters. -/
example : spell [] [.view (.ext (List.replicate 20 7#8)), .view (.own 3 15), .chr 1#8] =
      some (List.replicate 35 7#8 ++ [1#8]) ∧
    (putAll 15 (fun _ => 9#8) (Str.empty 15) [.view (.ext (List.replicate 20 7#8)), .view (.own 3 15), .chr 1#8]).map
      (fun r => (r.1.capacity 15, r.2)) = .ok (60, 20, 2) := by decide +kernel

/-- **C105 fails** for `resize` (sbo_string.hh 270-279), which reserves exactly what it needs: growing a string of any size one character
at a time with `resize(size() + 1)` moves all characters each time. -/
theorem C105_string_resize_quadratic (C : Nat) (h7 : 7 ≤ C) (junk : Nat → Chr) (ch : Chr) (n : Nat)
    (hn : C + n < 2 ^ 61) :
    ∃ s m, resizeUp C junk ch (Str.empty C) (C + n) = .ok (s, m) ∧ 2 * m + n = n * (2 * C + n) := by
  obtain ⟨s1, l1, t1, e1, g1, z1, c1⟩ := resizeUp_within h7 (junk := junk) (c := ch) C (empty_good C (by omega))
    (by rw [empty_cap]; simp) (by simp; omega)
  rw [List.length_nil, Nat.zero_add] at z1
  obtain ⟨s2, m, e2, hm⟩ := resizeUp_ok h7 (junk := junk) (c := ch) n g1 (by rw [c1, empty_cap, z1]) (by omega)
  refine ⟨s2, _, resizeUp_add C n e1 e2, ?_⟩
  rw [z1] at hm
  omega

/-- No constant number of moves for each character suffices. -/
theorem C105_string_resize_not_amortised (C : Nat) (h7 : 7 ≤ C) (hC : C < 2 ^ 30) (junk : Nat → Chr) (ch : Chr) (k : Nat)
    (hk : k < 2 ^ 30) : ∃ n s m, resizeUp C junk ch (Str.empty C) n = .ok (s, m) ∧ k * n < m := by
  obtain ⟨s, m, e, hm⟩ := C105_string_resize_quadratic C h7 junk ch (2 * k + 2 + C) (by omega)
  refine ⟨_, s, m, e, ?_⟩
  -- 2 m = N (2 C + N - 1) with N = 2 k + 2 + C
  have h1 : (2 * k + 2 + C) * (2 * C + (2 * k + 2 + C)) = (2 * k + 2 + C) + (2 * k + 2 + C) * (2 * C + (2 * k + 1 + C)) := by
    rw [show 2 * C + (2 * k + 2 + C) = 1 + (2 * C + (2 * k + 1 + C)) by omega, Nat.mul_add, Nat.mul_one]
  have h2 : 2 * m = (2 * k + 2 + C) * (2 * C + (2 * k + 1 + C)) := by omega
  have h3 : k * (C + (2 * k + 2 + C)) * 2 < (2 * k + 2 + C) * (2 * C + (2 * k + 1 + C)) := by
    have e1 : k * (C + (2 * k + 2 + C)) * 2 = (2 * k) * (2 * C + (2 * k + 2)) := by
      rw [Nat.mul_comm k, Nat.mul_assoc, Nat.mul_comm]
      rw [show C + (2 * k + 2 + C) = 2 * C + (2 * k + 2) by omega, Nat.mul_comm k 2]
    rw [e1]
    have e2 : (2 * k) * (2 * C + (2 * k + 2)) ≤ (2 * k) * (2 * C + (2 * k + 1 + C)) := Nat.mul_le_mul_left _ (by omega)
    have e3 : (2 * k + 2 + C) * (2 * C + (2 * k + 1 + C)) =
        (2 * k) * (2 * C + (2 * k + 1 + C)) + (2 + C) * (2 * C + (2 * k + 1 + C)) := by rw [← Nat.add_mul]; congr 1; omega
    have e4 : 1 * 1 ≤ (2 + C) * (2 * C + (2 * k + 1 + C)) := Nat.mul_le_mul (by omega) (by omega)
    omega
  omega

example : (resizeUp 15 (fun _ => 9#8) 1#8 (Str.empty 15) 25).map (·.2) = .ok (15 + 16 + 17 + 18 + 19 + 20 + 21 + 22 + 23 + 24) := by
  decide +kernel

end Verif.Str
