import Verif.SStream.Lemmas

/-!
Property C105 for `cc::string_stream` (`/repo/src/clean-core/string_stream.hh`): the characters that growing has to move.
-/
namespace Verif.SStream
open Mem
open Verif.StrView (Chr)

/-- The characters a call has moved to another block. -/
def movedChars (s s' : SS) : Nat := if s'.data = s.data then 0 else s.off

/-- Append the pieces one after the other with `<<`; the stream, the characters moved and the number of new blocks. -/
def putAll : Heap Chr → SS → List (List Chr) → R (Heap Chr × SS × Nat × Nat)
  | h, s, [] => .ok (h, s, 0, 0)
  | h, s, sv :: svs => do
    let (h1, s1) ← append h s sv
    let (h2, s2, m, c) ← putAll h1 s1 svs
    .ok (h2, s2, movedChars s s1 + m, (if s1.data = s.data then 0 else 1) + c)

theorem reserve_cap {h h' : Heap Chr} {s s' : SS} {l : List Chr} (g : Good h s l) {n : Nat} (hn : l.length + n < 2 ^ 61)
    (e : reserve h s n = .ok (h', s')) :
    s' = s ∨ (s.cap < l.length + n ∧ 2 * s.cap ≤ s'.cap ∧ l.length + n ≤ s'.cap ∧ s'.cap < 2 * (l.length + n)) := by
  simp only [reserve, g.size, R.ok_bind] at e
  rw [Nat.mod_eq_of_lt (show l.length + n < 2 ^ 64 by omega)] at e
  by_cases hc : l.length + n ≤ s.cap
  · rw [if_pos hc] at e
    simp only [Except.ok.injEq, Prod.mk.injEq] at e
    exact .inl e.2.symm
  · rw [if_neg hc] at e
    have hs : (s.cap <<< 1) % 2 ^ 64 = 2 * s.cap := by
      rw [Nat.shiftLeft_eq, Nat.mod_eq_of_lt (by omega)]; omega
    rw [hs] at e
    generalize hN : (if 2 * s.cap < l.length + n then l.length + n else 2 * s.cap) = N at e
    simp only [R.bind_eq_ok, Except.ok.injEq, Prod.mk.injEq] at e
    obtain ⟨h1, -, h2, -, rfl, rfl⟩ := e
    right
    simp only
    split at hN <;> omega

theorem append_cap {h h' : Heap Chr} {s s' : SS} {l m : List Chr} (g : Good h s l) (hl : l.length + m.length < 2 ^ 61)
    (e : append h s m = .ok (h', s')) :
    (s'.data = s.data ∧ s'.cap = s.cap) ∨
      (s.cap < (l ++ m).length ∧ 2 * s.cap ≤ s'.cap ∧ 1 ≤ s'.cap ∧ s'.cap < 2 * (l ++ m).length) := by
  rw [List.length_append]
  unfold append at e
  split at e
  · simp only [Except.ok.injEq, Prod.mk.injEq] at e
    rw [← e.2]; exact .inl ⟨rfl, rfl⟩
  · simp only [R.bind_eq_ok, Except.ok.injEq, Prod.mk.injEq] at e
    obtain ⟨⟨h1, s1⟩, e1, h2, -, -, rfl⟩ := e
    rcases reserve_cap g hl e1 with h | h
    · subst h; exact .inl ⟨rfl, rfl⟩
    · right; simp only; omega

theorem putAll_ok (svs : List (List Chr)) : ∀ {h : Heap Chr} {s : SS} {l : List Chr}, Bound h → Good h s l →
    l.length + svs.flatten.length < 2 ^ 61 →
    ∃ h2 s2 m c, putAll h s svs = .ok (h2, s2, m, c) ∧ Good h2 s2 (l ++ svs.flatten) ∧ m + s.cap ≤ s2.cap ∧
      (s2.cap = s.cap ∨ s2.cap < 2 * (l ++ svs.flatten).length) ∧ s.cap * 2 ^ c ≤ s2.cap ∧ (c = 0 ∨ 2 ^ (c - 1) ≤ s2.cap) := by
  induction svs with
  | nil =>
    intro h s l _ g _
    exact ⟨h, s, 0, 0, rfl, by simpa using g, by omega, .inl rfl, by simp, .inl rfl⟩
  | cons sv svs ih =>
    intro h s l hb g hl
    rw [List.flatten_cons, List.length_append] at hl
    obtain ⟨h1, s1, e1, g1, c1, -⟩ := append_ok hb g (m := sv) (by omega)
    have k := append_cap g (by omega) e1
    obtain ⟨h2, s2, m, c, e2, g2, a1, a2, a3, a4⟩ := ih c1.bound g1 (by rw [List.length_append]; omega)
    have hle := g.le
    have hoff := g.off
    refine ⟨h2, s2, _, _, by rw [putAll, e1]; simp only [R.ok_bind]; rw [e2]; rfl, by simpa using g2, ?_⟩
    have el : (l ++ sv ++ svs.flatten).length = (l ++ (sv :: svs).flatten).length := by simp
    have el2 : (l ++ sv).length ≤ (l ++ (sv :: svs).flatten).length := by simp
    rw [el] at a2
    rcases k with ⟨k1, k2⟩ | ⟨k1, k2, k3, k4⟩
    · unfold movedChars
      rw [if_pos k1, if_pos k1, Nat.zero_add, Nat.zero_add, ← k2]
      exact ⟨a1, a2, a3, a4⟩
    · have hm : movedChars s s1 ≤ s.off := by unfold movedChars; split <;> omega
      have p1 : (2 * s.cap) * 2 ^ c ≤ s1.cap * 2 ^ c := Nat.mul_le_mul_right _ k2
      have p2 : 1 * 2 ^ c ≤ s1.cap * 2 ^ c := Nat.mul_le_mul_right _ k3
      dsimp only
      refine ⟨by omega, by omega, ?_, ?_⟩
      · split
        · rw [Nat.zero_add]
          have : s.cap * 2 ^ c ≤ s1.cap * 2 ^ c := Nat.mul_le_mul_right _ (by omega)
          omega
        · show s.cap * 2 ^ (1 + c) ≤ _
          rw [Nat.pow_add]
          have e : s.cap * (2 ^ 1 * 2 ^ c) = (2 * s.cap) * 2 ^ c := by
            rw [Nat.pow_one, ← Nat.mul_assoc, Nat.mul_comm s.cap 2]
          omega
      · split
        · rw [Nat.zero_add]; exact a4
        · right
          rw [Nat.add_sub_cancel_left]
          show 2 ^ c ≤ _
          omega

/-- **C105** for `string_stream`. Whatever is written with `<<`, piece by piece, to a new stream: growing moves in total no more
characters than the capacity reached, which is less than twice the characters written; and there is at most one block for each
power of two up to the capacity. (`<< char` is the same as a piece of one character.) -/
theorem C105_stream (svs : List (List Chr)) (hl : svs.flatten.length < 2 ^ 61) :
    ∃ h s m c, putAll .init SS.new svs = .ok (h, s, m, c) ∧ Good h s svs.flatten ∧ m ≤ s.cap ∧
      (svs.flatten = [] ∨ s.cap < 2 * svs.flatten.length) ∧ (c = 0 ∨ 2 ^ (c - 1) ≤ s.cap) := by
  obtain ⟨h, s, m, c, e, g, a1, a2, a3, a4⟩ := putAll_ok svs (h := .init) (s := SS.new) (l := []) (fun _ _ => rfl) (good_new _)
    (by simpa using hl)
  simp only [List.nil_append] at g a2
  refine ⟨h, s, m, c, e, g, by omega, ?_, a4⟩
  rcases a2 with a2 | a2
  · left
    have := g.le
    rw [a2] at this
    exact List.eq_nil_of_length_eq_zero (by simpa [SS.new] using this)
  · exact .inr a2

/-- Five pieces: capacities 2, 4, 8, 16; 2 + 4 + 7 characters are moved. -/
example : (putAll .init SS.new [[1#8, 2#8], [3#8, 4#8], [5#8, 6#8], [7#8], [8#8, 9#8]]).map (fun r => (r.2.1.cap, r.2.2)) =
    .ok (16, 13, 4) := by decide +kernel

/-- `<<` of a character is `<<` of the piece with this one character. -/
theorem C105_stream_char {h h' : Heap Chr} {s s' : SS} {c : Chr} (e : appendChar h s c = .ok (h', s')) :
    ∃ h1 s1, reserve h s 1 = .ok (h1, s1) ∧ s'.data = s1.data ∧ s'.cap = s1.cap := by
  simp only [appendChar, R.bind_eq_ok, Except.ok.injEq, Prod.mk.injEq] at e
  obtain ⟨⟨h1, s1⟩, e1, h2, -, -, rfl⟩ := e
  exact ⟨h1, s1, e1, rfl, rfl⟩

end Verif.SStream
