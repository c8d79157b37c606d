import Verif.Str.Ops

/-!
Property C105 for `sbo_string` (`/repo/src/clean-core/sbo_string.hh`): the characters that growing has to move.
-/
namespace Verif.Str
open Verif.StrView (Chr View)

/-- One call that appends: `push_back(c)` / `+= c` (sbo_string.hh 244-252, 661-665) or `+= view` (666-701). -/
inductive Piece where
  | chr (c : Chr)
  | view (a : Arg)
deriving DecidableEq, Repr

def Piece.size : Piece → Nat
  | .chr _ => 1
  | .view a => a.size

/-- The call. -/
def Str.put (C : Nat) (junk : Nat → Chr) (s : Str) : Piece → R Str
  | .chr c => s.pushBack C junk c
  | .view a => s.append C junk a

/-- The characters a call has moved to a new block: all that there were if the capacity is another one afterwards (a new block
is taken exactly when the capacity does not suffice, and is larger), none otherwise. -/
def movedChars (C : Nat) (s s' : Str) : Nat := if s'.capacity C = s.capacity C then 0 else s.size

/-- Append the pieces one after the other; the string, the characters moved and the number of new blocks. -/
def putAll (C : Nat) (junk : Nat → Chr) : Str → List Piece → R (Str × Nat × Nat)
  | s, [] => .ok (s, 0, 0)
  | s, p :: ps => do
    let s1 ← s.put C junk p
    let (s2, m, c) ← putAll C junk s1 ps
    .ok (s2, movedChars C s s1 + m, (if s1.capacity C = s.capacity C then 0 else 1) + c)

/-- `n` times `resize(size() + 1, c)`; the string and the characters moved. -/
def resizeUp (C : Nat) (junk : Nat → Chr) (c : Chr) : Str → Nat → R (Str × Nat)
  | s, 0 => .ok (s, 0)
  | s, n + 1 => do
    let s1 ← s.resize C junk (s.size + 1) c
    let (s2, m) ← resizeUp C junk c s1 n
    .ok (s2, movedChars C s s1 + m)

/-- What the pieces spell; a view of the string itself shows what is there when the call is made. -/
def spell : List Chr → List Piece → Option (List Chr)
  | l, [] => some l
  | l, .chr c :: ps => spell (l ++ [c]) ps
  | l, .view (.ext m) :: ps => spell (l ++ m) ps
  | l, .view (.own off n) :: ps => if off + n ≤ l.length then spell (l ++ (l.drop off).take n) ps else none

/-! ### The capacity after each call -/

theorem cap_setBuf (C : Nat) (s : Str) (b : List Chr) (n : Nat) :
    ({ s.setBuf b with size := n } : Str).capacity C = s.capacity C := by
  change (s.setBuf b).capacity C = s.capacity C
  unfold Str.capacity
  rw [isShort_setBuf]
  cases e : s.isShort with
  | true => rfl
  | false => rw [un_setBuf_long _ e]

theorem pushBack_cap {C : Nat} (h7 : 7 ≤ C) {junk : Nat → Chr} {s s' : Str} {l : List Chr} {t : Bool} {k : Int} (h : Good C s l t k)
    {c : Chr} (hl : l.length + 1 < 2 ^ 61) (e : s.pushBack C junk c = .ok s') :
    s'.capacity C = if s.capacity C < l.length + 1 then 2 * s.capacity C else s.capacity C := by
  have hsz := h.size
  have hfit := h.fits
  simp only [Str.pushBack, R.bind_eq_ok, R.pure_eq, Except.ok.injEq] at e
  obtain ⟨s1, e1, b, -, b1, -, b2, -, rfl⟩ := e
  rw [cap_setBuf]
  by_cases g : s.size = s.capacity C
  · rw [if_pos g] at e1
    unfold Str.grow at e1
    rw [Nat.mod_eq_of_lt (by omega)] at e1
    obtain ⟨s', h1, h2, h3, _⟩ := reserveForce_ok h7 (junk := junk) h (n := s.capacity C * 2) (by omega) (by omega)
    rw [h1] at e1
    simp only [Except.ok.injEq] at e1
    rw [← e1, h3, if_pos (by omega)]
    omega
  · rw [if_neg g] at e1
    simp only [Except.ok.injEq] at e1
    rw [← e1, if_neg (by omega)]

theorem append_cap {C : Nat} {junk : Nat → Chr} {s s' : Str} {l : List Chr} {t : Bool} {k : Int}
    (h : Good C s l t k) {a : Arg} (hl : l.length + a.size < 2 ^ 61) (e : s.append C junk a = .ok s') :
    s'.capacity C = if s.capacity C < l.length + a.size then max (2 * s.capacity C) (l.length + a.size) else s.capacity C := by
  have hsz := h.size
  have hhi := h.hi
  unfold Str.append at e
  rw [hsz, show (l.length + a.size) % 2 ^ 64 = l.length + a.size from Nat.mod_eq_of_lt (by omega),
    show s.capacity C * 2 % 2 ^ 64 = s.capacity C * 2 from Nat.mod_eq_of_lt (by omega)] at e
  dsimp only at e
  rw [R.bind_eq_ok] at e
  obtain ⟨b, -, e⟩ := e
  by_cases g : l.length + a.size ≤ s.capacity C
  · rw [if_pos g] at e
    simp only [R.bind_eq_ok, R.pure_eq, Except.ok.injEq] at e
    obtain ⟨b1, -, b2, -, rfl⟩ := e
    rw [cap_setBuf, if_neg (by omega)]
  · rw [if_neg g] at e
    have hfit := h.fits
    simp only [R.bind_eq_ok, R.pure_eq, Except.ok.injEq] at e
    obtain ⟨-, -, b1, -, b2, -, b3, -, b4, -, b5, -, rfl⟩ := e
    refine (cap_adopt (by split <;> omega)).trans ?_
    split <;> split <;> omega

theorem resize_cap {C : Nat} (h7 : 7 ≤ C) {junk : Nat → Chr} {s s' : Str} {l : List Chr} {t : Bool} {k : Int} (h : Good C s l t k)
    {n : Nat} (hn : n < 2 ^ 61) {c : Chr} (e : s.resize C junk n c = .ok s') : s'.capacity C = max n (s.capacity C) := by
  simp only [Str.resize, R.bind_eq_ok, R.pure_eq, Except.ok.injEq] at e
  obtain ⟨s1, e1, b, -, b1, -, b2, -, rfl⟩ := e
  rw [cap_setBuf]
  unfold Str.reserve at e1
  split at e1
  · simp only [R.pure_eq, Except.ok.injEq] at e1
    subst e1; omega
  · obtain ⟨s', h1, -, h3, -⟩ := reserveForce_ok h7 (junk := junk) h (n := n) (by omega) (by omega)
    rw [h1] at e1
    simp only [Except.ok.injEq] at e1
    subst e1; omega

/-! ### Histories -/

theorem put_ok {C : Nat} (h7 : 7 ≤ C) {junk : Nat → Chr} {s : Str} {l l2 : List Chr} {t : Bool} {k : Int} (h : Good C s l t k)
    {p : Piece} (hs : spell l [p] = some l2) (hl : l2.length < 2 ^ 61) :
    ∃ s1, s.put C junk p = .ok s1 ∧ Good C s1 l2 true k ∧
      ((s1.capacity C = s.capacity C) ∨
        (s.capacity C < l2.length ∧ 2 * s.capacity C ≤ s1.capacity C ∧ s1.capacity C < 2 * l2.length)) := by
  have fin : ∀ {c c' n : Nat}, n < 2 ^ 61 → 7 ≤ c → c' = (if c < n then max (2 * c) n else c) →
      (c' = c ∨ (c < n ∧ 2 * c ≤ c' ∧ c' < 2 * n)) := by
    intro c c' n _ _ e
    split at e <;> omega
  have hlo := h.lo
  have hfit := h.fits
  match p, hs with
  | .chr c, hs =>
    simp only [spell, Option.some.injEq] at hs
    subst hs
    have hll : (l ++ [c]).length = l.length + 1 := by simp
    obtain ⟨s1, e, g⟩ := pushBack_ok h7 (junk := junk) h c (by omega)
    refine ⟨s1, e, g, ?_⟩
    have := pushBack_cap h7 h (by omega) e
    rw [hll]
    split at this <;> omega
  | .view (.ext m), hs =>
    simp only [spell, Option.some.injEq] at hs
    subst hs
    obtain ⟨s1, e, g⟩ := append_ok h7 (junk := junk) h (.ext m) (m := m) (by simpa using hl) (.inl rfl)
    refine ⟨s1, e, g, fin hl (by omega) ?_⟩
    rw [List.length_append]
    exact append_cap h (a := .ext m) (by rw [List.length_append] at hl; exact hl) e
  | .view (.own off n), hs =>
    simp only [spell] at hs
    split at hs
    · rename_i ho
      simp only [Option.some.injEq] at hs
      subst hs
      have hln : ((l.drop off).take n).length = n := by
        rw [List.length_take, List.length_drop]; omega
      rw [List.length_append, hln] at hl
      obtain ⟨s1, e, g⟩ := append_ok h7 (junk := junk) h (.own off n) (m := (l.drop off).take n) (by rw [hln]; exact hl)
        (.inr ⟨off, by rw [hln], by omega, by rw [hln]⟩)
      refine ⟨s1, e, g, ?_⟩
      rw [List.length_append, hln]
      exact fin hl (by omega) (append_cap h (a := .own off n) hl e)
    · simp at hs

theorem spell_cons (l : List Chr) (p : Piece) (ps : List Piece) :
    spell l (p :: ps) = (spell l [p]).bind (fun l1 => spell l1 ps) := by
  match p with
  | .chr c => simp [spell]
  | .view (.ext m) => simp [spell]
  | .view (.own off n) =>
    simp only [spell]
    split <;> simp

theorem spell_grows : ∀ (ps : List Piece) {l l2 : List Chr}, spell l ps = some l2 → l.length ≤ l2.length := by
  intro ps
  induction ps with
  | nil => intro l l2 e; simp only [spell, Option.some.injEq] at e; rw [e]; exact Nat.le_refl _
  | cons p ps ih =>
    intro l l2 e
    match p, e with
    | .chr c, e => have := ih (l := l ++ [c]) (by simpa [spell] using e); simp at this; omega
    | .view (.ext m), e => have := ih (l := l ++ m) (by simpa [spell] using e); simp at this; omega
    | .view (.own off n), e =>
      simp only [spell] at e
      split at e
      · have := ih e; rw [List.length_append] at this; omega
      · simp at e

theorem putAll_ok {C : Nat} (h7 : 7 ≤ C) {junk : Nat → Chr} (ps : List Piece) : ∀ {s : Str} {l l2 : List Chr} {t : Bool} {k : Int},
    Good C s l t k → spell l ps = some l2 → l2.length < 2 ^ 61 →
    ∃ s2 m c t', putAll C junk s ps = .ok (s2, m, c) ∧ Good C s2 l2 t' k ∧ (ps ≠ [] ∨ t = true → t' = true) ∧
      m + s.capacity C ≤ s2.capacity C ∧ (s2.capacity C = s.capacity C ∨ s2.capacity C < 2 * l2.length) ∧
      s.capacity C * 2 ^ c ≤ s2.capacity C := by
  induction ps with
  | nil =>
    intro s l l2 t k h e hl
    simp only [spell, Option.some.injEq] at e
    subst e
    exact ⟨s, 0, 0, t, rfl, h, by simp, by omega, .inl rfl, by simp⟩
  | cons p ps ih =>
    intro s l l2 t k h e hl
    rw [spell_cons] at e
    cases e1 : spell l [p] with
    | none => rw [e1] at e; simp at e
    | some l1 =>
      rw [e1] at e
      simp only [Option.bind_some] at e
      have hle := spell_grows ps e
      obtain ⟨s1, q1, g1, c1⟩ := put_ok h7 (junk := junk) h e1 (by omega)
      obtain ⟨s2, m, c, t', q2, g2, ht, a1, a2, a3⟩ := ih (s := s1) g1 e hl
      refine ⟨s2, _, _, t', by rw [putAll, q1]; simp only [R.ok_bind]; rw [q2]; rfl, g2, fun _ => ht (.inr rfl), ?_, ?_, ?_⟩
      · have := h.fits
        have := h.size
        unfold movedChars
        split <;> omega
      · rcases c1 with c1 | c1 <;> rcases a2 with a2 | a2 <;> omega
      · split
        · rename_i e
          rw [Nat.zero_add, ← e]; exact a3
        · have hh : 2 * s.capacity C ≤ s1.capacity C := by omega
          show s.capacity C * 2 ^ (1 + c) ≤ _
          rw [Nat.pow_add]
          have : (2 * s.capacity C) * 2 ^ c ≤ s1.capacity C * 2 ^ c := Nat.mul_le_mul_right _ hh
          have e : s.capacity C * (2 ^ 1 * 2 ^ c) = (2 * s.capacity C) * 2 ^ c := by
            rw [Nat.pow_one, ← Nat.mul_assoc, Nat.mul_comm (s.capacity C) 2]
          omega

/-- Each `resize` by one above the capacity takes a block of exactly the new size. -/
theorem resizeUp_ok {C : Nat} (h7 : 7 ≤ C) {junk : Nat → Chr} {c : Chr} (n : Nat) : ∀ {s : Str} {l : List Chr} {t : Bool} {k : Int},
    Good C s l t k → l.length = s.capacity C → l.length + n < 2 ^ 61 →
    ∃ s2 m, resizeUp C junk c s n = .ok (s2, m) ∧ 2 * m + n = n * (2 * l.length + n) := by
  induction n with
  | zero => intro s l t k h _ _; exact ⟨s, 0, rfl, by simp⟩
  | succ n ih =>
    intro s l t k h hc hl
    have hsz := h.size
    obtain ⟨s1, e1, g1⟩ := resize_ok h7 (junk := junk) h (n := s.size + 1) (by omega) c
    have hcap := resize_cap h7 h (by omega) e1
    have hl1 : (l.take (s.size + 1) ++ List.replicate (s.size + 1 - l.length) c).length = l.length + 1 := by
      rw [List.length_append, List.length_take, List.length_replicate]; omega
    obtain ⟨s2, m, e2, hm⟩ := ih g1 (by omega) (by omega)
    refine ⟨s2, _, by rw [resizeUp, e1]; simp only [R.ok_bind]; rw [e2]; rfl, ?_⟩
    unfold movedChars
    rw [if_neg (by omega), hsz]
    rw [hl1] at hm
    have e : (n + 1) * (2 * l.length + (n + 1)) = n * (2 * (l.length + 1) + n) + (2 * l.length + 1) := by
      simp only [Nat.add_mul, Nat.mul_add]
      omega
    omega

/-- The first resizes up to the capacity move nothing. -/
theorem resizeUp_within {C : Nat} (h7 : 7 ≤ C) {junk : Nat → Chr} {c : Chr} (n : Nat) : ∀ {s : Str} {l : List Chr} {t : Bool} {k : Int},
    Good C s l t k → l.length + n ≤ s.capacity C → l.length + n < 2 ^ 61 →
    ∃ s2 l2 t2, resizeUp C junk c s n = .ok (s2, 0) ∧ Good C s2 l2 t2 k ∧ l2.length = l.length + n ∧
      s2.capacity C = s.capacity C := by
  induction n with
  | zero => intro s l t k h _ _; exact ⟨s, l, t, rfl, h, rfl, rfl⟩
  | succ n ih =>
    intro s l t k h hc hl
    have hsz := h.size
    obtain ⟨s1, e1, g1⟩ := resize_ok h7 (junk := junk) h (n := s.size + 1) (by omega) c
    have hcap := resize_cap h7 h (by omega) e1
    have hl1 : (l.take (s.size + 1) ++ List.replicate (s.size + 1 - l.length) c).length = l.length + 1 := by
      rw [List.length_append, List.length_take, List.length_replicate]; omega
    obtain ⟨s2, l2, t2, e2, g2, hl2, hc2⟩ := ih g1 (by omega) (by omega)
    refine ⟨s2, l2, t2, ?_, g2, by omega, by omega⟩
    rw [resizeUp, e1]; simp only [R.ok_bind]; rw [e2]
    simp only [R.ok_bind, movedChars, Except.ok.injEq, Prod.mk.injEq, true_and]
    rw [if_pos (by omega)]

theorem resizeUp_add {C : Nat} {junk : Nat → Chr} {c : Chr} (a b : Nat) : ∀ {s s1 s2 : Str} {m1 m2 : Nat},
    resizeUp C junk c s a = .ok (s1, m1) → resizeUp C junk c s1 b = .ok (s2, m2) →
    resizeUp C junk c s (a + b) = .ok (s2, m1 + m2) := by
  induction a with
  | zero =>
    intro s s1 s2 m1 m2 e1 e2
    simp only [resizeUp, Except.ok.injEq, Prod.mk.injEq] at e1
    obtain ⟨rfl, rfl⟩ := e1
    rw [Nat.zero_add, Nat.zero_add]; exact e2
  | succ a ih =>
    intro s s1 s2 m1 m2 e1 e2
    rw [resizeUp, R.bind_eq_ok] at e1
    obtain ⟨s', q1, e1⟩ := e1
    rw [R.bind_eq_ok] at e1
    obtain ⟨⟨s'', m'⟩, q2, e1⟩ := e1
    simp only [Except.ok.injEq, Prod.mk.injEq] at e1
    obtain ⟨rfl, rfl⟩ := e1
    rw [show a + 1 + b = (a + b) + 1 by omega, resizeUp, q1, R.ok_bind, ih q2 e2, R.ok_bind, Nat.add_assoc]

end Verif.Str
