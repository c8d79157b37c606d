import Verif.Capped.Spec

/-! Helper lemmas for capped_vector. -/
namespace Verif.Capped
open Verif.Mem

variable {α : Type}

/-- The buffer holds `l` at its beginning. With `strict`, the other slots hold nothing that would need to be destroyed. -/
structure RelB (triv : Bool) (strict : Prop) (N : Nat) (b : Buf α) (l : List α) : Prop where
  len : b.length = N
  le : l.length ≤ N
  live : ∀ j (h : j < l.length), b[j]? = some (.live l[j])
  rest : strict → ∀ j x, l.length ≤ j → b[j]? = some x → x = .raw ∨ triv = true

/-- Only the slots from `k` on are known to hold `l`. -/
structure Src (N : Nat) (b : Buf α) (l : List α) (k : Nat) : Prop where
  len : b.length = N
  live : ∀ j (h : j < l.length), k ≤ j → b[j]? = some (.live l[j])

section
variable {triv : Bool} {strict : Prop} {N : Nat} {b : Buf α} {l : List α}

theorem RelB.nil (triv : Bool) (strict : Prop) (N : Nat) : RelB triv strict N (Buf.mk N : Buf α) [] where
  len := by simp [Buf.mk]
  le := by simp
  live := by simp
  rest := by
    intro _ j x _ h
    rw [Buf.mk, List.getElem?_replicate] at h
    split at h
    · simp only [Option.some.injEq] at h; exact Or.inl h.symm
    · simp at h

theorem get_lt {b : Buf α} {i : Nat} {x : Slot α} (h : b[i]? = some x) : i < b.length := by
  rcases Nat.lt_or_ge i b.length with h1 | h1
  · exact h1
  · rw [List.getElem?_eq_none h1] at h; simp at h

theorem RelB.construct (h : RelB triv strict N b l) (hl : l.length < N) (a : α) :
    ∃ k, construct triv b l.length a = .ok (b.set l.length (.live a), k) ∧ (strict → k = 0) ∧
      RelB triv strict N (b.set l.length (.live a)) (l ++ [a]) := by
  have hb : l.length < b.length := by rw [h.len]; exact hl
  unfold Capped.construct
  rw [Buf.slot_ok (List.getElem?_eq_getElem hb)]
  refine ⟨_, rfl, ?_, ?_⟩
  · intro hs
    rcases h.rest hs l.length _ (Nat.le_refl _) (List.getElem?_eq_getElem hb) with h1 | h1
    · rw [h1]; simp [Slot.alive]
    · rw [h1]; rfl
  · refine ⟨by simpa using h.len, by simp; omega, ?_, ?_⟩
    · intro j hj
      simp only [List.length_append, List.length_singleton] at hj
      rw [List.getElem?_set]
      by_cases e : l.length = j
      · subst e; simp [hb]
      · rw [if_neg e, h.live j (by omega), List.getElem_append_left (by omega)]
    · intro hs j x hj hx
      simp only [List.length_append, List.length_singleton] at hj
      rw [List.getElem?_set, if_neg (by omega)] at hx
      exact h.rest hs j x (by omega) hx

theorem RelB.destroy {a : α} (h : RelB triv strict N b (l ++ [a])) :
    b.destroy l.length = .ok (b.set l.length .raw) ∧ RelB triv strict N (b.set l.length .raw) l := by
  have hx := h.live l.length (by simp)
  refine ⟨Buf.destroy_ok hx rfl, by simpa using h.len, by have := h.le; simp at this; omega, ?_, ?_⟩
  · intro j hj
    rw [List.getElem?_set, if_neg (by omega), h.live j (by simp; omega), List.getElem_append_left hj]
  · intro hs j x hj hx'
    rw [List.getElem?_set] at hx'
    by_cases e : l.length = j
    · subst e
      rw [if_pos rfl, if_pos (get_lt hx)] at hx'
      simp only [Option.some.injEq] at hx'
      exact Or.inl hx'.symm
    · rw [if_neg e] at hx'
      exact h.rest hs j x (by simp; omega) hx'

theorem RelB.read (h : RelB triv strict N b l) {i : Nat} (hi : i < l.length) : b.read i = .ok l[i] := Buf.read_ok (h.live i hi)

theorem RelB.assign (h : RelB triv strict N b l) {i : Nat} (hi : i < l.length) (a : α) :
    b.assign i a = .ok (b.set i (.live a)) ∧ RelB triv strict N (b.set i (.live a)) (l.set i a) := by
  refine ⟨Buf.assign_ok (h.live i hi) rfl, by simpa using h.len, by simpa using h.le, ?_, ?_⟩
  · intro j hj
    simp only [List.length_set] at hj
    rw [List.getElem?_set, List.getElem_set]
    by_cases e : i = j
    · subst e; simp [get_lt (h.live i hi)]
    · rw [if_neg e, if_neg e]; exact h.live j hj
  · intro hs j x hj hx
    simp only [List.length_set] at hj
    rw [List.getElem?_set, if_neg (by omega)] at hx
    exact h.rest hs j x hj hx

theorem RelB.src (h : RelB triv strict N b l) : Src N b l 0 := ⟨h.len, fun j hj _ => h.live j hj⟩

/-- A vector whose `_size` was set to 0. -/
theorem relB_zero (hN : b.length = N) (hs : strict → ∀ (j : Nat) (x : Slot α), b[j]? = some x → x = Slot.raw ∨ triv = true) : RelB triv strict N b [] where
  len := hN
  le := by simp
  live := by simp
  rest := fun s j x _ hx => hs s j x hx

theorem take_concat_of_lt {l : List α} {n : Nat} (h : n < l.length) : l.take (n + 1) = l.take n ++ [l[n]] := by
  rw [List.take_succ_eq_append_getElem h]

theorem destroyDown_ok (n : Nat) : ∀ {b : Buf α} {l : List α} {m : Nat}, RelB triv strict N b l → l.length = n →
    ∃ b', destroyDown b n m = .ok b' ∧ RelB triv strict N b' (l.take m) := by
  induction n with
  | zero =>
    intro b l m h hl
    have : l = [] := List.length_eq_zero_iff.1 hl
    subst this
    exact ⟨b, rfl, by simpa using h⟩
  | succ n ih =>
    intro b l m h hl
    rw [destroyDown]
    split
    · have e : l = l.take n ++ [l[n]] := by rw [← take_concat_of_lt (by omega), List.take_of_length_le (by omega)]
      rw [e] at h
      obtain ⟨e1, h1⟩ := h.destroy
      rw [show (l.take n).length = n by simp; omega] at e1 h1
      rw [e1]
      simp only [R.ok_bind]
      obtain ⟨b', e2, h2⟩ := ih (m := m) h1 (by simp; omega)
      refine ⟨b', e2, ?_⟩
      rw [List.take_take, show min m n = m by omega] at h2
      exact h2
    · refine ⟨b, rfl, ?_⟩
      rw [List.take_of_length_le (by omega)]; exact h

theorem evalArg_ok (h : RelB triv strict N b l) {arg : Arg α} {a : α} (ha : Spec.argVal l arg = some a) : evalArg b arg = .ok a := by
  cases arg with
  | val x => simp only [Spec.argVal, Option.some.injEq] at ha; subst ha; rfl
  | elem k =>
    simp only [Spec.argVal] at ha
    have hk : k < l.length := by
      rcases Nat.lt_or_ge k l.length with h1 | h1
      · exact h1
      · rw [List.getElem?_eq_none h1] at ha; simp at ha
    rw [List.getElem?_eq_getElem hk] at ha
    simp only [Option.some.injEq] at ha
    rw [← ha]; exact h.read hk

theorem fillLoop_ok {arg : Arg α} {a : α} (n : Nat) : ∀ {b : Buf α} {l : List α}, RelB triv strict N b l →
    Spec.argVal l arg = some a → l.length + n ≤ N →
    ∃ b' k, fillLoop triv arg b l.length n = .ok (b', k) ∧ (strict → k = 0) ∧
      RelB triv strict N b' (l ++ List.replicate n a) := by
  induction n with
  | zero => intro b l h _ _; exact ⟨b, 0, rfl, fun _ => rfl, by simpa using h⟩
  | succ n ih =>
    intro b l h ha hn
    rw [fillLoop, evalArg_ok h ha]
    simp only [R.ok_bind]
    obtain ⟨k, e, hk, h1⟩ := h.construct (by omega) a
    rw [e]
    simp only [R.ok_bind]
    have ha' : Spec.argVal (l ++ [a]) arg = some a := by
      cases arg with
      | val x => exact ha
      | elem k =>
        simp only [Spec.argVal] at ha ⊢
        rw [List.getElem?_append_left (by
          rcases Nat.lt_or_ge k l.length with h1 | h1
          · exact h1
          · rw [List.getElem?_eq_none h1] at ha; simp at ha)]
        exact ha
    obtain ⟨b', k', e2, hk2, h2⟩ := ih h1 ha' (by simp; omega)
    rw [List.length_append, List.length_singleton] at e2
    rw [e2]
    refine ⟨b', k + k', rfl, fun s => by rw [hk s, hk2 s], ?_⟩
    rw [List.append_assoc] at h2
    exact h2

theorem Src.take {k : Nat} (h : Src N b l k) (hk : k < l.length) :
    ∃ b', b.take triv k = .ok (l[k], b') ∧ Src N b' l (k + 1) ∧ (triv = true → b' = b) := by
  rw [Buf.take_ok (h.live k hk (Nat.le_refl _))]
  refine ⟨_, rfl, ⟨?_, ?_⟩, ?_⟩
  · cases triv <;> simpa using h.len
  · intro j hj hkj
    cases triv with
    | true => exact h.live j hj (by omega)
    | false => simp only [Bool.false_eq_true, if_false]; rw [List.getElem?_set, if_neg (by omega)]; exact h.live j hj (by omega)
  · intro ht; rw [ht]; rfl

theorem copyLoop_ok {src : Buf α} {l : List α} (hs : ∀ j (h : j < l.length), src[j]? = some (.live l[j])) (n : Nat) :
    ∀ {i : Nat} {dst : Buf α}, RelB triv strict N dst (l.take i) → i + n = l.length → l.length ≤ N →
    ∃ dst' k, copyLoop triv src dst i n = .ok (dst', k) ∧ (strict → k = 0) ∧ RelB triv strict N dst' l := by
  induction n with
  | zero =>
    intro i dst h hi _
    rw [List.take_of_length_le (by omega)] at h
    exact ⟨dst, 0, rfl, fun _ => rfl, h⟩
  | succ n ih =>
    intro i dst h hi hN
    have hlen : (l.take i).length = i := by simp; omega
    rw [copyLoop, Buf.read_ok (hs i (by omega))]
    simp only [R.ok_bind]
    obtain ⟨k, e, hk, h1⟩ := h.construct (by omega) l[i]
    rw [hlen] at e h1
    rw [e]
    simp only [R.ok_bind]
    rw [← take_concat_of_lt (by omega)] at h1
    obtain ⟨d, k', e2, hk2, h2⟩ := ih h1 (by omega) hN
    rw [e2]
    exact ⟨d, k + k', rfl, fun s => by rw [hk s, hk2 s], h2⟩

theorem moveLoop_ok {l : List α} (n : Nat) :
    ∀ {i : Nat} {src dst : Buf α}, Src N src l i → RelB triv strict N dst (l.take i) → i + n = l.length → l.length ≤ N →
    ∃ src' dst' k, moveLoop triv src dst i n = .ok (src', dst', k) ∧ (strict → k = 0) ∧ RelB triv strict N dst' l ∧
      src'.length = N ∧ (triv = true → src' = src) := by
  induction n with
  | zero =>
    intro i src dst hs h hi _
    rw [List.take_of_length_le (by omega)] at h
    exact ⟨src, dst, 0, rfl, fun _ => rfl, h, hs.len, fun _ => rfl⟩
  | succ n ih =>
    intro i src dst hs h hi hN
    have hlen : (l.take i).length = i := by simp; omega
    obtain ⟨s1, es, hs1, ht⟩ := hs.take (triv := triv) (by omega)
    rw [moveLoop, es]
    simp only [R.ok_bind]
    obtain ⟨k, e, hk, h1⟩ := h.construct (by omega) l[i]
    rw [hlen] at e h1
    rw [e]
    simp only [R.ok_bind]
    rw [← take_concat_of_lt (by omega)] at h1
    obtain ⟨s2, d, k', e2, hk2, h2, hl2, ht2⟩ := ih hs1 h1 (by omega) hN
    rw [e2]
    exact ⟨s2, d, k + k', rfl, fun s => by rw [hk s, hk2 s], h2, hl2, fun t => by rw [ht2 t, ht t]⟩

/-- `l` with its first `i` elements replaced by those of `m`. -/
def over (m l : List α) (i : Nat) : List α := m.take i ++ l.drop i

theorem over_length {m l : List α} {i : Nat} (h1 : i ≤ m.length) (h2 : i ≤ l.length) : (over m l i).length = l.length := by
  simp [over]; omega

theorem over_set {m l : List α} {i : Nat} (h1 : i < m.length) (h2 : i < l.length) : (over m l i).set i m[i] = over m l (i + 1) := by
  unfold over
  rw [List.set_append_right _ _ (by simp; omega), take_concat_of_lt h1]
  rw [show i - (m.take i).length = 0 by simp; omega, List.drop_eq_getElem_cons h2, List.set_cons_zero, List.append_assoc]
  rfl

theorem copyAssignLoop_ok {src : Option (Buf α)} {m l : List α} (n : Nat)
    (hs : ∀ s, src = some s → ∀ j (h : j < m.length), s[j]? = some (.live m[j])) (hself : src = none → m = l) :
    ∀ {i : Nat} {dst : Buf α}, RelB triv strict N dst (over m l i) → i + n ≤ m.length → i + n ≤ l.length →
    ∃ dst', copyAssignLoop src dst i n = .ok dst' ∧ RelB triv strict N dst' (over m l (i + n)) := by
  induction n with
  | zero => intro i dst h _ _; exact ⟨dst, rfl, h⟩
  | succ n ih =>
    intro i dst h hi hi2
    have hr : (src.getD dst).read i = .ok m[i] := by
      cases hsrc : src with
      | none =>
        have := hself hsrc
        subst this
        have h2 := h.read (i := i) (by rw [over_length (by omega) (by omega)]; omega)
        simp only [over, List.take_append_drop] at h2
        exact h2
      | some s => exact Buf.read_ok (hs s hsrc i (by omega))
    rw [copyAssignLoop, hr]
    simp only [R.ok_bind]
    obtain ⟨e, h1⟩ := h.assign (i := i) (by rw [over_length (by omega) (by omega)]; omega) m[i]
    rw [e]
    simp only [R.ok_bind]
    rw [over_set (by omega) (by omega)] at h1
    obtain ⟨d, e2, h2⟩ := ih h1 (by omega) (by omega)
    exact ⟨d, e2, by rw [show i + (n + 1) = i + 1 + n by omega]; exact h2⟩

theorem moveAssignLoop_ok {m l : List α} (n : Nat) :
    ∀ {i : Nat} {src dst : Buf α}, Src N src m i → RelB triv strict N dst (over m l i) → i + n ≤ m.length → i + n ≤ l.length →
    ∃ src' dst', moveAssignLoop triv src dst i n = .ok (src', dst') ∧ RelB triv strict N dst' (over m l (i + n)) ∧
      Src N src' m (i + n) ∧ (triv = true → src' = src) := by
  induction n with
  | zero => intro i src dst hs h _ _; exact ⟨src, dst, rfl, h, hs, fun _ => rfl⟩
  | succ n ih =>
    intro i src dst hs h hi hi2
    obtain ⟨s1, es, hs1, ht⟩ := hs.take (triv := triv) (by omega)
    rw [moveAssignLoop, es]
    simp only [R.ok_bind]
    obtain ⟨e, h1⟩ := h.assign (i := i) (by rw [over_length (by omega) (by omega)]; omega) m[i]
    rw [e]
    simp only [R.ok_bind]
    rw [over_set (by omega) (by omega)] at h1
    obtain ⟨s2, d, e2, h2, hs2, ht2⟩ := ih hs1 h1 (by omega) (by omega)
    refine ⟨s2, d, e2, ?_, ?_, fun t => by rw [ht2 t, ht t]⟩
    · rw [show i + (n + 1) = i + 1 + n by omega]; exact h2
    · rw [show i + (n + 1) = i + 1 + n by omega]; exact hs2

theorem selfMoveLoop_ok (n : Nat) : ∀ {i : Nat} {b : Buf α}, RelB triv strict N b l → i + n ≤ l.length →
    selfMoveLoop triv b i n = .ok b := by
  induction n with
  | zero => intro i b _ _; rfl
  | succ n ih =>
    intro i b h hi
    have hx := h.live i (by omega)
    have e : moveAssign triv b i i = .ok b := by
      unfold moveAssign
      rw [Buf.slot_ok hx]
      simp only [R.ok_bind, Slot.alive, Bool.and_self, if_true, decide_true, Bool.or_true]
      congr 1
      apply List.ext_getElem?
      intro j
      rw [List.getElem?_set]
      split
      · rename_i e; subst e; rw [if_pos (get_lt hx), hx]
      · rfl
    rw [selfMoveLoop, e]
    exact ih h (by omega)

/-- The buffer during `remove_at`: slot `i - 1` may be overwritten next. -/
structure Hole (triv : Bool) (strict : Prop) (N : Nat) (b : Buf α) (l : List α) (k i : Nat) : Prop where
  len : b.length = N
  le : l.length ≤ N
  front : ∀ j, j + 1 < i → ∀ x, (l.eraseIdx k)[j]? = some x → b[j]? = some (.live x)
  hole : ∃ x, b[i - 1]? = some x ∧ x.alive = true
  back : ∀ j (h : j < l.length), i ≤ j → b[j]? = some (.live l[j])
  rest : strict → ∀ j x, l.length ≤ j → b[j]? = some x → x = .raw ∨ triv = true

theorem shiftLoop_ok {k : Nat} (n : Nat) : ∀ {i : Nat} {b : Buf α}, Hole triv strict N b l k i → k < i → i + n = l.length →
    ∃ b', shiftLoop triv b i n = .ok b' ∧ Hole triv strict N b' l k l.length := by
  induction n with
  | zero =>
    intro i b h _ hi
    have : i = l.length := by omega
    subst this
    exact ⟨b, rfl, h⟩
  | succ n ih =>
    intro i b h hk hi
    have hx := h.back i (by omega) (Nat.le_refl _)
    rw [shiftLoop, Buf.take_ok hx]
    simp only [R.ok_bind]
    obtain ⟨y, hy, hya⟩ := h.hole
    have hb1 : (if triv then b else b.set i .moved)[i - 1]? = some y := by
      cases triv with
      | true => exact hy
      | false => simp only [Bool.false_eq_true, if_false]; rw [List.getElem?_set, if_neg (by omega)]; exact hy
    rw [Buf.assign_ok hb1 hya]
    simp only [R.ok_bind]
    refine ih ?_ (by omega) (by omega)
    have hlen : (if triv then b else b.set i .moved).length = b.length := by cases triv <;> simp
    have hother : ∀ j, j ≠ i → (if triv then b else b.set i .moved)[j]? = b[j]? := by
      intro j hj
      cases triv with
      | true => rfl
      | false => simp only [Bool.false_eq_true, if_false]; rw [List.getElem?_set, if_neg (by omega)]
    refine ⟨by simp only [List.length_set, hlen]; exact h.len, h.le, ?_, ?_, ?_, ?_⟩
    · intro j hj x hx'
      rw [List.getElem?_set]
      by_cases e : i - 1 = j
      · subst e
        rw [if_pos rfl, if_pos (get_lt hb1)]
        rw [List.getElem?_eraseIdx_of_ge (by omega), show i - 1 + 1 = i by omega, List.getElem?_eq_getElem (by omega)] at hx'
        simp only [Option.some.injEq] at hx'
        rw [hx']
      · rw [if_neg e, hother j (by omega)]
        exact h.front j (by omega) x hx'
    · rw [show i + 1 - 1 = i by omega, List.getElem?_set, if_neg (by omega)]
      cases triv with
      | true => exact ⟨_, hx, rfl⟩
      | false =>
        refine ⟨.moved, ?_, rfl⟩
        simp [get_lt hx]
    · intro j hj hij
      rw [List.getElem?_set, if_neg (by omega), hother j (by omega)]
      exact h.back j hj (by omega)
    · intro hs j x hj hx'
      rw [List.getElem?_set, if_neg (by omega), hother j (by omega)] at hx'
      exact h.rest hs j x hj hx'

theorem removeAt_buf {k : Nat} (h : RelB triv strict N b l) (hk : k < l.length) :
    ∃ b', (do let b ← shiftLoop triv b (k + 1) (l.length - (k + 1)); b.destroy (l.length - 1)) = .ok b' ∧
      RelB triv strict N b' (l.eraseIdx k) := by
  have h0 : Hole triv strict N b l k (k + 1) := by
    refine ⟨h.len, h.le, ?_, ⟨_, h.live k hk, rfl⟩, fun j hj _ => h.live j hj, h.rest⟩
    intro j hj x hx
    rw [List.getElem?_eraseIdx_of_lt (by omega), List.getElem?_eq_getElem (by omega)] at hx
    simp only [Option.some.injEq] at hx
    rw [← hx]; exact h.live j (by omega)
  obtain ⟨b1, e1, h1⟩ := shiftLoop_ok (l.length - (k + 1)) h0 (by omega) (by omega)
  rw [e1]
  simp only [R.ok_bind]
  obtain ⟨y, hy, hya⟩ := h1.hole
  rw [Buf.destroy_ok hy hya]
  have hel : (l.eraseIdx k).length = l.length - 1 := by rw [List.length_eraseIdx]; simp [hk]
  refine ⟨_, rfl, by simpa using h1.len, by have := h.le; omega, ?_, ?_⟩
  · intro j hj
    rw [List.getElem?_set, if_neg (by omega)]
    exact h1.front j (by omega) _ (List.getElem?_eq_getElem hj)
  · intro hs j x hj hx
    rw [List.getElem?_set] at hx
    split at hx
    · split at hx
      · simp only [Option.some.injEq] at hx; exact Or.inl hx.symm
      · simp at hx
    · exact h1.rest hs j x (by omega) hx

theorem swap_ok {p q : Nat} (h : RelB triv strict N b l) (hp : p < l.length) (hq : q < l.length) :
    ∃ b', swap triv b p q = .ok b' ∧ RelB triv strict N b' ((l.set p l[q]).set q l[p]) := by
  have xp := h.live p hp
  have xq := h.live q hq
  unfold swap
  rw [Buf.take_ok xp]
  simp only [R.ok_bind]
  have hfin : ∀ b3 : Buf α, b3.length = b.length → (∃ x, b3[q]? = some x ∧ x.alive = true) →
      (q ≠ p → b3[p]? = b[q]?) → (∀ j, j ≠ p → j ≠ q → b3[j]? = b[j]?) →
      ∃ b', b3.assign q l[p] = .ok b' ∧ RelB triv strict N b' ((l.set p l[q]).set q l[p]) := by
    intro b3 hl ⟨x, hx, hxa⟩ h1 h2
    rw [Buf.assign_ok hx hxa]
    refine ⟨_, rfl, by simp only [List.length_set, hl]; exact h.len, by simpa using h.le, ?_, ?_⟩
    · intro j hj
      simp only [List.length_set] at hj
      rw [List.getElem?_set, List.getElem_set]
      by_cases e : q = j
      · subst e; simp [hl, get_lt xq]
      · rw [if_neg e, if_neg e, List.getElem_set]
        by_cases e2 : p = j
        · subst e2; rw [if_pos rfl, h1 (by omega), xq]
        · rw [if_neg e2, h2 j (by omega) (by omega)]; exact h.live j hj
    · intro hs j x hj hx'
      simp only [List.length_set] at hj
      rw [List.getElem?_set, if_neg (by omega), h2 j (by omega) (by omega)] at hx'
      exact h.rest hs j x hj hx'
  by_cases hpq : p = q
  · subst hpq
    cases triv with
    | true =>
      unfold moveAssign
      simp only [if_true]
      rw [Buf.slot_ok xp]
      simp only [R.ok_bind, Slot.alive, Bool.and_self, if_true, Bool.true_or]
      exact hfin _ (by simp) ⟨.live l[p], by simp [get_lt xp], rfl⟩ (fun h => absurd rfl h)
        (fun j h1 _ => by rw [List.getElem?_set, if_neg (by omega)])
    | false =>
      unfold moveAssign
      have hm : (b.set p Slot.moved)[p]? = some .moved := by simp [get_lt xp]
      simp only [Bool.false_eq_true, if_false]
      rw [Buf.slot_ok hm]
      simp only [R.ok_bind, Slot.alive, Bool.and_self, if_true, decide_true, Bool.or_true]
      exact hfin _ (by simp) ⟨.moved, by simp [get_lt xp], rfl⟩ (fun h => absurd rfl h)
        (fun j h1 _ => by rw [List.getElem?_set, if_neg (by omega), List.getElem?_set, if_neg (by omega)])
  · cases triv with
    | true =>
      unfold moveAssign
      simp only [if_true]
      rw [Buf.slot_ok xp, Buf.slot_ok xq]
      simp only [R.ok_bind, Slot.alive, Bool.and_self, if_true, Bool.true_or]
      refine hfin _ (by simp) ⟨_, by rw [List.getElem?_set, if_neg hpq]; exact xq, rfl⟩ (fun _ => by rw [xq]; simp [get_lt xp])
        (fun j h1 _ => by rw [List.getElem?_set, if_neg (by omega)])
    | false =>
      unfold moveAssign
      have hm : (b.set p Slot.moved)[p]? = some .moved := by simp [get_lt xp]
      have hq' : (b.set p Slot.moved)[q]? = some (.live l[q]) := by rw [List.getElem?_set, if_neg hpq]; exact xq
      simp only [Bool.false_eq_true, if_false]
      rw [Buf.slot_ok hm, Buf.slot_ok hq']
      simp only [R.ok_bind, Slot.alive, Bool.and_self, if_true, Bool.false_or, decide_eq_true_eq, if_neg hpq]
      refine hfin _ (by simp) ⟨.moved, by simp [get_lt xq], rfl⟩ (fun h => ?_) (fun j h1 h2 => ?_)
      · rw [List.getElem?_set, if_neg h, xq]; simp [get_lt xp]
      · rw [List.getElem?_set, if_neg (by omega), List.getElem?_set, if_neg (by omega), List.getElem?_set, if_neg (by omega)]

end

/-- A vector and its list. -/
structure Rel (triv : Bool) (strict : Prop) (N : Nat) (v : CV α) (l : List α) : Prop where
  size : v.size = l.length
  buf : RelB triv strict N v.buf l

section
variable {triv : Bool} {strict : Prop} {N : Nat} {v w : CV α} {l m : List α}

theorem Rel.nil (triv : Bool) (strict : Prop) (N : Nat) : Rel triv strict N (CV.empty N : CV α) [] := ⟨rfl, RelB.nil triv strict N⟩

theorem front_ok (h : Rel triv strict N v l) : front v = match l.head? with | some a => .ok a | none => .error .assert := by
  unfold front
  rw [h.size]
  cases l with
  | nil => rfl
  | cons a l =>
    rw [ccAssert_true (by simp)]
    exact h.buf.read (i := 0) (by simp)

theorem back_ok (h : Rel triv strict N v l) : back v = match l.getLast? with | some a => .ok a | none => .error .assert := by
  unfold back
  rw [h.size]
  by_cases hl : l = []
  · subst hl; rfl
  · have := List.length_pos_iff.2 hl
    rw [ccAssert_true (by simpa using this), List.getLast?_eq_some_getLast hl]
    simp only [R.ok_bind]
    rw [h.buf.read (by omega), List.getLast_eq_getElem]

theorem get_ok (h : Rel triv strict N v l) (i : Nat) : get v i = match l[i]? with | some a => .ok a | none => .error .assert := by
  unfold get
  rw [h.size]
  by_cases hi : i < l.length
  · rw [ccAssert_true (by simpa using hi), List.getElem?_eq_getElem hi]
    exact h.buf.read hi
  · rw [ccAssert_false (by simpa using hi), List.getElem?_eq_none (by omega)]
    rfl

theorem set_ok (h : Rel triv strict N v l) {i : Nat} (hi : i < l.length) (a : α) :
    ∃ v', set v i a = .ok v' ∧ Rel triv strict N v' (l.set i a) := by
  unfold set
  rw [h.size, ccAssert_true (by simpa using hi)]
  obtain ⟨e, h1⟩ := h.buf.assign hi a
  simp only [R.ok_bind, e]
  exact ⟨_, rfl, by rw [List.length_set], h1⟩

theorem pushBack_ok (h : Rel triv strict N v l) (hl : l.length < N) {arg : Arg α} {a : α} (ha : Spec.argVal l arg = some a) :
    ∃ v' k, pushBack triv v arg = .ok (v', k) ∧ (strict → k = 0) ∧ Rel triv strict N v' (l ++ [a]) := by
  unfold pushBack cap
  rw [h.size, h.buf.len, ccAssert_true (by simpa using hl), evalArg_ok h.buf ha]
  obtain ⟨k, e, hk, h1⟩ := h.buf.construct hl a
  simp only [R.ok_bind, e]
  exact ⟨_, k, rfl, hk, by simp, h1⟩

theorem popBack_ok (h : Rel triv strict N v l) (hl : l ≠ []) : ∃ v', popBack v = .ok v' ∧ Rel triv strict N v' l.dropLast := by
  have hpos := List.length_pos_iff.2 hl
  unfold popBack
  rw [h.size, ccAssert_true (by simpa using hpos)]
  have e : l = l.dropLast ++ [l.getLast hl] := (List.dropLast_concat_getLast hl).symm
  have hb := h.buf
  rw [e] at hb
  obtain ⟨e1, h1⟩ := hb.destroy
  rw [List.length_dropLast] at e1 h1
  simp only [R.ok_bind, e1]
  exact ⟨_, rfl, by simp, h1⟩

theorem clear_ok (h : Rel triv strict N v l) : ∃ v', clear v = .ok v' ∧ Rel triv strict N v' [] := by
  unfold clear
  obtain ⟨b', e, h1⟩ := destroyDown_ok l.length (m := 0) h.buf rfl
  rw [h.size, e]
  exact ⟨_, rfl, rfl, by simpa using h1⟩

theorem resize_ok (h : Rel triv strict N v l) {n : Nat} (hn : n ≤ N) {arg : Arg α} {a : α} (ha : Spec.argVal l arg = some a) :
    ∃ v' k, resize triv v n arg = .ok (v', k) ∧ (strict → k = 0) ∧
      Rel triv strict N v' (l.take n ++ List.replicate (n - l.length) a) := by
  unfold resize cap
  rw [h.buf.len, h.size, ccAssert_true (by simpa using hn)]
  obtain ⟨b1, k, e1, hk, h1⟩ := fillLoop_ok (n - l.length) h.buf ha (by have := h.buf.le; omega)
  simp only [R.ok_bind, e1]
  by_cases hle : n ≤ l.length
  · rw [show n - l.length = 0 by omega] at h1
    simp only [List.replicate_zero, List.append_nil] at h1
    obtain ⟨b2, e2, h2⟩ := destroyDown_ok l.length (m := n) h1 rfl
    rw [e2]
    refine ⟨_, k, rfl, hk, ?_, ?_⟩
    · simp; omega
    · rw [show n - l.length = 0 by omega]; simpa using h2
  · have e2 : destroyDown b1 l.length n = .ok b1 := by
      cases hll : l.length with
      | zero => rfl
      | succ x => rw [destroyDown, if_neg (by omega)]
    rw [e2]
    refine ⟨_, k, rfl, hk, ?_, ?_⟩
    · simp; omega
    · rw [List.take_of_length_le (by omega)]; exact h1

theorem removeAt_ok (h : Rel triv strict N v l) {k : Nat} (hk : k < l.length) :
    ∃ v', removeAt triv v k = .ok v' ∧ Rel triv strict N v' (l.eraseIdx k) := by
  unfold removeAt
  rw [h.size, ccAssert_true (by simpa using hk)]
  obtain ⟨b', e, h1⟩ := removeAt_buf h.buf hk
  simp only [R.bind_eq_ok] at e
  obtain ⟨b1, e1, e2⟩ := e
  simp only [R.ok_bind, e1, e2]
  refine ⟨_, rfl, ?_, h1⟩
  rw [List.length_eraseIdx, if_pos hk]

theorem removeAtUnordered_ok (h : Rel triv strict N v l) {k : Nat} (hk : k < l.length) {z : α} (hz : l.getLast? = some z) :
    ∃ v', removeAtUnordered triv v k = .ok v' ∧ Rel triv strict N v' ((l.set k z).dropLast) := by
  unfold removeAtUnordered
  rw [h.size, ccAssert_true (c := decide (k < l.length)) (by simpa using hk),
    ccAssert_true (c := decide (l.length > 0)) (by simp; omega)]
  have hz' : l[l.length - 1] = z := by
    rw [List.getLast?_eq_getElem?, List.getElem?_eq_getElem (by omega)] at hz
    simpa using hz
  obtain ⟨b', e, h1⟩ := swap_ok h.buf hk (show l.length - 1 < l.length by omega)
  simp only [R.ok_bind, e]
  have h2 : Rel triv strict N { v with buf := b' } ((l.set k l[l.length - 1]).set (l.length - 1) l[k]) := ⟨by simp [h.size], h1⟩
  obtain ⟨v', e', h3⟩ := popBack_ok h2 (by intro h0; have := congrArg List.length h0; rw [List.length_set, List.length_set, List.length_nil] at this; omega)
  refine ⟨v', by rw [← h.size] at *; exact e', ?_⟩
  rw [hz'] at h3
  have : ((l.set k z).set (l.length - 1) l[k]).dropLast = (l.set k z).dropLast := by
    rw [List.dropLast_eq_take, List.dropLast_eq_take]
    simp only [List.length_set]
    rw [List.take_set_of_le (Nat.le_refl _)]
  rw [this] at h3
  exact h3

theorem containsLoop_ok [DecidableEq α] (h : Rel triv strict N v l) (a : α) (n : Nat) : ∀ i, i + n = l.length →
    containsLoop v.buf a i n = .ok (decide (a ∈ l.drop i)) := by
  induction n with
  | zero => intro i hi; rw [List.drop_eq_nil_of_le (by omega)]; rfl
  | succ n ih =>
    intro i hi
    rw [containsLoop, h.buf.read (by omega)]
    simp only [R.ok_bind]
    rw [List.drop_eq_getElem_cons (show i < l.length by omega), ih (i + 1) (by omega)]
    split
    · rename_i e; simp only [List.mem_cons, e, true_or, decide_true]
    · rename_i e
      have : ¬ a = l[i] := fun h => e h.symm
      simp only [List.mem_cons, this, false_or]

theorem contains_ok [DecidableEq α] (h : Rel triv strict N v l) (a : α) : contains v a = .ok (decide (a ∈ l)) := by
  unfold contains
  rw [h.size]
  simpa using containsLoop_ok h a l.length 0 (by omega)

theorem eqLoop_ok [DecidableEq α] (h : Rel triv strict N v l) (h' : Rel triv strict N w m) (hl : l.length = m.length) (n : Nat) :
    ∀ i, i + n = l.length → eqLoop v w i n = .ok (decide (l.drop i = m.drop i)) := by
  induction n with
  | zero => intro i hi; rw [List.drop_eq_nil_of_le (by omega), List.drop_eq_nil_of_le (by omega)]; rfl
  | succ n ih =>
    intro i hi
    rw [eqLoop, get_ok h, get_ok h', List.getElem?_eq_getElem (by omega), List.getElem?_eq_getElem (by omega)]
    simp only [R.ok_bind]
    rw [List.drop_eq_getElem_cons (show i < l.length by omega), List.drop_eq_getElem_cons (show i < m.length by omega),
      ih (i + 1) (by omega)]
    by_cases e : l[i] = m[i]
    · simp only [e, decide_true, Bool.not_true, Bool.false_eq_true, if_false, List.cons.injEq, true_and]
    · simp only [e, decide_false, Bool.not_false, if_true, List.cons.injEq, false_and]

theorem eq_ok [DecidableEq α] (h : Rel triv strict N v l) (h' : Rel triv strict N w m) : eq v w = .ok (decide (l = m)) := by
  unfold eq
  rw [h.size, h'.size]
  split
  · rename_i hne
    have : l ≠ m := by intro e; rw [e] at hne; exact hne rfl
    simp [this]
  · rename_i he
    simpa using eqLoop_ok h h' (by omega) l.length 0 (by omega)

theorem copyCtor_ok (h : Rel triv strict N v l) :
    ∃ v' k, copyCtor triv v = .ok (v', k) ∧ (strict → k = 0) ∧ Rel triv strict N v' l := by
  unfold copyCtor cap
  rw [h.buf.len, h.size]
  obtain ⟨d, k, e, hk, h1⟩ := copyLoop_ok (triv := triv) (strict := strict) (N := N) (l := l) (src := v.buf) h.buf.live l.length
    (i := 0) (dst := Buf.mk N) (by simpa using RelB.nil triv strict N) (by omega) h.buf.le
  rw [e]
  exact ⟨_, k, rfl, hk, rfl, h1⟩

theorem rangeCtor_ok (triv : Bool) (strict : Prop) {as : List α} (hl : as.length ≤ N) :
    ∃ v' k, rangeCtor triv N as = .ok (v', k) ∧ (strict → k = 0) ∧ Rel triv strict N v' as := by
  unfold rangeCtor
  rw [ccAssert_true (by simpa using hl)]
  obtain ⟨d, k, e, hk, h1⟩ := copyLoop_ok (triv := triv) (strict := strict) (N := N) (l := as) (src := as.map .live)
    (by intro j hj; simp [hj]) as.length
    (i := 0) (dst := Buf.mk N) (by simpa using RelB.nil triv strict N) (by omega) hl
  simp only [R.ok_bind, e]
  exact ⟨_, k, rfl, hk, rfl, h1⟩

theorem filledCtor_ok (triv : Bool) (strict : Prop) {n : Nat} (hn : n ≤ N) (a : α) :
    ∃ v' k, filledCtor triv N n a = .ok (v', k) ∧ (strict → k = 0) ∧ Rel triv strict N v' (List.replicate n a) := by
  unfold filledCtor
  rw [ccAssert_true (by simpa using hn)]
  have := resize_ok (Rel.nil triv strict N) hn (arg := .val a) (a := a) rfl
  simpa using this

theorem moveCtor_ok (h : Rel triv strict N v l) (hs : strict → triv = true) :
    ∃ s v' k, moveCtor triv v = .ok (s, v', k) ∧ (strict → k = 0) ∧ Rel triv strict N v' l ∧ Rel triv strict N s [] := by
  unfold moveCtor cap
  rw [h.buf.len, h.size]
  obtain ⟨s, d, k, e, hk, h1, hl, ht⟩ := moveLoop_ok (triv := triv) (strict := strict) (N := N) (l := l) l.length
    (i := 0) (dst := Buf.mk N) h.buf.src (by simpa using RelB.nil triv strict N) (by omega) h.buf.le
  rw [e]
  exact ⟨_, _, k, rfl, hk, ⟨rfl, h1⟩, rfl, relB_zero hl (fun hst _ _ _ => Or.inr (hs hst))⟩

/-- Dropping the superfluous elements before an assignment. -/
theorem dropSuperfluous (h : Rel triv strict N v l) (rs : Nat) :
    ∃ b, destroyExtra triv v rs = .ok b ∧ RelB triv strict N b (l.take rs) := by
  unfold destroyExtra
  split
  · rename_i ht
    refine ⟨_, rfl, h.buf.len, by have := h.buf.le; simp; omega, ?_, fun _ _ _ _ _ => Or.inr ht⟩
    intro j hj
    simp only [List.length_take] at hj
    rw [List.getElem_take]
    exact h.buf.live j (by omega)
  · rw [h.size]
    exact destroyDown_ok l.length h.buf rfl

theorem over_common {rs : Nat} (hrs : rs = m.length) : over m (l.take rs) (if l.length < rs then l.length else rs) =
    m.take (if l.length < rs then l.length else rs) := by
  unfold over
  split
  · rw [List.drop_eq_nil_of_le (by simp; omega), List.append_nil]
  · rw [List.drop_eq_nil_of_le (by simp; omega), List.append_nil]

theorem copyAssign_ok (h : Rel triv strict N v l) (src : Option (CV α)) (hsrc : ∀ s, src = some s → Rel triv strict N s m)
    (hself : src = none → m = l) :
    ∃ v' k, copyAssign triv v src = .ok (v', k) ∧ (strict → k = 0) ∧ Rel triv strict N v' m := by
  have hrs : (src.getD v).size = m.length := by
    cases hs : src with
    | none => rw [hself hs]; exact h.size
    | some s => exact (hsrc s hs).size
  have hmN : m.length ≤ N := by
    cases hs : src with
    | none => rw [hself hs]; exact h.buf.le
    | some s => exact (hsrc s hs).buf.le
  unfold copyAssign
  rw [hrs]
  obtain ⟨b1, e1, h1⟩ := dropSuperfluous h m.length
  simp only [e1]
  have hloop : ∃ b2, copyAssignLoop (src.map (·.buf)) b1 0 (if v.size < m.length then v.size else m.length) = .ok b2 ∧
      RelB triv strict N b2 (m.take (if l.length < m.length then l.length else m.length)) := by
    rw [h.size]
    obtain ⟨b2, e2, h2⟩ := copyAssignLoop_ok (triv := triv) (strict := strict) (N := N) (src := src.map (·.buf)) (m := m)
      (l := l.take m.length) (if l.length < m.length then l.length else m.length)
      (by
        intro s hs j hj
        cases hsr : src with
        | none => rw [hsr] at hs; simp at hs
        | some s' =>
          rw [hsr] at hs
          simp only [Option.map_some, Option.some.injEq] at hs
          rw [← hs]; exact (hsrc s' hsr).buf.live j hj)
      (by
        intro hs
        have : src = none := by simpa using hs
        rw [hself this, List.take_of_length_le (Nat.le_refl _)])
      (i := 0) (dst := b1) (by simpa [over] using h1) (by split <;> omega) (by simp; split <;> omega)
    rw [Nat.zero_add, over_common rfl] at h2
    exact ⟨b2, e2, h2⟩
  obtain ⟨b2, e2, h2⟩ := hloop
  simp only [R.ok_bind]
  rw [e2]
  simp only [R.ok_bind]
  rw [h.size]
  have hl2 : ∀ j (hj : j < m.length), (if l.length < m.length then l.length else m.length) ≤ j →
      ((src.map (·.buf)).getD b2)[j]? = some (.live m[j]) := by
    intro j hj hcj
    cases hsr : src with
    | none =>
      have := hself hsr
      rw [this] at hcj hj
      simp at hcj
      omega
    | some s => exact (hsrc s hsr).buf.live j hj
  -- the copy loop only reads from the first new index on
  have hgen : ∀ n i dst, (if l.length < m.length then l.length else m.length) ≤ i → RelB triv strict N dst (m.take i) →
      i + n = m.length → ∃ dst' k, copyLoop triv ((src.map (·.buf)).getD b2) dst i n = .ok (dst', k) ∧ (strict → k = 0) ∧
        RelB triv strict N dst' m := by
    intro n
    induction n with
    | zero =>
      intro i dst _ hd hi
      rw [List.take_of_length_le (by omega)] at hd
      exact ⟨dst, 0, rfl, fun _ => rfl, hd⟩
    | succ n ih =>
      intro i dst hci hd hi
      have hlen : (m.take i).length = i := by simp; omega
      rw [copyLoop, Buf.read_ok (hl2 i (by omega) hci)]
      simp only [R.ok_bind]
      obtain ⟨k, e, hk, h1⟩ := hd.construct (by omega) m[i]
      rw [hlen] at e h1
      rw [e]
      simp only [R.ok_bind]
      rw [← take_concat_of_lt (by omega)] at h1
      obtain ⟨d, k', e2, hk2, h2⟩ := ih (i + 1) _ (by omega) h1 (by omega)
      rw [e2]
      exact ⟨d, k + k', rfl, fun s => by rw [hk s, hk2 s], h2⟩
  obtain ⟨b3, k, e3, hk, h3⟩ := hgen (m.length - (if l.length < m.length then l.length else m.length)) _ b2 (Nat.le_refl _) h2
    (by split <;> omega)
  rw [e3]
  exact ⟨_, k, rfl, hk, rfl, h3⟩

theorem moveAssignFrom_ok (h : Rel triv strict N v l) (h' : Rel triv strict N w m) (hs : strict → triv = true) :
    ∃ s v' k, moveAssignFrom triv v w = .ok (s, v', k) ∧ (strict → k = 0) ∧ Rel triv strict N v' m ∧ Rel triv strict N s [] := by
  unfold moveAssignFrom
  rw [h'.size]
  obtain ⟨b1, e1, h1⟩ := dropSuperfluous h m.length
  simp only [e1]
  simp only [R.ok_bind]
  rw [h.size]
  obtain ⟨s2, b2, e2, h2, hs2, -⟩ := moveAssignLoop_ok (triv := triv) (strict := strict) (N := N) (m := m)
    (l := l.take m.length) (if l.length < m.length then l.length else m.length) (i := 0) (dst := b1) h'.buf.src
    (by simpa [over] using h1) (by split <;> omega) (by simp; split <;> omega)
  rw [Nat.zero_add, over_common rfl] at h2
  rw [Nat.zero_add] at hs2
  rw [e2]
  simp only [R.ok_bind]
  obtain ⟨s3, b3, k, e3, hk, h3, hl3, -⟩ := moveLoop_ok (m.length - (if l.length < m.length then l.length else m.length)) hs2 h2
    (by split <;> omega) h'.buf.le
  rw [e3]
  exact ⟨_, _, k, rfl, hk, ⟨rfl, h3⟩, rfl, relB_zero hl3 (fun hst _ _ _ => Or.inr (hs hst))⟩

theorem selfMoveAssign_ok (h : Rel triv strict N v l) (hs : strict → triv = true) :
    ∃ v', selfMoveAssign triv v = .ok v' ∧ Rel triv strict N v' [] := by
  unfold selfMoveAssign
  rw [h.size, selfMoveLoop_ok l.length h.buf (by omega)]
  exact ⟨_, rfl, rfl, relB_zero h.buf.len (fun hst _ _ _ => Or.inr (hs hst))⟩

theorem dtor_ok (h : Rel triv strict N v l) : ∃ k, dtor triv v = .ok k ∧ (strict → k = 0) := by
  unfold dtor
  split
  · exact ⟨0, rfl, fun _ => rfl⟩
  · rename_i ht
    rw [h.size]
    obtain ⟨b', e, h1⟩ := destroyDown_ok l.length (m := 0) h.buf rfl
    rw [e]
    refine ⟨_, rfl, ?_⟩
    intro hs
    unfold Buf.leak
    rw [if_neg ht, List.countP_eq_zero]
    intro x hx
    obtain ⟨j, hj⟩ := List.mem_iff_getElem?.1 hx
    rcases h1.rest hs j x (by simp) hj with h2 | h2
    · subst h2; simp [Slot.alive]
    · exact absurd h2 ht

end

end Verif.Capped
