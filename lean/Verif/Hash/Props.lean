import Verif.Hash.Spec

/-! Property theorems for the default hashes: C61. -/
namespace Verif.Hash

open Spec

/-! ### hash_combine -/

theorem mul_cancel {a b : BitVec 64} (h : a * mul = b * mul) : a = b := by
  have : a * mul * 13877824140714322085#64 = b * mul * 13877824140714322085#64 := by rw [h]
  rwa [BitVec.mul_assoc, BitVec.mul_assoc, show mul * 13877824140714322085#64 = 1#64 by decide, BitVec.mul_one, BitVec.mul_one] at this

/-- **C61**: changing one argument of `hash_combine` changes the result. -/
theorem C61_combine_injective (a a' b b' : BitVec 64) :
    (combine a b = combine a' b ↔ a = a') ∧ (combine a b = combine a b' ↔ b = b') := by
  unfold combine
  refine ⟨⟨fun h => mul_cancel ?_, fun h => by rw [h]⟩, ⟨fun h => ?_, fun h => by rw [h]⟩⟩
  · rwa [BitVec.add_left_inj, BitVec.add_left_inj] at h
  · rwa [BitVec.add_left_inj, BitVec.add_right_inj] at h

/-- **C61**: `hash_combine` is sensitive to the order of its arguments: two arguments can be exchanged without changing the result exactly if
their low 62 bits agree. -/
theorem C61_combine_order (a b : BitVec 64) : combine a b = combine b a ↔ a.toNat % 2^62 = b.toNat % 2^62 := by
  have e1 : ∀ x y : BitVec 64, combine x y = x * (mul - 1#64) + (x + y) + inc := by
    intro x y
    unfold combine
    have : x * mul = x * (mul - 1#64) + x := by
      conv => lhs; rw [show mul = (mul - 1#64) + 1#64 by decide, BitVec.mul_add, BitVec.mul_one]
    rw [this, BitVec.add_assoc (x * (mul - 1#64)) x y]
  rw [e1, e1, BitVec.add_comm b a, BitVec.add_left_inj, BitVec.add_left_inj]
  have e2 : a * (mul - 1#64) = b * (mul - 1#64) ↔ a * 4#64 = b * 4#64 := by
    rw [show mul - 1#64 = 4#64 * 1591034055961698251#64 by decide, ← BitVec.mul_assoc, ← BitVec.mul_assoc]
    refine ⟨fun h => ?_, fun h => by rw [h]⟩
    have h2 : a * 4#64 * 1591034055961698251#64 * 15149936092555529699#64 = b * 4#64 * 1591034055961698251#64 * 15149936092555529699#64 := by rw [h]
    rwa [BitVec.mul_assoc _ 1591034055961698251#64, BitVec.mul_assoc _ 1591034055961698251#64,
      show 1591034055961698251#64 * 15149936092555529699#64 = 1#64 by decide, BitVec.mul_one, BitVec.mul_one] at h2
  rw [e2, ← BitVec.toNat_inj, BitVec.toNat_mul, BitVec.toNat_mul, show (4#64).toNat = 4 by rfl]
  omega

attribute [local irreducible] combine

/-- **C61**: sequences of the same length whose hashes differ at exactly one place have different hashes. -/
theorem C61_fold_one_change (h : BitVec 64) (p q : List (BitVec 64)) (x y : BitVec 64) (hne : x ≠ y) :
    foldFrom h (p ++ x :: q) ≠ foldFrom h (p ++ y :: q) := by
  have start : ∀ (q : List (BitVec 64)) (g g' : BitVec 64), g ≠ g' → foldFrom g q ≠ foldFrom g' q := by
    intro q
    induction q with
    | nil => intro g g' h; exact h
    | cons c q ih => intro g g' h; exact ih _ _ (fun e => h ((C61_combine_injective g g' c c).1.1 e))
  induction p generalizing h with
  | nil => exact start q _ _ (fun e => hne ((C61_combine_injective h h x y).2.1 e))
  | cons c p ih => exact ih (combine h c)

example : foldFrom 0#64 [1#64, 2#64, 3#64] ≠ foldFrom 0#64 [1#64, 7#64, 3#64] := C61_fold_one_change 0#64 [1#64] [3#64] 2#64 7#64 (by decide)

/-- `hash_combine` of several arguments is the left fold of the binary one. -/
theorem combineAll_cons (a : BitVec 64) (l : List (BitVec 64)) : combineAll (a :: l) = foldFrom a l := by
  match l with
  | [] => rfl
  | [_] => rfl
  | _ :: _ :: _ => rfl

/-- The variadic overloads of `hash_combine` all agree: adding one more argument is one more binary step. -/
theorem C61_combine_variadic (a : BitVec 64) (l : List (BitVec 64)) (x : BitVec 64) :
    combineAll (a :: l ++ [x]) = combine (combineAll (a :: l)) x := by
  have : ∀ (l : List (BitVec 64)) (h : BitVec 64), foldFrom h (l ++ [x]) = combine (foldFrom h l) x := by
    intro l
    induction l with
    | nil => intro h; rfl
    | cons c l ih => intro h; exact ih _
  rw [List.cons_append, combineAll_cons, combineAll_cons, this]

/-! ### floating point -/

theorem f32IsZero_iff (v : BitVec 32) : f32IsZero v = true ↔ v.toNat % 2^31 = 0 := by
  unfold f32IsZero
  rw [beq_iff_eq, ← BitVec.toNat_inj, BitVec.toNat_and]
  rw [show (0x7fffffff#32).toNat = 2^31 - 1 by rfl, Nat.and_two_pow_sub_one_eq_mod]
  rfl
theorem f32IsNaN_iff (v : BitVec 32) : f32IsNaN v = true ↔ (v.toNat / 2 ^ 23 % 2 ^ 8 = 255 ∧ v.toNat % 2 ^ 23 ≠ 0) := by
  unfold f32IsNaN
  rw [BitVec.ult_iff_lt, BitVec.lt_def, BitVec.toNat_and]
  rw [show (0x7fffffff#32).toNat = 2^31 - 1 by rfl, Nat.and_two_pow_sub_one_eq_mod, show (0x7f800000#32).toNat = 2139095040 by rfl]
  omega
theorem f64IsZero_iff (v : BitVec 64) : f64IsZero v = true ↔ v.toNat % 2^63 = 0 := by
  unfold f64IsZero
  rw [beq_iff_eq, ← BitVec.toNat_inj, BitVec.toNat_and]
  rw [show (0x7fffffffffffffff#64).toNat = 2^63 - 1 by rfl, Nat.and_two_pow_sub_one_eq_mod]
  rfl
theorem f64IsNaN_iff (v : BitVec 64) : f64IsNaN v = true ↔ (v.toNat / 2 ^ 52 % 2 ^ 11 = 2047 ∧ v.toNat % 2 ^ 52 ≠ 0) := by
  unfold f64IsNaN
  rw [BitVec.ult_iff_lt, BitVec.lt_def, BitVec.toNat_and]
  rw [show (0x7fffffffffffffff#64).toNat = 2^63 - 1 by rfl, Nat.and_two_pow_sub_one_eq_mod, show (0x7ff0000000000000#64).toNat = 9218868437227405312 by rfl]
  omega

/-- **C61** for floats: two floats hash equally exactly if they are equal or both NaN; in particular `+0` and `-0` do, and there are no
collisions otherwise. -/
theorem C61_float (a b : BitVec 32) : float a = float b ↔ f32Eq a b ∨ (f32IsNaN a = true ∧ f32IsNaN b = true) := by
  have key : ∀ v : BitVec 32, f32IsZero v = false → (v.setWidth 64).toNat = v.toNat ∧ v.toNat ≠ 0 := by
    intro v h
    refine ⟨by rw [BitVec.toNat_setWidth]; omega, ?_⟩
    intro h0
    have := (f32IsZero_iff v).2 (by omega)
    rw [h] at this; cases this
  have inj : ∀ v w : BitVec 32, v.setWidth 64 = w.setWidth 64 ↔ v = w := by
    intro v w
    refine ⟨fun h => BitVec.eq_of_toNat_eq ?_, fun h => by rw [h]⟩
    have := congrArg BitVec.toNat h
    rw [BitVec.toNat_setWidth, BitVec.toNat_setWidth] at this
    omega
  have nz : ∀ v : BitVec 32, f32IsZero v = true → f32IsNaN v = false := by
    intro v h
    have h1 := (f32IsZero_iff v).1 h
    cases h2 : f32IsNaN v with
    | false => rfl
    | true => have h3 := (f32IsNaN_iff v).1 h2; omega
  have hn : ∀ v : BitVec 32, (v.setWidth 64) ≠ 0xFFFFFFFFFFFF1234#64 := by
    intro v h
    have := congrArg BitVec.toNat h
    rw [BitVec.toNat_setWidth, show (0xFFFFFFFFFFFF1234#64).toNat = 0xFFFFFFFFFFFF1234 by rfl] at this
    omega
  have z0 : ∀ v : BitVec 32, f32IsZero v = false → (v.setWidth 64) ≠ 0#64 := by
    intro v h e
    have k := key v h
    rw [e] at k
    exact k.2 k.1.symm
  unfold f32Eq
  simp only [← f32IsNaN_iff, ← f32IsZero_iff]
  unfold float
  have ne1 : ¬ (0#64 = 0xFFFFFFFFFFFF1234#64) := by decide
  have ne2 : ¬ (0xFFFFFFFFFFFF1234#64 = 0#64) := by decide
  cases ha : f32IsZero a <;> cases hb : f32IsZero b
  · cases na : f32IsNaN a <;> cases nb : f32IsNaN b
    · simp [inj]
    · have h := hn a
      simp [h]
    · have h := hn b
      have h' : ¬ (0xFFFFFFFFFFFF1234#64 = b.setWidth 64) := fun e => h e.symm
      simp [h']
    · simp
  · have nb := nz b hb
    have ne : a ≠ b := fun e => by rw [e, hb] at ha; cases ha
    cases na : f32IsNaN a
    · have h := z0 a ha
      simp [nb, ne, h]
    · simp [nb]
  · have na := nz a ha
    have ne : a ≠ b := fun e => by rw [← e, ha] at hb; cases hb
    cases nb : f32IsNaN b
    · have h := z0 b hb
      have h' : ¬ (0#64 = b.setWidth 64) := fun e => h e.symm
      simp [na, ne, h']
    · simp [na]
  · simp [nz a ha, nz b hb]

/-- **C61** for doubles. -/
theorem C61_double (a b : BitVec 64) : double a = double b ↔ f64Eq a b ∨ (f64IsNaN a = true ∧ f64IsNaN b = true) := by
  have nz : ∀ v : BitVec 64, f64IsZero v = true → f64IsNaN v = false := by
    intro v h
    have h1 := (f64IsZero_iff v).1 h
    cases h2 : f64IsNaN v with
    | false => rfl
    | true => have h3 := (f64IsNaN_iff v).1 h2; omega
  have hn : ∀ v : BitVec 64, f64IsNaN v = false → v ≠ 0xFFFFFFFFFFFF5678#64 := by
    intro v h e
    rw [e] at h
    revert h; decide
  have z0 : ∀ v : BitVec 64, f64IsZero v = false → v ≠ 0#64 := by
    intro v h e
    rw [e] at h
    revert h; decide
  unfold f64Eq
  simp only [← f64IsNaN_iff, ← f64IsZero_iff]
  unfold double
  cases ha : f64IsZero a <;> cases hb : f64IsZero b
  · cases na : f64IsNaN a <;> cases nb : f64IsNaN b
    · simp
    · have h := hn a na
      simp [h]
    · have h := hn b nb
      have h' : ¬ (0xFFFFFFFFFFFF5678#64 = b) := fun e => h e.symm
      simp [h']
    · simp
  · have nb := nz b hb
    have ne : a ≠ b := fun e => by rw [e, hb] at ha; cases ha
    cases na : f64IsNaN a
    · have h := z0 a ha
      simp [nb, ne, h]
    · simp [nb]
  · have na := nz a ha
    have ne : a ≠ b := fun e => by rw [← e, ha] at hb; cases hb
    cases nb : f64IsNaN b
    · have h := z0 b hb
      have h' : ¬ (0#64 = b) := fun e => h e.symm
      simp [na, ne, h']
    · simp [na]
  · simp [nz a ha, nz b hb]

/-- `-0.0`, `+0.0`; `1.0` and `-1.0`; two NaNs. -/
example : double 0x8000000000000000#64 = double 0#64 ∧ double 0x3ff0000000000000#64 ≠ double 0xbff0000000000000#64 ∧
    double 0x7ff8000000000000#64 = double 0xfff0000000000001#64 ∧ f64Eq 0x8000000000000000#64 0#64 ∧
    float 0x80000000#32 = float 0#32 ∧ float 0x3f800000#32 = 0x3f800000#64 := by
  unfold f64Eq; decide

/-! ### scalars -/

theorem append_inj {n m : Nat} {x x' : BitVec n} {y y' : BitVec m} (h : x ++ y = x' ++ y') : x = x' ∧ y = y' := by
  constructor
  · apply BitVec.eq_of_getLsbD_eq
    intro i hi
    have := congrArg (fun z => z.getLsbD (i + m)) h
    simpa [BitVec.getLsbD_append, show ¬ (i + m < m) by omega] using this
  · apply BitVec.eq_of_getLsbD_eq
    intro i hi
    have := congrArg (fun z => z.getLsbD i) h
    simpa [BitVec.getLsbD_append, hi] using this

theorem word_inj {l m : List (BitVec 8)} (h : word l = word m) (hl : l.length = m.length) (h8 : l.length ≤ 8) : l = m := by
  unfold word at h
  obtain ⟨h, h0⟩ := append_inj h
  obtain ⟨h, h1⟩ := append_inj h
  obtain ⟨h, h2⟩ := append_inj h
  obtain ⟨h, h3⟩ := append_inj h
  obtain ⟨h, h4⟩ := append_inj h
  obtain ⟨h, h5⟩ := append_inj h
  obtain ⟨h7, h6⟩ := append_inj h
  apply List.ext_getElem hl
  intro i hi hi'
  have g : ∀ k, i = k → l.getD k 0#8 = m.getD k 0#8 → l[i] = m[i] := by
    intro k hk e
    subst hk
    rwa [List.getD_eq_getElem?_getD, List.getD_eq_getElem?_getD, List.getElem?_eq_getElem hi, List.getElem?_eq_getElem hi'] at e
  have : i = 0 ∨ i = 1 ∨ i = 2 ∨ i = 3 ∨ i = 4 ∨ i = 5 ∨ i = 6 ∨ i = 7 := by omega
  rcases this with e | e | e | e | e | e | e | e
  · exact g 0 e h0
  · exact g 1 e h1
  · exact g 2 e h2
  · exact g 3 e h3
  · exact g 4 e h4
  · exact g 5 e h5
  · exact g 6 e h6
  · exact g 7 e h7

/-- **C61** for integers, enums and pointers (up to eight bytes): equal values hash equally and different values never collide. -/
theorem C61_scalar (n : Nat) (hn : n ≤ 8) (a b : (Ty.scalar n).Val) : (Ty.scalar n).hash a = (Ty.scalar n).hash b ↔ Spec.eq (.scalar n) a b := by
  obtain ⟨a, ha⟩ := a
  obtain ⟨b, hb⟩ := b
  simp only [Ty.hash, Spec.eq, bytes]
  rw [if_pos (by omega), if_pos (by omega)]
  exact ⟨fun h => word_inj h (by omega) (by omega), fun h => by rw [h]⟩

/-- The hash of an `int` is its value: bytes `78 56 34 12` of 0x12345678. -/
example : (Ty.scalar 4).hash ⟨[0x78#8, 0x56#8, 0x34#8, 0x12#8], rfl⟩ = 0x12345678#64 := by decide

attribute [local irreducible] BitVec.signExtend word

theorem stringhashLoop_cons (h c s) : stringhashLoop h (c :: s) = if c ≠ 0#8 then stringhashLoop (combine h (c.signExtend 64)) s else .ok h := rfl
theorem stringhashNLoop_cons (h c s n) : stringhashNLoop h (c :: s) n = if c ≠ 0#8 ∧ n > 0 then stringhashNLoop (combine h (c.signExtend 64)) s (n - 1) else .ok h := rfl
theorem wordLoop_zero (r bs) : wordLoop r bs 0 = if bs.length > 0 then combine r (word bs) else r := rfl
theorem wordLoop_succ (r bs n) : wordLoop r bs (n+1) = wordLoop (combine r (word (bs.take 8))) (bs.drop 8) n := rfl

/-- Plain structs: two that differ in one byte have different hashes. -/
theorem wordLoop_set (n : Nat) : ∀ (r r' : BitVec 64) (bs bs' : List (BitVec 8)), bs.length = bs'.length → bs.length < 8 * (n + 1) →
    (r ≠ r' ∧ bs = bs') ∨ (r = r' ∧ ∃ i x, i < bs.length ∧ bs' = bs.set i x ∧ bs ≠ bs') → wordLoop r bs n ≠ wordLoop r' bs' n := by
  induction n with
  | zero =>
    intro r r' bs bs' hl hb h
    simp only [wordLoop_zero, wordLoop_succ]
    rcases h with ⟨h1, h2⟩ | ⟨h1, i, x, hi, h2, h3⟩
    · subst h2
      split
      · exact fun e => h1 ((C61_combine_injective r r' _ (word bs)).1.1 e)
      · exact h1
    · rw [if_pos (by omega), if_pos (by omega), h1]
      exact fun e => h3 (word_inj ((C61_combine_injective r' r' _ _).2.1 e) hl (by omega))
  | succ n ih =>
    intro r r' bs bs' hl hb h
    simp only [wordLoop_zero, wordLoop_succ]
    apply ih
    · simp [hl]
    · simp; omega
    · rcases h with ⟨h1, h2⟩ | ⟨h1, i, x, hi, h2, h3⟩
      · subst h2
        exact Or.inl ⟨fun e => h1 ((C61_combine_injective r r' _ (word bs)).1.1 e), rfl⟩
      · by_cases h8 : i < 8
        · left
          have hd : bs.drop 8 = bs'.drop 8 := by
            rw [h2, List.drop_set_of_lt (by omega)]
          refine ⟨?_, hd⟩
          rw [h1]
          intro e
          have e2 := word_inj ((C61_combine_injective r' r' _ _).2.1 e) (by simp [hl]) (by simp; omega)
          exact h3 (by rw [← List.take_append_drop 8 bs, e2, hd, List.take_append_drop])
        · right
          have ht : bs.take 8 = bs'.take 8 := by
            rw [h2, List.take_set, List.set_eq_of_length_le (by simp; omega)]
          refine ⟨by rw [h1, ht], i - 8, x, by simp; omega, ?_, ?_⟩
          · rw [h2, List.drop_set, if_neg (by omega)]
          · intro e
            exact h3 (by rw [← List.take_append_drop 8 bs, ht, e, List.take_append_drop])

/-- **C61** for plain structs of any size: changing one byte changes the hash. -/
theorem C61_plain_one_byte (bs : List (BitVec 8)) (i : Nat) (hi : i < bs.length) (x : BitVec 8) (hx : x ≠ bs[i]) :
    bytes (bs.set i x) ≠ bytes bs := by
  have hne : bs ≠ bs.set i x := by
    intro e
    have := congrArg (fun l => l[i]?) e
    simp [hi] at this
    exact hx this.symm
  unfold bytes
  rw [List.length_set]
  by_cases h : bs.length ≤ 8
  · rw [if_pos h, if_pos h]
    exact fun e => hne (word_inj e (by simp) (by simpa using h)).symm
  · rw [if_neg h, if_neg h]
    refine fun e => wordLoop_set (bs.length / 8) 0#64 0#64 bs (bs.set i x) (by simp) (by omega) (Or.inr ⟨rfl, i, x, hi, rfl, hne⟩) e.symm

example : bytes [1#8, 2#8, 3#8, 4#8, 5#8, 6#8, 7#8, 8#8, 9#8, 10#8, 11#8, 12#8] ≠
    bytes [1#8, 2#8, 3#8, 4#8, 5#8, 6#8, 7#8, 8#8, 9#8, 10#8, 99#8, 12#8] := by decide +kernel

/-! ### all types -/

theorem rel2_map {α : Type} {R : α → α → Prop} {f : α → BitVec 64} (hf : ∀ a b, R a b → f a = f b) {l m : List α} (h : Rel2 R l m) :
    l.map f = m.map f := by
  induction h with
  | nil => rfl
  | cons h _ ih => rw [List.map_cons, List.map_cons, hf _ _ h, ih]

theorem optRel_hash {t : Ty} (hf : ∀ a b, Spec.eq t a b → t.hash a = t.hash b) : ∀ (a b : Option t.Val), OptRel (Spec.eq t) a b →
    (Ty.optional t).hash a = (Ty.optional t).hash b
  | none, none, _ => rfl
  | some a, some b, h => by simp only [Ty.hash]; exact hf a b h
  | none, some _, h => h.elim
  | some _, none, h => h.elim

mutual
/-- **C61 (partial)**: equal values hash equally, for every type built from scalars, plain structs, floats, doubles, strings, vectors,
arrays, pairs, optionals and tuples. Missing: `string_view`, for which it is false. -/
theorem C61_equal_values_hash_equally_partial : (t : Ty) → noView t → (a b : t.Val) → Spec.eq t a b → t.hash a = t.hash b
  | .scalar _, _, a, b, h => by simp only [Spec.eq] at h; simp only [Ty.hash, h]
  | .plain _, _, a, b, h => by simp only [Spec.eq] at h; simp only [Ty.hash, h]
  | .float, _, a, b, h => (C61_float a b).2 (Or.inl h)
  | .double, _, a, b, h => (C61_double a b).2 (Or.inl h)
  | .string, _, a, b, h => by
    simp only [Spec.eq] at h; simp only [Ty.hash]
    exact congrArg (foldFrom 0#64) (rel2_map (fun _ _ e => by rw [e]) h)
  | .stringView, h, _, _, _ => by simp only [noView] at h
  | .vector t, hv, a, b, h => by
    simp only [Spec.eq] at h; simp only [Ty.hash, noView] at hv ⊢
    exact congrArg (foldFrom 0#64) (rel2_map (C61_equal_values_hash_equally_partial t hv) h)
  | .array t, hv, a, b, h => by
    simp only [Spec.eq] at h; simp only [Ty.hash, noView] at hv ⊢
    exact congrArg (foldFrom 0#64) (rel2_map (C61_equal_values_hash_equally_partial t hv) h)
  | .pair s t, hv, a, b, h => by
    simp only [Spec.eq] at h; simp only [Ty.hash, noView] at hv ⊢
    rw [C61_equal_values_hash_equally_partial s hv.1 _ _ h.1, C61_equal_values_hash_equally_partial t hv.2 _ _ h.2]
  | .optional t, hv, a, b, h => by
    simp only [Spec.eq, noView] at h hv
    exact optRel_hash (C61_equal_values_hash_equally_partial t hv) a b h
  | .tuple ts, hv, a, b, h => by
    simp only [Spec.eq] at h; simp only [Ty.hash, noView] at hv ⊢
    rw [hashes_eq ts hv a b h]
theorem hashes_eq : (ts : Tys) → noViews ts → (a b : ts.Vals) → eqs ts a b → ts.hashes a = ts.hashes b
  | .nil, _, _, _, _ => by simp only [Tys.hashes]
  | .cons t ts, hv, a, b, h => by
    simp only [eqs] at h; simp only [Tys.hashes, noViews] at hv ⊢
    rw [C61_equal_values_hash_equally_partial t hv.1 _ _ h.1, hashes_eq ts hv.2 _ _ h.2]
end

/-- A map from a vector of doubles and a string to anything: the key with `-0.0` and the one with `+0.0` are equal. -/
example : noView (.tuple (.cons (.vector .double) (.cons .string .nil))) ∧
    Spec.eq (.tuple (.cons (.vector .double) (.cons .string .nil))) ([0#64, 0x4000000000000000#64], [0x61#8], ())
      ([0x8000000000000000#64, 0x4000000000000000#64], [0x61#8], ()) := by
  refine ⟨by simp [noView, noViews], ?_⟩
  simp only [Spec.eq, eqs]
  refine ⟨.cons (by unfold f64Eq; decide) (.cons (by unfold f64Eq; decide) .nil), .cons rfl .nil, trivial⟩

/-- **C61**, defect: equal `string_view`s at different addresses never hash equally. -/
theorem C61_string_view_hashes_the_pointer (a b : View) (h : Spec.eq .stringView a b) :
    Ty.stringView.hash a = Ty.stringView.hash b ↔ a.addr = b.addr := by
  have h : a.chars = b.chars := h
  change combine (combine 0#64 a.addr) (BitVec.ofNat 64 a.chars.length) = combine (combine 0#64 b.addr) (BitVec.ofNat 64 b.chars.length) ↔ _
  rw [h, (C61_combine_injective _ _ _ (BitVec.ofNat 64 b.chars.length)).1, (C61_combine_injective _ (combine 0#64 b.addr) _ _).2]

/-- The negation of the property, and: a `string_view` does not hash like the string with the same characters. -/
theorem C61_string_view_hash_wrong :
    ¬ (∀ a b : View, Spec.eq .stringView a b → Ty.stringView.hash a = Ty.stringView.hash b) ∧
    ¬ (∀ v : View, Ty.stringView.hash v = Ty.string.hash v.chars) := by
  constructor
  · intro h
    exact absurd (h ⟨0x1000#64, [0x61#8]⟩ ⟨0x2000#64, [0x61#8]⟩ rfl) (by decide +kernel)
  · intro h
    exact absurd (h ⟨0x1000#64, [0x61#8]⟩) (by decide +kernel)

/-! ### stringhash -/

theorem stringhashLoop_ok (cs rest : List (BitVec 8)) (h0 : ∀ c ∈ cs, c ≠ 0#8) (h : BitVec 64) :
    stringhashLoop h (cs ++ 0#8 :: rest) = .ok (foldFrom h (cs.map (·.signExtend 64))) := by
  induction cs generalizing h with
  | nil => rw [List.nil_append, stringhashLoop_cons, if_neg (fun h => h rfl)]; rfl
  | cons c cs ih =>
    rw [List.cons_append, stringhashLoop_cons, if_pos (h0 c List.mem_cons_self), ih (fun x hx => h0 x (List.mem_cons_of_mem _ hx))]
    rfl

theorem stringhashNLoop_ok (cs rest : List (BitVec 8)) (h0 : ∀ c ∈ cs, c ≠ 0#8) (h : BitVec 64) (n : Nat) (hr : n < cs.length ∨ rest.head? = some 0#8) :
    stringhashNLoop h (cs ++ rest) n = .ok (foldFrom h ((cs.take n).map (·.signExtend 64))) := by
  induction cs generalizing h n with
  | nil =>
    rcases hr with hr | hr
    · simp at hr
    · cases rest with
      | nil => simp at hr
      | cons c rest =>
        have hr := Option.some.inj hr
        rw [List.nil_append, stringhashNLoop_cons, if_neg (fun h => h.1 hr), List.take_nil]; rfl
  | cons c cs ih =>
    rw [List.cons_append, stringhashNLoop_cons]
    cases n with
    | zero => rw [if_neg (fun h => by have := h.2; omega)]; rfl
    | succ n =>
      rw [if_pos ⟨h0 c List.mem_cons_self, by omega⟩, show ((n + 1 : Nat) : Int) - 1 = n by omega,
        ih (fun x hx => h0 x (List.mem_cons_of_mem _ hx)) _ n (hr.imp_left (fun h => by simpa using h))]
      rfl

/-- `stringhash` folds the characters up to the terminator, starting from `hash_combine()`; a null pointer gives 0. -/
theorem C61_stringhash (cs rest : List (BitVec 8)) (h0 : ∀ c ∈ cs, c ≠ 0#8) :
    stringhash (some (cs ++ 0#8 :: rest)) = .ok (foldFrom combine0 (cs.map (·.signExtend 64))) ∧ stringhash none = .ok 0#64 :=
  ⟨stringhashLoop_ok cs rest h0 _, rfl⟩

/-- **C61 (partial)**: `stringhash_n` agrees with `stringhash` of the string cut off after `n` characters, in particular with `stringhash` of
the whole string when `n` is at least its length, for `n > 0`. Missing: `n = 0`. -/
theorem C61_stringhash_n_partial (cs rest rest' : List (BitVec 8)) (h0 : ∀ c ∈ cs, c ≠ 0#8) (n : Nat) (hn : 0 < n) :
    stringhashN (some (cs ++ 0#8 :: rest)) n = stringhash (some (cs.take n ++ 0#8 :: rest')) ∧
    (cs.length ≤ n → stringhashN (some (cs ++ 0#8 :: rest)) n = stringhash (some (cs ++ 0#8 :: rest))) := by
  have e : stringhashN (some (cs ++ 0#8 :: rest)) n = .ok (foldFrom combine0 ((cs.take n).map (·.signExtend 64))) := by
    unfold stringhashN
    simp only
    rw [if_neg (by omega), stringhashNLoop_ok cs (0#8 :: rest) h0 _ n (Or.inr rfl)]
  refine ⟨?_, fun hl => ?_⟩
  · rw [e, (C61_stringhash (cs.take n) rest' (fun c hc => h0 c (List.mem_of_mem_take hc))).1]
  · rw [e, (C61_stringhash cs rest h0).1, List.take_of_length_le hl]

example : stringhashN (some [0x61#8, 0x62#8, 0#8]) 2 = stringhash (some [0x61#8, 0x62#8, 0#8]) ∧
    stringhashN (some [0x61#8, 0x62#8, 0#8]) 2 ≠ .ok 0#64 := by decide +kernel

/-- **C61**, defect: with limit 0, which covers the empty string, `stringhash_n` differs from `stringhash`. -/
theorem C61_stringhash_n_zero (rest : List (BitVec 8)) : stringhashN (some (0#8 :: rest)) 0 = .ok 0#64 ∧
    stringhash (some (0#8 :: rest)) = .ok combine0 ∧ combine0 ≠ 0#64 := by
  refine ⟨rfl, ?_, by decide⟩
  exact stringhashLoop_ok [] rest (by simp) combine0

/-- Defect: `stringhash_n(s, n)` reads `s[n]`, so `n` characters without a terminator behind them are not enough. -/
theorem C61_stringhash_n_reads_past_limit (cs : List (BitVec 8)) (h0 : ∀ c ∈ cs, c ≠ 0#8) (hne : cs ≠ []) :
    stringhashN (some cs) cs.length = .error .ub := by
  have : ∀ (cs : List (BitVec 8)) (h : BitVec 64), (∀ c ∈ cs, c ≠ 0#8) → stringhashNLoop h cs cs.length = .error .ub := by
    intro cs
    induction cs with
    | nil => intro h _; rfl
    | cons c cs ih =>
      intro h h0
      rw [stringhashNLoop_cons, if_pos ⟨h0 c List.mem_cons_self, by simp⟩, List.length_cons, show ((cs.length + 1 : Nat) : Int) - 1 = cs.length by omega]
      exact ih _ (fun x hx => h0 x (List.mem_cons_of_mem _ hx))
  have hl : 0 < cs.length := List.length_pos_iff.2 hne
  unfold stringhashN
  simp only
  rw [if_neg (by omega)]
  exact this cs _ h0

/-- **C61**: the hash of a pair depends on the order of its components. -/
theorem C61_pair_order (t : Ty) (a b : t.Val) : (Ty.pair t t).hash (a, b) = (Ty.pair t t).hash (b, a) ↔ (t.hash a).toNat % 2^62 = (t.hash b).toNat % 2^62 := by
  simp only [Ty.hash]
  exact C61_combine_order _ _

end Verif.Hash
