import Verif.BitSet.Model

/-! Property theorems for `cc::bitset`: C59. -/
namespace Verif.BitSet

/-! Specification: a set of indices below `N` is a predicate that is false from `N` on. -/
namespace Spec

/-- The set the operations describe; `none` if an index is out of range (contract failure). -/
def eval (N : Nat) : Expr → Option (Nat → Bool)
  | .empty => some fun _ => false
  | .data d => some fun i => i < N && d.getLsbD i
  | .not a => do let x ← eval N a; some fun i => i < N && !x i
  | .or a b => do let x ← eval N a; let y ← eval N b; some fun i => x i || y i
  | .and a b => do let x ← eval N a; let y ← eval N b; some fun i => x i && y i
  | .xor a b => do let x ← eval N a; let y ← eval N b; some fun i => x i != y i
  | .shl a k => do let x ← eval N a; some fun i => decide (i < N) && decide (k.toNat ≤ i) && x (i - k.toNat)
  | .shr a k => do let x ← eval N a; some fun i => x (i + k.toNat)
  | .set a j => do let x ← eval N a; if j < N then some fun i => i == j || x i else none
  | .unset a j => do let x ← eval N a; if j < N then some fun i => i != j && x i else none
  | .toggle a j => do let x ← eval N a; if j < N then some fun i => if i = j then !x i else x i else none

end Spec

/-- The operations covered by the partial theorem: no complement, initial values without bits from `N` on (the documented invariant
"always contains 0 in unused bits"), shifts by 0 to 63. -/
def Ok (N : Nat) : Expr → Prop
  | .empty => True
  | .data d => d.toNat < 2 ^ N
  | .not _ => False
  | .or a b => Ok N a ∧ Ok N b
  | .and a b => Ok N a ∧ Ok N b
  | .xor a b => Ok N a ∧ Ok N b
  | .shl a k => Ok N a ∧ 0 ≤ k ∧ k < 64
  | .shr a k => Ok N a ∧ 0 ≤ k ∧ k < 64
  | .set a _ => Ok N a
  | .unset a _ => Ok N a
  | .toggle a _ => Ok N a

/-- The bits are exactly the members. -/
def Rep (N : Nat) (b : Bs) (s : Nat → Bool) : Prop := (∀ i, b.getLsbD i = s i) ∧ ∀ i, N ≤ i → s i = false

theorem intBit_ok {i : Nat} (h : i < 32) : intBit i = .ok (BitVec.twoPow 32 i) := by
  unfold intBit
  rw [if_neg (by omega), BitVec.twoPow_eq]

theorem bit_ext {i : Nat} (h : i < 31) (j : Nat) : ((BitVec.twoPow 32 i).signExtend 64).getLsbD j = decide (j = i) := by
  rw [BitVec.getLsbD_signExtend, BitVec.getLsbD_twoPow, BitVec.msb_eq_getLsbD_last, BitVec.getLsbD_twoPow]
  by_cases h2 : j = i
  · subst h2
    simp; omega
  · by_cases h1 : j < 32 <;> simp [h1, h2] <;> omega

theorem nbit_ext {i : Nat} (h : i < 31) (j : Nat) :
    ((~~~(BitVec.twoPow 32 i)).signExtend 64).getLsbD j = (decide (j < 64) && decide (j ≠ i)) := by
  rw [BitVec.getLsbD_signExtend, BitVec.getLsbD_not, BitVec.msb_not, BitVec.getLsbD_twoPow, BitVec.msb_eq_getLsbD_last,
    BitVec.getLsbD_twoPow]
  by_cases h2 : j = i
  · subst h2
    simp; omega
  · by_cases h1 : j < 32
    · simp [h1, h2]; omega
    · simp [h1, h2]; omega

theorem mask_ext {N : Nat} (h : N < 31) (j : Nat) : (((1#32 <<< N) - 1#32).signExtend 64).getLsbD j = decide (j < N) := by
  have e : (1#32 <<< N) - 1#32 = BitVec.ofNat 32 (2 ^ N - 1) := by
    apply BitVec.eq_of_toNat_eq
    have hp : 2 ^ N < 2 ^ 31 := Nat.pow_lt_pow_right (by omega) h
    have hp2 : 0 < 2 ^ N := Nat.two_pow_pos N
    rw [BitVec.toNat_sub, BitVec.toNat_shiftLeft, BitVec.toNat_ofNat, BitVec.toNat_ofNat, Nat.shiftLeft_eq]
    rw [show 1 % 2 ^ 32 = 1 by decide, Nat.one_mul, Nat.mod_eq_of_lt (show 2 ^ N < 2 ^ 32 by omega)]
    rw [Nat.mod_eq_of_lt (show 2 ^ N - 1 < 2 ^ 32 by omega), show 2 ^ 32 - 1 + 2 ^ N = (2 ^ N - 1) + 2 ^ 32 by omega,
      Nat.add_mod_right, Nat.mod_eq_of_lt (by omega)]
  rw [e, BitVec.getLsbD_signExtend, BitVec.msb_eq_getLsbD_last]
  simp only [BitVec.getLsbD_ofNat, Nat.testBit_two_pow_sub_one]
  by_cases h1 : j < 32
  · simp [h1]; omega
  · simp [h1, show ¬ j < N by omega]; omega

theorem and_ne_zero {i : Nat} (h : i < 31) (b : Bs) :
    (b &&& (BitVec.twoPow 32 i).signExtend 64 != 0#64) = b.getLsbD i := by
  cases hb : b.getLsbD i with
  | true =>
    simp only [bne_iff_ne, ne_eq]
    intro e
    have := congrArg (fun x => x.getLsbD i) e
    simp [BitVec.getLsbD_and, bit_ext h, hb] at this
  | false =>
    simp only [bne_eq_false_iff_eq]
    apply BitVec.eq_of_getLsbD_eq
    intro j hj
    rw [BitVec.getLsbD_and, bit_ext h]
    by_cases e : j = i
    · subst e; simp [hb]
    · simp [e]

theorem eval_ok {N : Nat} (hN : N ≤ 30) (e : Expr) (h : Ok N e) :
    match Spec.eval N e with
    | none => e.eval N = .error .assert
    | some s => ∃ b, e.eval N = .ok b ∧ Rep N b s := by
  induction e with
  | empty => exact ⟨0#64, rfl, fun i => by simp, fun _ _ => rfl⟩
  | data d =>
    refine ⟨d, rfl, ?_, ?_⟩
    · intro i
      by_cases hi : i < N
      · simp [hi]
      · simp only [hi, decide_false, Bool.false_and]
        apply Nat.testBit_lt_two_pow
        exact Nat.lt_of_lt_of_le h (Nat.pow_le_pow_right (by omega) (by omega))
    · intro i hi
      simp [show ¬ i < N by omega]
  | not a iha => exact h.elim
  | or a b iha ihb =>
    have iha := iha h.1
    have ihb := ihb h.2
    simp only [Spec.eval, Expr.eval]
    cases ha : Spec.eval N a with
    | none => rw [ha] at iha; simp only at iha; simp [iha]
    | some x =>
      cases hb : Spec.eval N b with
      | none => rw [ha] at iha; rw [hb] at ihb; obtain ⟨u, e1, _⟩ := iha; simp only at ihb; simp [e1, ihb]
      | some y =>
        rw [ha] at iha; rw [hb] at ihb
        obtain ⟨u, e1, r1⟩ := iha
        obtain ⟨v, e2, r2⟩ := ihb
        exact ⟨u ||| v, by simp only [e1, e2]; rfl, fun i => by rw [BitVec.getLsbD_or, r1.1, r2.1], fun i hi => by show (_ : Bool) = _; simp only [r1.2 i hi, r2.2 i hi]; rfl⟩
  | and a b iha ihb =>
    have iha := iha h.1
    have ihb := ihb h.2
    simp only [Spec.eval, Expr.eval]
    cases ha : Spec.eval N a with
    | none => rw [ha] at iha; simp only at iha; simp [iha]
    | some x =>
      cases hb : Spec.eval N b with
      | none => rw [ha] at iha; rw [hb] at ihb; obtain ⟨u, e1, _⟩ := iha; simp only at ihb; simp [e1, ihb]
      | some y =>
        rw [ha] at iha; rw [hb] at ihb
        obtain ⟨u, e1, r1⟩ := iha
        obtain ⟨v, e2, r2⟩ := ihb
        exact ⟨u &&& v, by simp only [e1, e2]; rfl, fun i => by rw [BitVec.getLsbD_and, r1.1, r2.1], fun i hi => by show (_ : Bool) = _; simp only [r1.2 i hi, r2.2 i hi]; rfl⟩
  | xor a b iha ihb =>
    have iha := iha h.1
    have ihb := ihb h.2
    simp only [Spec.eval, Expr.eval]
    cases ha : Spec.eval N a with
    | none => rw [ha] at iha; simp only at iha; simp [iha]
    | some x =>
      cases hb : Spec.eval N b with
      | none => rw [ha] at iha; rw [hb] at ihb; obtain ⟨u, e1, _⟩ := iha; simp only at ihb; simp [e1, ihb]
      | some y =>
        rw [ha] at iha; rw [hb] at ihb
        obtain ⟨u, e1, r1⟩ := iha
        obtain ⟨v, e2, r2⟩ := ihb
        exact ⟨u ^^^ v, by simp only [e1, e2]; rfl, fun i => by rw [BitVec.getLsbD_xor, r1.1, r2.1],
          fun i hi => by show (_ : Bool) = _; simp only [r1.2 i hi, r2.2 i hi]; rfl⟩
  | shl a k iha =>
    have iha := iha h.1
    have hk := h.2
    simp only [Spec.eval, Expr.eval]
    cases ha : Spec.eval N a with
    | none => rw [ha] at iha; simp only at iha; simp [iha]
    | some x =>
      rw [ha] at iha
      obtain ⟨u, e1, r1⟩ := iha
      refine ⟨_, by simp only [e1, R.ok_bind, shl, dataMask]; rw [if_neg (by omega), if_neg (by omega)]; rfl, ?_, ?_⟩
      · intro i
        rw [BitVec.getLsbD_and, mask_ext (by omega), BitVec.getLsbD_shiftLeft, r1.1]
        by_cases h1 : i < N
        · by_cases h2 : k.toNat ≤ i
          · simp [h1, h2]; omega
          · simp [h1, h2]; omega
        · simp [h1]
      · intro i hi
        simp [show ¬ i < N by omega]
  | shr a k iha =>
    have iha := iha h.1
    have hk := h.2
    simp only [Spec.eval, Expr.eval]
    cases ha : Spec.eval N a with
    | none => rw [ha] at iha; simp only at iha; simp [iha]
    | some x =>
      rw [ha] at iha
      obtain ⟨u, e1, r1⟩ := iha
      refine ⟨_, by simp only [e1, R.ok_bind, shr]; rw [if_neg (by omega)], ?_, ?_⟩
      · intro i
        rw [BitVec.getLsbD_ushiftRight, r1.1, Nat.add_comm]
      · intro i hi
        exact r1.2 _ (by omega)
  | set a j iha =>
    have iha := iha h
    simp only [Spec.eval, Expr.eval]
    cases ha : Spec.eval N a with
    | none => rw [ha] at iha; simp only at iha; simp [iha]
    | some x =>
      rw [ha] at iha
      obtain ⟨u, e1, r1⟩ := iha
      by_cases hj : j < N
      · simp only [Option.bind_some, Option.bind_eq_bind, if_pos hj]
        refine ⟨_, by simp only [e1, R.ok_bind, set]; rw [ccAssert_true (by simpa using hj), intBit_ok (by omega)]; rfl, ?_, ?_⟩
        · intro i
          rw [BitVec.getLsbD_or, bit_ext (by omega), r1.1, Bool.or_comm]
          rfl
        · intro i hi
          simp [r1.2 i hi]; omega
      · simp only [Option.bind_some, Option.bind_eq_bind, if_neg hj]
        simp only [e1, R.ok_bind, set]
        rw [ccAssert_false (by simpa using hj)]; rfl
  | unset a j iha =>
    have iha := iha h
    simp only [Spec.eval, Expr.eval]
    cases ha : Spec.eval N a with
    | none => rw [ha] at iha; simp only at iha; simp [iha]
    | some x =>
      rw [ha] at iha
      obtain ⟨u, e1, r1⟩ := iha
      by_cases hj : j < N
      · simp only [Option.bind_some, Option.bind_eq_bind, if_pos hj]
        refine ⟨_, by simp only [e1, R.ok_bind, unset]; rw [ccAssert_true (by simpa using hj), intBit_ok (by omega)]; rfl, ?_, ?_⟩
        · intro i
          rw [BitVec.getLsbD_and, nbit_ext (by omega), r1.1, Bool.and_comm]
          rcases Nat.lt_or_ge i 64 with h64 | h64
          · simp [h64, bne]
            by_cases e : i = j <;> simp [e]
          · simp [r1.2 i (by omega)]
        · intro i hi
          simp [r1.2 i hi]
      · simp only [Option.bind_some, Option.bind_eq_bind, if_neg hj]
        simp only [e1, R.ok_bind, unset]
        rw [ccAssert_false (by simpa using hj)]; rfl
  | toggle a j iha =>
    have iha := iha h
    simp only [Spec.eval, Expr.eval]
    cases ha : Spec.eval N a with
    | none => rw [ha] at iha; simp only at iha; simp [iha]
    | some x =>
      rw [ha] at iha
      obtain ⟨u, e1, r1⟩ := iha
      by_cases hj : j < N
      · simp only [Option.bind_some, Option.bind_eq_bind, if_pos hj]
        refine ⟨_, by simp only [e1, R.ok_bind, toggle]; rw [ccAssert_true (by simpa using hj), intBit_ok (by omega)]; rfl, ?_, ?_⟩
        · intro i
          rw [BitVec.getLsbD_xor, bit_ext (by omega), r1.1]
          by_cases e : i = j <;> simp [e]
        · intro i hi
          simp [show ¬ i = j by omega, r1.2 i hi]
      · simp only [Option.bind_some, Option.bind_eq_bind, if_neg hj]
        simp only [e1, R.ok_bind, toggle]
        rw [ccAssert_false (by simpa using hj)]; rfl

/-- **C59 (partial)**: for `N ≤ 30`, and operations other than complement (see `Ok`), running the operations gives a bitset that holds
exactly the specified set: `is_set`, `is_unset`, `any` and `all` answer as the set does, and an index out of range is a contract
failure. Missing: complement and larger `N`, for which it is false (theorems below). -/
theorem C59_bitset_is_set_partial {N : Nat} (hN : N ≤ 30) (e : Expr) (h : Ok N e) :
    match Spec.eval N e with
    | none => e.eval N = .error .assert
    | some s => ∃ b, e.eval N = .ok b ∧
      (∀ i, isSet N b i = if i < N then .ok (s i) else .error .assert) ∧
      (∀ i, isUnset N b i = if i < N then .ok (!s i) else .error .assert) ∧
      (any b = true ↔ ∃ i, i < N ∧ s i = true) ∧
      (∃ r, all N b = .ok r ∧ (r = true ↔ ∀ i, i < N → s i = true)) := by
  have := eval_ok hN e h
  revert this
  cases Spec.eval N e with
  | none => exact id
  | some s =>
    rintro ⟨b, e1, r1, r2⟩
    refine ⟨b, e1, ?_, ?_, ?_, ?_⟩
    · intro i
      unfold isSet
      by_cases hi : i < N
      · rw [if_pos hi, ccAssert_true (by simpa using hi), intBit_ok (by omega)]
        simp only [R.ok_bind]
        rw [and_ne_zero (by omega), r1]
      · rw [if_neg hi, ccAssert_false (by simpa using hi)]; rfl
    · intro i
      unfold isUnset
      by_cases hi : i < N
      · rw [if_pos hi, ccAssert_true (by simpa using hi), intBit_ok (by omega)]
        simp only [R.ok_bind]
        rw [and_ne_zero (by omega), r1]
      · rw [if_neg hi, ccAssert_false (by simpa using hi)]; rfl
    · unfold any
      simp only [bne_iff_ne, ne_eq]
      constructor
      · intro hb
        apply Classical.byContradiction
        intro hc
        apply hb
        apply BitVec.eq_of_getLsbD_eq
        intro j _
        rw [r1]
        rcases Nat.lt_or_ge j N with hj | hj
        · cases hs : s j with
          | true => exact absurd ⟨j, hj, hs⟩ hc
          | false => simp
        · rw [r2 j hj]; simp
      · rintro ⟨i, hi, hs⟩ hb
        rw [← r1, hb] at hs
        simp at hs
    · unfold all dataMask
      rw [if_neg (by omega)]
      refine ⟨_, rfl, ?_⟩
      rw [beq_iff_eq]
      constructor
      · intro hb i hi
        rw [← r1, hb, mask_ext (by omega)]
        simpa using hi
      · intro hs
        apply BitVec.eq_of_getLsbD_eq
        intro j _
        rw [r1, mask_ext (by omega)]
        rcases Nat.lt_or_ge j N with hj | hj
        · rw [hs j hj]; simp [hj]
        · rw [r2 j hj]; simp; omega

/-- **C59 (partial)**, equality: two bitsets computed by such operations compare equal iff they hold the same set. -/
theorem C59_bitset_eq_partial {N : Nat} (hN : N ≤ 30) (e f : Expr) (h : Ok N e) (h' : Ok N f) (s t : Nat → Bool)
    (hs : Spec.eval N e = some s) (ht : Spec.eval N f = some t) :
    ∃ a b, e.eval N = .ok a ∧ f.eval N = .ok b ∧ (eq a b = true ↔ ∀ i, i < N → s i = t i) := by
  have h1 := eval_ok hN e h
  have h2 := eval_ok hN f h'
  rw [hs] at h1
  rw [ht] at h2
  obtain ⟨a, e1, r1, r2⟩ := h1
  obtain ⟨b, e2, q1, q2⟩ := h2
  refine ⟨a, b, e1, e2, ?_⟩
  unfold eq
  rw [beq_iff_eq]
  constructor
  · intro e i _
    rw [← r1, ← q1, e]
  · intro hh
    apply BitVec.eq_of_getLsbD_eq
    intro j _
    rw [r1, q1]
    rcases Nat.lt_or_ge j N with hj | hj
    · exact hh j hj
    · rw [r2 j hj, q2 j hj]

/-- A history the partial theorems cover, with its set {0, 2, 5}. -/
def sample : Expr := .xor (.shl (.set (.set .empty 0) 2) 1) (.toggle (.or (.data 0b1010#64) (.unset (.data 0b110#64) 1)) 5)

example : Ok 6 sample ∧ (sample.eval 6).toOption = some 0b100100#64 ∧ (30 : Nat) ≤ 30 := by
  refine ⟨?_, by decide +kernel, by omega⟩
  simp [Ok, sample]

/-- **C59**, defect: the complement of the full set contains no index but `any()` reports one, and the complement of the empty set is
not reported as `all()`, for every size below 64 (where `all` compiles). -/
theorem C59_complement_not_masked :
    (∀ N, N < 64 → any (not (BitVec.ofNat 64 (2 ^ N - 1))) = true) ∧
    (∀ N, N ≤ 30 → all N (not empty) = .ok false) := by
  constructor
  · intro N hN
    unfold any not
    simp only [bne_iff_ne, ne_eq]
    intro e
    have := congrArg (fun x => x.getLsbD 63) e
    rw [BitVec.getLsbD_not, BitVec.getLsbD_ofNat, Nat.testBit_two_pow_sub_one, show decide (63 < N) = false by simp; omega] at this
    simp at this
  · intro N hN
    unfold all dataMask not empty
    rw [if_neg (by omega)]
    simp only [R.ok_bind, Except.ok.injEq, beq_eq_false_iff_ne, ne_eq]
    intro e
    have := congrArg (fun x => x.getLsbD 63) e
    rw [mask_ext (by omega)] at this
    simp at this
    omega

/-- The same through the specification: for `N = 4`, `~~empty` is the empty set but `~full` is not "none set". -/
example : Spec.eval 4 (.not (.data 0b1111#64)) = some (fun i => decide (i < 4) && !(decide (i < 4) && (0b1111#64).getLsbD i)) ∧
    any (not 0b1111#64) = true := ⟨rfl, by decide +kernel⟩

/-- **C59**, defect: for `N ≥ 32` setting or testing index 31 also touches all higher ones, and indices from 32 on are undefined
behaviour although they are in range. -/
theorem C59_large_index_wrong (N : Nat) (hN : 33 ≤ N) :
    (∃ b, set N empty 31 = .ok b ∧ ∀ i, 31 ≤ i → i < 64 → b.getLsbD i = true) ∧
    (∀ i b, 32 ≤ i → i < N → set N b i = .error .ub ∧ isSet N b i = .error .ub ∧ unset N b i = .error .ub ∧ toggle N b i = .error .ub) := by
  constructor
  · refine ⟨_, by unfold set; rw [ccAssert_true (by simp; omega), intBit_ok (by omega)]; rfl, ?_⟩
    intro i h1 h2
    rw [BitVec.getLsbD_or, BitVec.getLsbD_signExtend, BitVec.getLsbD_twoPow, BitVec.msb_eq_getLsbD_last, BitVec.getLsbD_twoPow]
    by_cases h : i < 32
    · have : i = 31 := by omega
      subst this
      decide
    · simp [h, h2]
  · intro i b h1 h2
    unfold set isSet unset toggle intBit
    rw [if_pos h1, ccAssert_true (by simpa using h2)]
    exact ⟨rfl, rfl, rfl, rfl⟩

/-- **C59**, defect: `all()` and `<<` do not compile for `N ≥ 31`. -/
theorem C59_mask_overflows (N : Nat) (hN : 31 ≤ N) (b : Bs) : all N b = .error .ub ∧ shl N b 1 = .error .ub := by
  unfold all shl dataMask
  rw [if_pos hN, if_neg (by omega)]
  exact ⟨rfl, rfl⟩

end Verif.BitSet
