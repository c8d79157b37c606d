import Verif.Flags.Model
import Verif.Bits.Props

/-! Property theorems for `cc::flags`: C58. -/
namespace Verif.Flags
open Verif.Bits

variable {w : Nat}

/-! Specification -/

/-- The enum values a flags object contains, in ascending order: value `e` is stored as bit `e`. -/
def contents (f : Fl w) : List Nat := (List.range w).filter fun e => f.getLsbD e

/-- The enum values for which the storage expression works: they fit the storage, and for a storage wider than `int` they are below
31. -/
def Fits (w e : Nat) : Prop := e < w ∧ (w ≤ 32 ∨ e < 31)

theorem mem_contents (f : Fl w) (e : Nat) : e ∈ contents f ↔ f.getLsbD e = true := by
  unfold contents
  rw [List.mem_filter, List.mem_range]
  constructor
  · exact fun h => h.2
  · intro h
    refine ⟨?_, h⟩
    exact BitVec.lt_of_getLsbD h

theorem contents_sorted (f : Fl w) : (contents f).Pairwise (· < ·) :=
  List.Pairwise.filter _ List.pairwise_lt_range

theorem stored_ok {e : Nat} (h : Fits w e) : storedValueOf w e = .ok (BitVec.twoPow w e) := by
  obtain ⟨h1, h2⟩ := h
  have hw : e < 2 ^ w := Nat.lt_trans h1 Nat.lt_two_pow_self
  unfold storedValueOf intBit
  rw [Nat.mod_eq_of_lt hw, if_neg (by omega)]
  simp only [R.ok_bind, Except.ok.injEq]
  apply BitVec.eq_of_getLsbD_eq
  intro j hj
  rw [← BitVec.twoPow_eq, BitVec.getLsbD_signExtend, BitVec.getLsbD_twoPow, BitVec.msb_eq_getLsbD_last, BitVec.getLsbD_twoPow,
    BitVec.getLsbD_twoPow]
  by_cases e1 : j = e
  · subst e1; simp; omega
  · have e1' : ¬ e = j := fun h => e1 h.symm
    by_cases h3 : j < 32
    · simp [h3, e1']
    · simp [h3, e1']; omega

theorem and_twoPow {e : Nat} (he : e < w) (f : Fl w) : (f &&& BitVec.twoPow w e != 0#w) = f.getLsbD e := by
  cases hb : f.getLsbD e with
  | true =>
    simp only [bne_iff_ne, ne_eq]
    intro h
    have := congrArg (fun x => x.getLsbD e) h
    simp [BitVec.getLsbD_and, BitVec.getLsbD_twoPow, hb] at this
    omega
  | false =>
    simp only [bne_eq_false_iff_eq]
    apply BitVec.eq_of_getLsbD_eq
    intro j hj
    rw [BitVec.getLsbD_and, BitVec.getLsbD_twoPow]
    by_cases h : e = j
    · subst h; simp [hb]
    · simp [h]

theorem getLsbD_single {e : Nat} (he : e < w) (x : Nat) : (BitVec.twoPow w e).getLsbD x = decide (x = e) := by
  rw [BitVec.getLsbD_twoPow]
  by_cases h : x = e
  · subst h; simp [he]
  · simp [h]; exact fun _ h' => h h'.symm

/-- **C58 (partial)**, building and combining: for enum values that fit, flags built from values contain exactly these; `|` is union
and `&` intersection, with flags or single values on the right. Missing: enum values from 31 on in 64 bit storage (theorems below). -/
theorem C58_flags_set_algebra_partial (f g : Fl w) (e : Nat) (he : Fits w e) (es : List Nat) (hes : ∀ x ∈ es, Fits w x) :
    (∃ h : Fl w, ctor es = .ok h ∧ ∀ x, x ∈ contents h ↔ x ∈ es) ∧
    (∀ x, x ∈ contents (or f g) ↔ x ∈ contents f ∨ x ∈ contents g) ∧
    (∀ x, x ∈ contents (and f g) ↔ x ∈ contents f ∧ x ∈ contents g) ∧
    (∃ h, orEnum f e = .ok h ∧ ∀ x, x ∈ contents h ↔ x ∈ contents f ∨ x = e) ∧
    (∃ h, andEnum f e = .ok h ∧ ∀ x, x ∈ contents h ↔ x ∈ contents f ∧ x = e) := by
  have hloop : ∀ (es : List Nat) (acc : Fl w), (∀ x ∈ es, Fits w x) →
      ∃ h : Fl w, ctorLoop acc es = .ok h ∧ ∀ x, x ∈ contents h ↔ x ∈ contents acc ∨ x ∈ es := by
    intro es
    induction es with
    | nil => intro acc _; exact ⟨acc, rfl, fun x => by simp⟩
    | cons a es ih =>
      intro acc hh
      obtain ⟨h, e1, e2⟩ := ih (acc ||| BitVec.twoPow w a) (fun x hx => hh x (List.mem_cons_of_mem _ hx))
      refine ⟨h, by rw [ctorLoop, stored_ok (hh a List.mem_cons_self)]; exact e1, ?_⟩
      intro x
      rw [e2, mem_contents, BitVec.getLsbD_or, getLsbD_single (hh a List.mem_cons_self).1, mem_contents, List.mem_cons]
      simp [or_assoc]
  refine ⟨?_, ?_, ?_, ?_, ?_⟩
  · cases es with
    | nil => exact ⟨0#w, rfl, fun x => by rw [mem_contents]; simp⟩
    | cons a es =>
      obtain ⟨h, e1, e2⟩ := hloop es (BitVec.twoPow w a) (fun x hx => hes x (List.mem_cons_of_mem _ hx))
      refine ⟨h, by unfold ctor; simp only; rw [stored_ok (hes a List.mem_cons_self)]; exact e1, ?_⟩
      intro x
      rw [e2, mem_contents, getLsbD_single (hes a List.mem_cons_self).1, List.mem_cons]
      simp
  · intro x
    rw [mem_contents, mem_contents, mem_contents, or, BitVec.getLsbD_or]; simp
  · intro x
    rw [mem_contents, mem_contents, mem_contents, and, BitVec.getLsbD_and]; simp
  · refine ⟨_, by unfold orEnum; rw [stored_ok he]; rfl, ?_⟩
    intro x
    rw [mem_contents, mem_contents, BitVec.getLsbD_or, getLsbD_single he.1]; simp
  · refine ⟨_, by unfold andEnum; rw [stored_ok he]; rfl, ?_⟩
    intro x
    rw [mem_contents, mem_contents, BitVec.getLsbD_and, getLsbD_single he.1]; simp

example : Fits 32 31 ∧ Fits 8 7 ∧ Fits 64 30 ∧ ∃ h : Fl 32, ctor [3, 0, 31] = .ok h ∧ contents h = [0, 3, 31] :=
  ⟨⟨by omega, by omega⟩, ⟨by omega, by omega⟩, ⟨by omega, by omega⟩, 0x80000009#32, by decide +kernel, by decide +kernel⟩

theorem eq_of_contents {f g : Fl w} (h : ∀ x, x ∈ contents f ↔ x ∈ contents g) : f = g := by
  apply BitVec.eq_of_getLsbD_eq
  intro i _
  have := h i
  rw [mem_contents, mem_contents] at this
  exact Bool.eq_iff_iff.2 this

theorem contents_nil {f : Fl w} : contents f = [] ↔ f = 0#w := by
  constructor
  · intro h
    apply eq_of_contents
    intro x
    rw [h, mem_contents]; simp
  · intro h
    subst h
    apply List.eq_nil_iff_forall_not_mem.2
    intro x hx
    rw [mem_contents] at hx
    simp at hx

/-- **C58 (partial)**, queries: `has`, `has_any`, `has_all_of`, `has_any_of`, `is_single` and the comparisons answer as the set of
contained values does. -/
theorem C58_flags_queries_partial (f g : Fl w) (e : Nat) (he : Fits w e) :
    has f e = .ok (decide (e ∈ contents f)) ∧
    (hasAny f = true ↔ contents f ≠ []) ∧
    (hasAllOf f g = true ↔ ∀ x ∈ contents g, x ∈ contents f) ∧
    (hasAnyOf f g = true ↔ ∃ x, x ∈ contents f ∧ x ∈ contents g) ∧
    (eq f g = true ↔ contents f = contents g) ∧
    eqEnum f e = .ok (decide (contents f = [e])) := by
  refine ⟨?_, ?_, ?_, ?_, ?_, ?_⟩
  · unfold has
    rw [stored_ok he]
    simp only [R.ok_bind, Except.ok.injEq]
    rw [and_twoPow he.1]
    have := mem_contents f e
    cases h : f.getLsbD e <;> simp [this, h]
  · unfold hasAny
    rw [bne_iff_ne, ne_eq, ne_eq, contents_nil]
  · unfold hasAllOf
    rw [beq_iff_eq]
    constructor
    · intro h x hx
      rw [mem_contents] at *
      rw [← h, BitVec.getLsbD_and] at hx
      simp at hx
      exact hx.1
    · intro h
      apply eq_of_contents
      intro x
      have := h x
      rw [mem_contents, mem_contents] at *
      rw [BitVec.getLsbD_and]
      simp
      exact this
  · unfold hasAnyOf
    rw [bne_iff_ne, ne_eq, ← contents_nil]
    constructor
    · intro h
      obtain ⟨x, hx⟩ := List.exists_mem_of_ne_nil _ h
      rw [mem_contents, BitVec.getLsbD_and] at hx
      simp at hx
      exact ⟨x, (mem_contents f x).2 hx.1, (mem_contents g x).2 hx.2⟩
    · rintro ⟨x, h1, h2⟩ h
      have : x ∈ contents (f &&& g) := by
        rw [mem_contents] at *
        rw [BitVec.getLsbD_and, h1, h2]; rfl
      rw [h] at this
      simp at this
  · unfold eq
    rw [beq_iff_eq]
    constructor
    · intro h; rw [h]
    · intro h; exact eq_of_contents (fun x => by rw [h])
  · unfold eqEnum
    rw [stored_ok he]
    simp only [R.ok_bind, Except.ok.injEq]
    rw [Bool.eq_iff_iff, beq_iff_eq, decide_eq_true_eq]
    have hs : ∀ x, x ∈ contents (BitVec.twoPow w e) ↔ x = e := by
      intro x
      rw [mem_contents, getLsbD_single he.1]; simp
    have hs1 : contents (BitVec.twoPow w e) = [e] := by
      have hp := contents_sorted (BitVec.twoPow w e)
      generalize contents (BitVec.twoPow w e) = l at *
      match l with
      | [] => exact absurd ((hs e).2 rfl) (by simp)
      | [a] => rw [(hs a).1 (by simp)]
      | a :: b :: l =>
        have h1 := (hs a).1 (by simp)
        have h2 := (hs b).1 (by simp)
        rw [List.pairwise_cons] at hp
        have := hp.1 b (by simp)
        omega
    constructor
    · intro h; rw [h]; exact hs1
    · intro h; exact eq_of_contents (fun x => by rw [h, hs1])

example : has (0x80000009#32) 31 = .ok true ∧ hasAllOf 0b111#8 0b101#8 = true ∧ hasAnyOf 0b110#8 0b1001#8 = false ∧
    eqEnum 0b1000#16 3 = .ok true := by decide +kernel

/-- **C58**, `is_single` and `single`: exactly one contained value, which `single` returns; otherwise `single` is a contract failure. -/
theorem C58_flags_single (f : Fl w) :
    (isSingle f = true ↔ ∃ e, contents f = [e]) ∧
    (∀ e, contents f = [e] → single f = .ok e) ∧
    ((¬ ∃ e, contents f = [e]) → single f = .error .assert) := by
  have h1 : isSingle f = true ↔ ∃ e, contents f = [e] := by
    have hp : w ≤ promoted w := by unfold promoted; split <;> omega
    unfold isSingle builtinPopcount
    rw [beq_iff_eq, countP_range_setWidth f hp (promoted w) (Nat.le_refl _), show Nat.min (promoted w) w = w from Nat.min_eq_right hp,
      List.countP_eq_length_filter]
    show (contents f).length = 1 ↔ _
    rw [List.length_eq_one_iff]
  refine ⟨h1, ?_, ?_⟩
  · intro e he
    unfold single
    rw [ccAssert_true (h1.2 ⟨e, he⟩)]
    simp only [R.ok_bind]
    obtain ⟨⟨c, hc, hc1, hc2, hc3⟩, _⟩ := C16_count_trailing_zeros f
    rw [hc]
    have hb : f.getLsbD e = true := (mem_contents f e).1 (by rw [he]; simp)
    have : c < w := by
      rcases Nat.lt_or_ge c w with h | h
      · exact h
      · have := BitVec.lt_of_getLsbD hb
        rw [hc2 e (by omega)] at hb
        cases hb
    have := (mem_contents f c).2 (hc3 this)
    rw [he] at this
    simp at this
    rw [this]
  · intro h
    unfold single
    rw [ccAssert_false (by cases hs : isSingle f <;> simp_all)]
    rfl

example : single (0x80000000#32) = .ok 31 ∧ single (0x80000001#32) = .error .assert ∧ isSingle 0x10#8 = true := by decide +kernel

/-- The contained values at or above `c`. -/
def rest (f : Fl w) (c : Nat) : List Nat := (List.range' c (w - c)).filter fun e => f.getLsbD e

theorem rest_zero (f : Fl w) : rest f 0 = contents f := by
  unfold rest contents
  rw [List.range_eq_range']
  rfl

theorem rest_step (f : Fl w) {c : Nat} (h : c < w) : rest f c = if f.getLsbD c then c :: rest f (c + 1) else rest f (c + 1) := by
  unfold rest
  rw [show w - c = (w - (c + 1)) + 1 by omega, List.range'_succ, List.filter_cons]

theorem rest_nil (f : Fl w) {c : Nat} (h : ∀ i, c ≤ i → f.getLsbD i = false) : rest f c = [] := by
  unfold rest
  rw [List.filter_eq_nil_iff]
  intro x hx
  rw [List.mem_range'_1] at hx
  rw [h x hx.1]; simp

theorem intBit_test {c : Nat} (hc : Fits w c) (f : Fl w) :
    ∃ x, intBit c = .ok x ∧ (f &&& x.signExtend w == 0#w) = !f.getLsbD c := by
  have h := stored_ok hc
  unfold storedValueOf at h
  rw [Nat.mod_eq_of_lt (Nat.lt_trans hc.1 Nat.lt_two_pow_self)] at h
  obtain ⟨x, e1, e2⟩ := (R.bind_eq_ok ..).1 h
  refine ⟨x, e1, ?_⟩
  simp only [Except.ok.injEq] at e2
  rw [e2, ← and_twoPow hc.1 f]
  simp [bne]

theorem skip_ok (f : Fl w) {last : Nat} (hl : last ≤ w) (hfit : ∀ i, i < last → Fits w i) (n : Nat) :
    ∀ {c : Nat}, c + n = last → (∀ i, last ≤ i → f.getLsbD i = false) →
    ∃ d, skip f last c n = .ok d ∧ c ≤ d ∧ d ≤ last ∧ rest f d = rest f c ∧ (d < last → f.getLsbD d = true) := by
  induction n with
  | zero => intro c hc _; exact ⟨c, rfl, Nat.le_refl _, by omega, rfl, by omega⟩
  | succ n ih =>
    intro c hc hz
    rw [skip, if_pos (by omega)]
    obtain ⟨x, e1, e2⟩ := intBit_test (hfit c (by omega)) f
    simp only [e1, R.ok_bind]
    rw [e2]
    cases hb : f.getLsbD c with
    | true => exact ⟨c, by simp, Nat.le_refl _, by omega, rfl, fun _ => hb⟩
    | false =>
      obtain ⟨d, e3, h1, h2, h3, h4⟩ := ih (c := c + 1) (by omega) hz
      refine ⟨d, by simpa using e3, by omega, h2, ?_, h4⟩
      rw [h3, rest_step f (c := c) (by omega), hb]
      simp

theorem iterLoop_ok (f : Fl w) {last : Nat} (hl : last ≤ w) (hfit : ∀ i, i < last → Fits w i) (hz : ∀ i, last ≤ i → f.getLsbD i = false)
    (n : Nat) : ∀ {c : Nat}, c ≤ last → last - c < n → (c < last → f.getLsbD c = true) → iterLoop f last c n = .ok (rest f c) := by
  induction n with
  | zero => intro c _ h _; omega
  | succ n ih =>
    intro c hc hn hb
    rw [iterLoop]
    by_cases h : c = last
    · rw [if_neg (by simpa using h), rest_nil f (fun i hi => hz i (by omega))]
    · rw [if_pos h]
      obtain ⟨d, e1, h1, h2, h3, h4⟩ := skip_ok f hl hfit (last - (c + 1)) (c := c + 1) (by omega) hz
      rw [e1]
      simp only [R.ok_bind]
      rw [ih h2 (by omega) h4]
      simp only [R.ok_bind]
      rw [h3, rest_step f (c := c) (by omega), hb (by omega)]
      rfl

/-- **C58 (partial)**, iteration: a range-for over flags visits exactly the contained values, in ascending order (`contents` is sorted,
`contents_sorted`), if these fit. Missing: 64 bit storage with values from 31 on. -/
theorem C58_flags_iteration_partial (f : Fl w) (hfit : ∀ e ∈ contents f, Fits w e) :
    iter f = .ok (contents f) ∧ (contents f).Pairwise (· < ·) := by
  refine ⟨?_, contents_sorted f⟩
  unfold iter
  by_cases h : f = 0#w
  · rw [if_pos h, contents_nil.2 h, iterLoop]
    simp
  · rw [if_neg h]
    obtain ⟨⟨c, hc, hc1, hc2, hc3⟩, _⟩ := C16_count_trailing_zeros f
    obtain ⟨k, hk, hk1, hk2, hk3⟩ := C16_count_leading_zeros f
    have hcw : c < w := by
      rcases Nat.lt_or_ge c w with h1 | h1
      · exact h1
      · exfalso
        apply h
        apply BitVec.eq_of_getLsbD_eq
        intro i hi
        rw [hc2 i (by omega)]; simp
    rw [hc, hk]
    simp only [R.ok_bind]
    have hkw : k < w := by
      rcases Nat.lt_or_ge k w with h1 | h1
      · exact h1
      · have := hk2 c (by omega)
        rw [hc3 hcw] at this
        cases this
    have hz : ∀ i, w - k ≤ i → f.getLsbD i = false := hk2
    have hclast : c < w - k := by
      rcases Nat.lt_or_ge c (w - k) with h1 | h1
      · exact h1
      · have := hz c h1
        rw [hc3 hcw] at this
        cases this
    have htop := hfit (w - 1 - k) ((mem_contents f _).2 (hk3 hkw))
    rw [iterLoop_ok f (last := w - k) (by omega) (fun i hi => ⟨by omega, by have := htop.2; omega⟩) hz (w + 1) (by omega) (by omega)
      (fun _ => hc3 hcw)]
    congr 1
    rw [← rest_zero]
    have : ∀ n, n ≤ c → rest f c = rest f (c - n) := by
      intro n
      induction n with
      | zero => intro _; rfl
      | succ n ih =>
        intro hn
        rw [ih (by omega), rest_step f (c := c - (n + 1)) (by omega), hc2 (c - (n + 1)) (by omega)]
        simp [show c - (n + 1) + 1 = c - n by omega]
    rw [this c (Nat.le_refl _), Nat.sub_self]

example : iter (0x80000109#32) = .ok [0, 3, 8, 31] ∧ iter (0x109#64) = .ok [0, 3, 8] := by decide +kernel

/-- **C58**, defect in 64 bit storage: an object built from the value 31 also contains every value from 32 to 63. -/
theorem C58_flags64_value_31 : ∃ f : Fl 64, ctor [31] = .ok f ∧ ∀ e, 31 ≤ e → e < 64 → e ∈ contents f := by
  refine ⟨0xFFFFFFFF80000000#64, by decide +kernel, ?_⟩
  intro e h1 h2
  rw [mem_contents]
  have : ∀ e : Fin 64, 31 ≤ e.1 → (0xFFFFFFFF80000000#64).getLsbD e.1 = true := by decide +kernel
  exact this ⟨e, h2⟩ h1

/-- **C58**, defect in 64 bit storage: every operation with a value from 32 on is undefined, although the value fits the storage. -/
theorem C58_flags64_value_32 (e : Nat) (h1 : 32 ≤ e) (h2 : e < 64) (f : Fl 64) :
    (ctor [e] : R (Fl 64)) = .error .ub ∧ has f e = .error .ub ∧ orEnum f e = .error .ub := by
  have : storedValueOf 64 e = .error .ub := by
    unfold storedValueOf intBit
    rw [Nat.mod_eq_of_lt (by omega), if_pos h1]; rfl
  unfold ctor has orEnum
  simp only [this, R.error_bind, and_self]

/-- **C58**, defect in 64 bit storage: iterating over flags that hold the values 0 and 40 (from `from_value`) is undefined. -/
theorem C58_flags64_iteration : iter (0x10000000001#64) = .error .ub := by decide +kernel

end Verif.Flags
