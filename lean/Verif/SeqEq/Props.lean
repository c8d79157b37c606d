import Verif.SeqEq.Spec

/-! C127: comparing containers. -/
namespace Verif.SeqEq
open Spec

variable {α : Type}

theorem read_ok {a : List α} {i : Nat} (h : i < a.length) : read a i = .ok a[i] := by
  unfold read; rw [List.getElem?_eq_getElem h]

theorem index_ok {a : List α} {i : Nat} (h : i < a.length) : index a i = .ok a[i] := by
  unfold index; rw [List.getElem?_eq_getElem h]

/-- The elements from `i` on. -/
def From (P : α → α → Prop) (a b : List α) (i : Nat) : Prop := ∀ (j : Nat) (x y : α), i ≤ j → a[j]? = some x → b[j]? = some y → P x y

theorem from_step {P : α → α → Prop} {a b : List α} {i : Nat} (ha : i < a.length) (hb : i < b.length) : From P a b i ↔ P a[i] b[i] ∧ From P a b (i + 1) := by
  constructor
  · intro h
    exact ⟨h i _ _ (Nat.le_refl _) (List.getElem?_eq_getElem ha) (List.getElem?_eq_getElem hb), fun j x y hj => h j x y (by omega)⟩
  · rintro ⟨h1, h2⟩ j x y hj hx hy
    by_cases e : j = i
    · subst e
      rw [List.getElem?_eq_getElem ha] at hx
      rw [List.getElem?_eq_getElem hb] at hy
      cases hx; cases hy
      exact h1
    · exact h2 j x y (by omega) hx hy

theorem from_end {P : α → α → Prop} {a b : List α} {i : Nat} (ha : a.length ≤ i) : From P a b i := by
  intro j x y hj hx _
  rw [List.getElem?_eq_none (by omega)] at hx
  cases hx

theorem eqLoop_ok (E : Ops α) (a b : List α) (hl : a.length = b.length) :
    ∀ (left i : Nat), i + left = a.length → ∃ r, eqLoop E a b i left = .ok r ∧ (r = true ↔ From (fun x y => E.eq x y = true) a b i)
  | 0, i, h => ⟨true, rfl, ⟨fun _ => from_end (by omega), fun _ => rfl⟩⟩
  | left + 1, i, h => by
    have ha : i < a.length := by omega
    have hb : i < b.length := by omega
    unfold eqLoop
    rw [read_ok ha, R.ok_bind, index_ok hb, R.ok_bind]
    cases he : E.eq a[i] b[i] with
    | false =>
      refine ⟨false, rfl, ⟨(fun h => by cases h), fun h => ?_⟩⟩
      have := ((from_step ha hb).1 h).1
      rw [he] at this; cases this
    | true =>
      obtain ⟨r, h1, h2⟩ := eqLoop_ok E a b hl left (i + 1) (by omega)
      refine ⟨r, h1, h2.trans ⟨fun h => (from_step ha hb).2 ⟨he, h⟩, fun h => ((from_step ha hb).1 h).2⟩⟩

theorem neLoop_ok (E : Ops α) (a b : List α) (hl : a.length = b.length) :
    ∀ (left i : Nat), i + left = a.length → ∃ r, neLoop E a b i left = .ok r ∧ (r = false ↔ From (fun x y => E.ne x y = false) a b i)
  | 0, i, h => ⟨false, rfl, ⟨fun _ => from_end (by omega), fun _ => rfl⟩⟩
  | left + 1, i, h => by
    have ha : i < a.length := by omega
    have hb : i < b.length := by omega
    unfold neLoop
    rw [read_ok ha, R.ok_bind, index_ok hb, R.ok_bind]
    cases he : E.ne a[i] b[i] with
    | true =>
      refine ⟨true, rfl, ⟨(fun h => by cases h), fun h => ?_⟩⟩
      have := ((from_step ha hb).1 h).1
      rw [he] at this; cases this
    | false =>
      obtain ⟨r, h1, h2⟩ := neLoop_ok E a b hl left (i + 1) (by omega)
      refine ⟨r, h1, h2.trans ⟨fun h => (from_step ha hb).2 ⟨he, h⟩, fun h => ((from_step ha hb).1 h).2⟩⟩

theorem contentLoop_ok (E : Ops α) (a b : List α) (hl : a.length = b.length) :
    ∀ (left i : Nat), i + left = a.length → ∃ r, contentLoop E a b i left = .ok r ∧ (r = true ↔ From (fun x y => E.ne x y = false) a b i)
  | 0, i, h => ⟨true, rfl, ⟨fun _ => from_end (by omega), fun _ => rfl⟩⟩
  | left + 1, i, h => by
    have ha : i < a.length := by omega
    have hb : i < b.length := by omega
    unfold contentLoop
    rw [read_ok ha, R.ok_bind, read_ok hb, R.ok_bind]
    cases he : E.ne a[i] b[i] with
    | true =>
      refine ⟨false, rfl, ⟨(fun h => by cases h), fun h => ?_⟩⟩
      have := ((from_step ha hb).1 h).1
      rw [he] at this; cases this
    | false =>
      obtain ⟨r, h1, h2⟩ := contentLoop_ok E a b hl left (i + 1) (by omega)
      refine ⟨r, h1, h2.trans ⟨fun h => (from_step ha hb).2 ⟨he, h⟩, fun h => ((from_step ha hb).1 h).2⟩⟩

theorem from_zero {P : α → α → Prop} {a b : List α} (hl : a.length = b.length) : From P a b 0 ↔ Pointwise P a b :=
  ⟨fun h => ⟨hl, fun i x y => h i x y (Nat.zero_le _)⟩, fun h i x y _ => h.2 i x y⟩

/-- **C127** `a == b` is true exactly if there are as many elements and those at the same place are `==`; nothing else is read. -/
theorem C127_equal (E : Ops α) (a b : List α) : ∃ r, equal E a b = .ok r ∧ (r = true ↔ Pointwise (fun x y => E.eq x y = true) a b) := by
  unfold equal
  by_cases hl : a.length = b.length
  · rw [if_neg (by omega)]
    obtain ⟨r, h1, h2⟩ := eqLoop_ok E a b hl a.length 0 (by omega)
    exact ⟨r, h1, h2.trans (from_zero hl)⟩
  · rw [if_pos hl]
    exact ⟨false, rfl, (fun h => by cases h), fun h => (hl h.1).elim⟩

/-- **C127** `a != b` is false exactly if there are as many elements and those at the same place are not `!=`. -/
theorem C127_not_equal (E : Ops α) (a b : List α) : ∃ r, notEqual E a b = .ok r ∧ (r = false ↔ Pointwise (fun x y => E.ne x y = false) a b) := by
  unfold notEqual
  by_cases hl : a.length = b.length
  · rw [if_neg (by omega)]
    obtain ⟨r, h1, h2⟩ := neLoop_ok E a b hl a.length 0 (by omega)
    exact ⟨r, h1, h2.trans (from_zero hl)⟩
  · rw [if_pos hl]
    exact ⟨true, rfl, (fun h => by cases h), fun h => (hl h.1).elim⟩

/-- **C127** `equals_content` is the opposite of `!=` (not always `==`). -/
theorem C127_equals_content (E : Ops α) (a b : List α) : ∃ r, equalsContent E a b = .ok r ∧ notEqual E a b = .ok (!r) := by
  obtain ⟨q, g1, g2⟩ := C127_not_equal E a b
  refine ⟨!q, ?_, by rw [g1, Bool.not_not]⟩
  unfold equalsContent
  by_cases hl : a.length = b.length
  · rw [if_neg (by omega)]
    obtain ⟨r, h1, h2⟩ := contentLoop_ok E a b hl a.length 0 (by omega)
    rw [h1]
    have h3 := (h2.trans (from_zero hl)).trans g2.symm
    cases r <;> cases q <;> simp_all
  · rw [if_pos hl]
    unfold notEqual at g1
    rw [if_pos hl] at g1
    cases g1
    rfl

/-- **C127** `contains` is true exactly if one element is `==` to the value. -/
theorem C127_contains (E : Ops α) (a : List α) (v : α) : ∃ r, contains E a v = .ok r ∧ (r = true ↔ ∃ x ∈ a, E.eq x v = true) := by
  have key : ∀ (left i : Nat), i + left = a.length → ∃ r, containsLoop E a v i left = .ok r ∧ (r = true ↔ ∃ x ∈ a.drop i, E.eq x v = true) := by
    intro left
    induction left with
    | zero =>
      intro i h
      refine ⟨false, rfl, (fun h => by cases h), ?_⟩
      rintro ⟨x, hx, _⟩
      rw [List.drop_of_length_le (by omega)] at hx
      cases hx
    | succ left ih =>
      intro i h
      have hi : i < a.length := by omega
      unfold containsLoop
      rw [read_ok hi, R.ok_bind, List.drop_eq_getElem_cons hi]
      cases he : E.eq a[i] v with
      | true => exact ⟨true, rfl, fun _ => ⟨_, List.mem_cons_self, he⟩, fun _ => rfl⟩
      | false =>
        obtain ⟨r, h1, h2⟩ := ih (i + 1) (by omega)
        refine ⟨r, h1, h2.trans ⟨?_, ?_⟩⟩
        · rintro ⟨x, hx, hv⟩
          exact ⟨x, List.mem_cons_of_mem _ hx, hv⟩
        · rintro ⟨x, hx, hv⟩
          rcases List.mem_cons.1 hx with e | e
          · rw [e, he] at hv; cases hv
          · exact ⟨x, e, hv⟩
  obtain ⟨r, h1, h2⟩ := key a.length 0 (by omega)
  rw [List.drop_zero] at h2
  exact ⟨r, h1, h2⟩

theorem seq_eq (E : Ops α) (a b : List α) : E.seq.eq a b = true ↔ Pointwise (fun x y => E.eq x y = true) a b := by
  obtain ⟨r, h1, h2⟩ := C127_equal E a b
  rw [← h2]
  show decide ((equal E a b).toOption = some true) = true ↔ _
  rw [h1, decide_eq_true_iff]
  exact ⟨fun h => Option.some.inj h, fun h => by rw [h]; rfl⟩

theorem seq_ne (E : Ops α) (a b : List α) : E.seq.ne a b = false ↔ Pointwise (fun x y => E.ne x y = false) a b := by
  obtain ⟨r, h1, h2⟩ := C127_not_equal E a b
  rw [← h2]
  show decide ((notEqual E a b).toOption = some true) = false ↔ _
  rw [h1, decide_eq_false_iff_not]
  cases r
  · exact ⟨fun _ => rfl, fun _ h => by cases h⟩
  · exact ⟨fun h => (h rfl).elim, fun h => by cases h⟩

theorem pointwise_single {P : α → α → Prop} (x y : α) : Pointwise P [x] [y] ↔ P x y := by
  constructor
  · intro h; exact h.2 0 x y rfl rfl
  · intro h
    refine ⟨rfl, fun i u v hu hv => ?_⟩
    cases i with
    | zero => cases hu; cases hv; exact h
    | succ i => cases hu

/-- **C127** `!=` is the opposite of `==` for containers exactly if it is for their elements; so it is for containers of containers of … -/
theorem C127_opposite (E : Ops α) : Opposite E.seq ↔ Opposite E := by
  constructor
  · intro h x y
    have := h [x] [y]
    have h1 := seq_eq E [x] [y]
    have h2 := seq_ne E [x] [y]
    rw [pointwise_single] at h1 h2
    cases a : E.seq.eq [x] [y] <;> cases b : E.seq.ne [x] [y] <;> cases c : E.eq x y <;> cases d : E.ne x y <;> simp_all
  · intro h a b
    have h1 := seq_eq E a b
    have h2 := seq_ne E a b
    have e : (fun x y => E.ne x y = false) = (fun x y => E.eq x y = true) := by
      funext x y
      rw [h x y]
      simp
    rw [e] at h2
    cases g : E.seq.eq a b
    · cases g' : E.seq.ne a b
      · rw [g] at h1; rw [g'] at h2
        have := h1.2 (h2.1 rfl); cases this
      · rfl
    · have := h2.2 (h1.1 g)
      rw [this]; rfl

/-- **C127** `==` of containers is an equivalence relation exactly if `==` of their elements is. -/
theorem C127_equivalence (E : Ops α) : Equivalence E.seq ↔ Equivalence E := by
  have one : ∀ x y, E.seq.eq [x] [y] = true ↔ E.eq x y = true := fun x y => (seq_eq E [x] [y]).trans (pointwise_single x y)
  constructor
  · intro h
    exact ⟨fun x => (one x x).1 (h.refl [x]), fun x y hxy => (one y x).1 (h.symm _ _ ((one x y).2 hxy)),
      fun x y z h1 h2 => (one x z).1 (h.trans _ _ _ ((one x y).2 h1) ((one y z).2 h2))⟩
  · intro h
    refine ⟨fun a => (seq_eq E a a).2 ⟨rfl, fun i x y hx hy => ?_⟩, fun a b hab => (seq_eq E b a).2 ?_, fun a b c h1 h2 => (seq_eq E a c).2 ?_⟩
    · rw [hx] at hy; cases hy; exact h.refl x
    · obtain ⟨g1, g2⟩ := (seq_eq E a b).1 hab
      exact ⟨g1.symm, fun i x y hx hy => h.symm _ _ (g2 i y x hy hx)⟩
    · obtain ⟨g1, g2⟩ := (seq_eq E a b).1 h1
      obtain ⟨k1, k2⟩ := (seq_eq E b c).1 h2
      refine ⟨g1.trans k1, fun i x z hx hz => ?_⟩
      have hi : i < b.length := by
        have := (List.getElem?_eq_some_iff.1 hx).1
        omega
      exact h.trans _ _ _ (g2 i x b[i] hx (List.getElem?_eq_getElem hi)) (k2 i b[i] z (List.getElem?_eq_getElem hi) hz)

/-- **C127** `==` and `equals_content` agree on all sequences exactly if `!=` of the elements is the opposite of `==`. -/
theorem C127_content_agrees (E : Ops α) : (∀ a b, equalsContent E a b = equal E a b) ↔ Opposite E := by
  have key : ∀ a b, equalsContent E a b = equal E a b ↔ E.seq.ne a b = !(E.seq.eq a b) := by
    intro a b
    obtain ⟨r, h1, h2⟩ := C127_equals_content E a b
    obtain ⟨q, h3, _⟩ := C127_equal E a b
    show _ ↔ decide ((notEqual E a b).toOption = some true) = !decide ((equal E a b).toOption = some true)
    rw [h1, h2, h3]
    cases r <;> cases q <;> decide
  rw [← C127_opposite E]
  exact ⟨fun h a b => (key a b).1 (h a b), fun h a b => (key a b).2 (h a b)⟩

/-! ### examples -/

/-- `int`. -/
def int : Ops Int := ⟨fun x y => x == y, fun x y => x != y⟩
/-- A type whose `!=` compares more than its `==` (text and place, say). -/
def odd : Ops (Nat × Nat) := ⟨fun x y => x.1 == y.1, fun x y => x != y⟩

example : Opposite int.seq.seq := (C127_opposite _).2 ((C127_opposite _).2 (fun _ _ => rfl))
example : Equivalence int.seq.seq := (C127_equivalence _).2 ((C127_equivalence _).2
  ⟨fun x => by simp [int], fun x y h => by simp [int] at h ⊢; exact h.symm, fun x y z h g => by simp [int] at h g ⊢; exact h.trans g⟩)
example : equal int [1, 2, 3] [1, 2, 3] = .ok true ∧ equal int [1, 2, 3] [1, 2, 4] = .ok false ∧ equal int [1, 2] [1, 2, 3] = .ok false ∧
    notEqual int [1, 2, 3] [1, 5, 3] = .ok true ∧ contains int [1, 2, 3] 3 = .ok true ∧ contains int [1, 2, 3] 4 = .ok false := by decide
example : equal int.seq [[1], [2, 3]] [[1], [2, 3]] = .ok true ∧ notEqual int.seq [[1], [2, 3]] [[1, 2], [3]] = .ok true := by decide
/-- Without opposites, two sequences can be `==` and `!=`, and have different content. -/
example : equal odd [(1, 2)] [(1, 3)] = .ok true ∧ notEqual odd [(1, 2)] [(1, 3)] = .ok true ∧ equalsContent odd [(1, 2)] [(1, 3)] = .ok false := by decide

end Verif.SeqEq
