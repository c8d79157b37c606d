import Verif.Coll.Spec
/-!
# Properties of the functions for collections (C114)
-/
namespace Verif.Coll

variable {σ α β : Type}

/-- No const `cc::array<T, N>`. -/
def Coll.NotConstArray : Coll σ α β → Prop
  | .ccArray isConst _ => isConst = false
  | _ => True

/-- C114: whatever is called a range can be looped over with `collection_begin` and `collection_end`.
Missing: const arrays of fixed size (`C114_const_array`). -/
theorem C114_range_partial (c : Coll σ α β) (h : c.NotConstArray) (hr : isRange c = true) : Loopable c := by
  cases c with
  | cls c =>
    have hr' : c.elems.isSome = true := hr
    obtain ⟨e, he⟩ := Option.isSome_iff_exists.1 hr'
    exact ⟨e, by simp [elements, isRange, he]⟩
  | cArray e => exact ⟨e, rfl⟩
  | ccArray k e =>
    have h : k = false := h
    exact ⟨e, by simp [elements, h]⟩

/-- C114: what can be looped over is called a range, and a class is one exactly if it has `begin` and `end`; the loop visits the elements of these. -/
theorem C114_range_exact (c : Coll σ α β) : (Loopable c → isRange c = true) ∧
    ∀ k : Cls σ α β, c = .cls k → (isRange c = true ↔ k.elems.isSome = true) ∧ elements c = k.elems := by
  constructor
  · rintro ⟨e, he⟩
    cases c with
    | cls c =>
      by_cases hr : isRange (.cls c) = true
      · exact hr
      · simp [elements, hr] at he
    | cArray => rfl
    | ccArray => rfl
  · rintro k rfl
    refine ⟨Iff.rfl, ?_⟩
    unfold elements
    cases h : k.elems <;> simp [isRange, h]

/-- C114: `collection_size` is the number of elements a loop visits, for every range with a size. -/
theorem C114_size (c : Coll σ α β) (h : ∀ k, c = .cls k → k.Agrees) (hs : hasSize c = true) :
    ∃ n, size c = some n ∧ ∀ e, elements c = some e → ∀ s, n s = (e s).length := by
  cases c with
  | cls c =>
    have hs' := hs
    simp only [hasSize, Bool.and_eq_true] at hs'
    obtain ⟨n, hn⟩ := Option.isSome_iff_exists.1 hs'.2
    refine ⟨n, by simp [size, hs, hn], fun e he s => ?_⟩
    have : c.elems = some e := by rw [← ((C114_range_exact (.cls c)).2 c rfl).2]; exact he
    exact (h c rfl).size e n this hn s
  | cArray e =>
    refine ⟨_, rfl, fun f hf s => ?_⟩
    simp only [elements, Option.some.injEq] at hf; subst hf; rfl
  | ccArray k e =>
    refine ⟨_, rfl, fun f hf s => ?_⟩
    cases k
    · simp only [elements, Bool.false_eq_true, if_false, Option.some.injEq] at hf; subst hf; rfl
    · simp [elements] at hf

/-- C114: an indexed range has a size, and its `i`-th element is that of a loop. Missing: classes without `data()` whose subscript operator is not an index, such as maps with
integers as keys (`C114_map_is_indexed`), and const arrays of fixed size (`C114_const_array`). -/
theorem C114_indexed_partial (c : Coll σ α β) (hc : c.NotConstArray) (h : ∀ k, c = .cls k → k.Agrees ∧ (k.data = none → k.IndexAgrees)) (hi : isIndexedRange c = true) :
    Indexed c := by
  cases c with
  | cls c =>
    have hi' := hi
    simp only [isIndexedRange, Bool.and_eq_true] at hi'
    obtain ⟨n, hn, hl⟩ := C114_size (.cls c) (fun k hk => (h k hk).1) hi'.1
    have hx := hi'.2
    simp only [hasIndex, Bool.and_eq_true] at hx
    obtain ⟨e, he⟩ := Option.isSome_iff_exists.1 hx.1
    obtain ⟨f, hf⟩ := Option.isSome_iff_exists.1 hx.2
    have hel : elements (.cls c) = some e := by rw [((C114_range_exact (.cls c)).2 c rfl).2]; exact he
    cases hd : c.data with
    | some d =>
      refine ⟨e, n, (fun s i => do
          let a ← d s i
          .ok (.inl a, s)), hel, hn, ?_, hl e hel, ?_⟩
      · unfold get; dsimp only
        rw [if_pos (by simp [hasData, he, hd]), hd]; rfl
      · intro s i a ha
        have := (h c rfl).1.data e d he hd s i a ha
        simp [this]
    | none =>
      refine ⟨e, n, f, hel, hn, ?_, hl e hel, fun s i a ha => (h c rfl).2 hd e f he hf s i a ha⟩
      unfold get; dsimp only
      rw [if_neg (by simp [hasData, hd]), if_pos hi'.2, hf]
  | cArray e =>
    refine ⟨e, _, _, rfl, rfl, rfl, fun s => rfl, fun s i a ha => ?_⟩
    simp [arrayAt, ha]
  | ccArray k e =>
    have hk : k = false := hc
    subst hk
    refine ⟨e, _, _, rfl, rfl, rfl, fun s => rfl, fun s i a ha => ?_⟩
    simp [arrayAt, ha]

/-- C114: a contiguous range has a size and its `i`-th element is that of a loop, whatever its subscript operator does; a class is one exactly if it has `begin`, `end`, `data` and `size`.
Missing: const arrays of fixed size (`C114_const_array`). -/
theorem C114_contiguous_partial (c : Coll σ α β) (hc : c.NotConstArray) (h : ∀ k, c = .cls k → k.Agrees) :
    (isContiguous c = true → Indexed c) ∧
    ∀ k, c = .cls k → (isContiguous c = true ↔ k.elems.isSome = true ∧ k.data.isSome = true ∧ k.size.isSome = true) := by
  constructor
  · intro hi
    cases c with
    | cls c =>
      have hi' := hi
      simp only [isContiguous, Bool.and_eq_true] at hi'
      obtain ⟨n, hn, hl⟩ := C114_size (.cls c) h hi'.2
      have hx := hi'.1
      simp only [hasData, Bool.and_eq_true] at hx
      obtain ⟨e, he⟩ := Option.isSome_iff_exists.1 hx.1
      obtain ⟨d, hd⟩ := Option.isSome_iff_exists.1 hx.2
      have hel : elements (.cls c) = some e := by rw [((C114_range_exact (.cls c)).2 c rfl).2]; exact he
      refine ⟨e, n, (fun s i => do
          let a ← d s i
          .ok (.inl a, s)), hel, hn, ?_, hl e hel, ?_⟩
      · unfold get; dsimp only
        rw [if_pos (by simp [hasData, he, hd]), hd]; rfl
      · intro s i a ha
        have := (h c rfl).data e d he hd s i a ha
        simp [this]
    | cArray e =>
      refine ⟨e, _, _, rfl, rfl, rfl, fun s => rfl, fun s i a ha => ?_⟩
      simp [arrayAt, ha]
    | ccArray k e =>
      have hk : k = false := hc
      subst hk
      refine ⟨e, _, _, rfl, rfl, rfl, fun s => rfl, fun s i a ha => ?_⟩
      simp [arrayAt, ha]
  · rintro k rfl
    simp only [isContiguous, hasData, hasSize, Bool.and_eq_true]
    constructor
    · rintro ⟨⟨h1, h2⟩, _, h3⟩; exact ⟨h1, h2, h3⟩
    · rintro ⟨h1, h2, h3⟩; exact ⟨⟨h1, h2⟩, h1, h3⟩

/-- C114: an element is added by the first of `push_back`, `add`, `insert`, `push`, `<<` and `+=` that the class offers; without any of them, and for arrays, `collection_add` is
rejected. -/
theorem C114_add (c : Cls σ α β) (h : c.elems.isSome = true) : addTo (.cls c) = (c.ways.filterMap id).head? ∧
    (canAdd (.cls c) = true ↔ ∃ w ∈ c.ways, w.isSome = true) := by
  unfold addTo canAdd implAdd Cls.ways; dsimp only
  simp only [h]
  cases h1 : c.pushBack <;> cases h2 : c.add <;> cases h3 : c.insert <;> cases h4 : c.push <;> cases h5 : c.shl <;> cases h6 : c.plusEq <;> simp

/-- C114: nothing is added to arrays or to what is no range. -/
theorem C114_no_add (c : Coll σ α β) : (addTo c).isSome = canAdd c ∧ (isRange c = false → canAdd c = false) ∧ (∀ e, c = .cArray e → canAdd c = false) ∧
    ∀ k e, c = .ccArray k e → canAdd c = false := by
  refine ⟨?_, ?_, ?_, ?_⟩
  · cases c with
    | cls c =>
      unfold addTo; dsimp only
      split
      · rename_i h
        have h' := h
        simp only [canAdd, Bool.and_eq_true] at h'
        rw [h, h'.2]
      · rename_i h; simp at h; simp [h]
    | cArray => rfl
    | ccArray => rfl
  · cases c with
    | cls c => intro h; simp only [isRange] at h; simp [canAdd, h]
    | cArray => intro _; rfl
    | ccArray => intro _; rfl
  · rintro e rfl; rfl
  · rintro k e rfl; rfl

/-- C114, the negation: a const array of fixed size is called an indexed range, but neither a loop over it nor access to its elements compiles. -/
theorem C114_const_array (e : σ → List α) : isIndexedRange (.ccArray true e : Coll σ α β) = true ∧ isRange (.ccArray true e : Coll σ α β) = true ∧
    ¬ Loopable (.ccArray true e : Coll σ α β) ∧ get (.ccArray true e : Coll σ α β) = none := by
  refine ⟨rfl, rfl, ?_, rfl⟩
  rintro ⟨f, hf⟩
  simp [elements] at hf

/-! ### a map with integers as keys -/

/-- `map<int, int>`: its entries; a key that is not there is added with the value 0 by the subscript operator (see `Verif.Map`). -/
def intMap : Cls (List (Nat × Nat)) (Nat × Nat) Nat :=
  { elems := some id
    size := some List.length
    index := some fun s k => match s.lookup k with
      | some v => .ok (.inr v, s)
      | none => .ok (.inr 0, s ++ [(k, 0)]) }

theorem intMap_agrees : intMap.Agrees := by
  constructor
  · intro e n he hn s
    simp only [intMap, Option.some.injEq] at he hn
    subst he hn; rfl
  · intro e d he hd; simp [intMap] at hd

/-- C114, the negation: a map with integers as keys is called an indexed range, although its subscript operator is no index: asking for element 0 of a map with one entry does not give
this entry but adds another one. -/
theorem C114_map_is_indexed : intMap.Agrees ∧ isIndexedRange (.cls intMap) = true ∧ ¬ Indexed (.cls intMap) ∧
    ∃ g, get (.cls intMap) = some g ∧ g [(7, 1)] 0 = .ok (.inr 0, [(7, 1), (0, 0)]) := by
  refine ⟨intMap_agrees, rfl, ?_, _, rfl, rfl⟩
  rintro ⟨e, n, g, he, _, hg, _, h⟩
  simp only [elements, isRange, intMap, Option.isSome_some, if_true, Option.some.injEq] at he
  subst he
  have hg' : get (.cls intMap) = intMap.index := rfl
  rw [hg'] at hg
  simp only [intMap, Option.some.injEq] at hg
  subst hg
  have := h [(7, 1)] 0 (7, 1) rfl
  simp at this

theorem indexLoop_eq (n : Nat) : ∀ r i, i + r = n + 1 → indexLoop r i n = (List.range (n - i)).map (i + ·)
  | 0, i, h => by
    have : n - i = 0 := by omega
    simp [indexLoop, this]
  | r + 1, i, h => by
    unfold indexLoop
    by_cases hi : i = n
    · simp [hi]
    · have e1 : n - i = (n - (i + 1)) + 1 := by omega
      simp only [bne_iff_ne, ne_eq, hi, not_false_eq_true, if_true]
      rw [indexLoop_eq n r (i + 1) (by omega), e1, List.range_succ_eq_map]
      simp [Function.comp_def, Nat.add_assoc, Nat.add_comm 1]

/-- C114: `indices_of` of a range with a size visits the index of every element once, in order. -/
theorem C114_indices_of (c : Coll σ α β) (h : ∀ k, c = .cls k → k.Agrees) (hs : hasSize c = true) :
    ∃ f, indicesOf c = some f ∧ ∀ e, elements c = some e → ∀ s, f s = List.range (e s).length := by
  obtain ⟨n, hn, hl⟩ := C114_size c h hs
  refine ⟨fun s => indexLoop (n s + 1) 0 (n s), by simp [indicesOf, hn], fun e he s => ?_⟩
  dsimp only
  rw [indexLoop_eq _ _ 0 (by omega), hl e he s]
  simp

/-! ### concrete cases -/

/-- A sequence with `push_back` and `insert`, `data()`, a size and a subscript operator. -/
def sequence : Cls (List Nat) Nat Nat :=
  { elems := some id
    size := some List.length
    data := some arrayAt
    index := some fun s i => do
      let a ← arrayAt s i
      .ok (.inl a, s)
    pushBack := some fun s a => .ok (s ++ [a])
    insert := some fun s a => .ok (a :: s) }

theorem sequence_agrees : sequence.Agrees := by
  constructor
  · intro e n he hn s
    simp only [sequence, Option.some.injEq] at he hn
    subst he hn; rfl
  · intro e d he hd s i a ha
    simp only [sequence, Option.some.injEq] at he hd
    subst he hd
    have ha : s[i]? = some a := ha
    simp [arrayAt, ha]

example : isIndexedRange (.cls sequence) = true ∧ Indexed (.cls sequence) :=
  ⟨rfl, C114_indexed_partial _ trivial (fun k hk => by cases hk; exact ⟨sequence_agrees, fun h => by simp [sequence] at h⟩) rfl⟩

example : ∃ f, addTo (.cls sequence) = some f ∧ f [1, 2] 3 = .ok [1, 2, 3] := ⟨_, rfl, rfl⟩

example : canAdd (.cls intMap) = false := rfl

example : isRange (.ccArray false (id : List Nat → List Nat) : Coll _ _ Nat) = true ∧ Loopable (.ccArray false (id : List Nat → List Nat) : Coll _ _ Nat) :=
  ⟨rfl, C114_range_partial _ rfl rfl⟩

example : ∃ f, indicesOf (.cls sequence) = some f ∧ f [5, 5, 5] = [0, 1, 2] := ⟨_, rfl, rfl⟩

end Verif.Coll
