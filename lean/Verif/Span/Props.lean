import Verif.Span.Model

/-! Property theorems for the spans: C57. -/
namespace Verif.Span

variable {α : Type}

/-! Specification: the elements a span designates. -/

/-- The span lies inside the array. -/
def Valid (mem : List α) (s : Sp) : Prop := s.data + s.size ≤ mem.length

/-- The designated elements. -/
def elems (mem : List α) (s : Sp) : List α := (mem.drop s.data).take s.size

/-- The addresses a strided span designates. -/
def addrs (s : Ss) : List (BitVec 64) := (List.range s.size.toNat).map fun i => s.data + s.stride * BitVec.ofNat 64 i

theorem elems_length {mem : List α} {s : Sp} (h : Valid mem s) : (elems mem s).length = s.size := by
  unfold Valid at h
  simp [elems]; omega

theorem at_ok {mem : List α} {s : Sp} (h : Valid mem s) {i : Nat} (hi : i < s.size) :
    at_ mem s i = .ok ((elems mem s)[i]'(by rw [elems_length h]; exact hi)) := by
  unfold Valid at h
  unfold at_
  rw [List.getElem?_eq_getElem (by omega)]
  simp [elems]

/-- **C57**, element access: on a span inside its array, `operator[]`, `front` and `back` give the designated element or, out of
range, a contract failure. -/
theorem C57_span_access (mem : List α) (s : Sp) (h : Valid mem s) (i : Nat) :
    (get mem s i = match (elems mem s)[i]? with | some a => .ok a | none => .error .assert) ∧
    (front mem s = match (elems mem s).head? with | some a => .ok a | none => .error .assert) ∧
    (back mem s = match (elems mem s).getLast? with | some a => .ok a | none => .error .assert) := by
  have hl := elems_length h
  refine ⟨?_, ?_, ?_⟩
  · unfold get
    by_cases hi : i < s.size
    · rw [ccAssert_true (by simpa using hi), List.getElem?_eq_getElem (by omega)]
      exact at_ok h hi
    · rw [ccAssert_false (by simpa using hi), List.getElem?_eq_none (by omega)]; rfl
  · unfold front
    by_cases hi : 0 < s.size
    · rw [ccAssert_true (by simpa using hi), List.head?_eq_getElem?, List.getElem?_eq_getElem (by omega)]
      exact at_ok h hi
    · rw [ccAssert_false (by simpa using hi), List.head?_eq_getElem?, List.getElem?_eq_none (by omega)]; rfl
  · unfold back
    rw [List.getLast?_eq_getElem?, hl]
    by_cases hi : 0 < s.size
    · rw [ccAssert_true (by simpa using hi), List.getElem?_eq_getElem (by omega)]
      exact at_ok h (by omega)
    · rw [ccAssert_false (by simpa using hi), List.getElem?_eq_none (by omega)]; rfl

example : Valid [10, 11, 12, 13] ⟨1, 2⟩ ∧ get [10, 11, 12, 13] ⟨1, 2⟩ 1 = .ok 12 ∧ get [10, 11, 12, 13] ⟨1, 2⟩ 2 = .error .assert :=
  ⟨by unfold Valid; decide, by decide +kernel, by decide +kernel⟩

/-- **C57**, sub-ranges of a span with `first`, `last` and `subspan(offset)`: accepted exactly when they fit, and then they designate
the first, last, or remaining elements. -/
theorem C57_span_first_last (mem : List α) (s : Sp) (h : Valid mem s) (n : Nat) :
    (if n ≤ s.size then ∃ t, first s n = .ok t ∧ Valid mem t ∧ elems mem t = (elems mem s).take n else first s n = .error .assert) ∧
    (if n ≤ s.size then ∃ t, last s n = .ok t ∧ Valid mem t ∧ elems mem t = (elems mem s).drop (s.size - n)
      else last s n = .error .assert) ∧
    (if n ≤ s.size then ∃ t, subspanFrom s n = .ok t ∧ Valid mem t ∧ elems mem t = (elems mem s).drop n
      else subspanFrom s n = .error .assert) := by
  unfold Valid at h
  refine ⟨?_, ?_, ?_⟩
  · split
    · rename_i hn
      refine ⟨_, by unfold first; rw [ccAssert_true (by simpa using hn)]; rfl, by unfold Valid; simp only; omega, ?_⟩
      simp only [elems]
      rw [List.take_take]
      congr 1; omega
    · rename_i hn
      unfold first; rw [ccAssert_false (by simpa using hn)]; rfl
  · split
    · rename_i hn
      refine ⟨_, by unfold last; rw [ccAssert_true (by simpa using hn)]; rfl, by unfold Valid; simp only; omega, ?_⟩
      simp only [elems]
      rw [List.drop_take, List.drop_drop]
      congr 1; omega
    · rename_i hn
      unfold last; rw [ccAssert_false (by simpa using hn)]; rfl
  · split
    · rename_i hn
      refine ⟨_, by unfold subspanFrom; rw [ccAssert_true (by simpa using hn)]; rfl, by unfold Valid; simp only; omega, ?_⟩
      simp only [elems]
      rw [List.drop_take, List.drop_drop]
    · rename_i hn
      unfold subspanFrom; rw [ccAssert_false (by simpa using hn)]; rfl

example : ∃ t, last ⟨1, 3⟩ 2 = .ok t ∧ elems [10, 11, 12, 13, 14] t = [12, 13] := ⟨⟨2, 2⟩, by decide +kernel, by decide +kernel⟩

/-- **C57 (partial)**, `subspan(offset, count)`: if `offset + count` does not exceed the `size_t` range, the call is accepted
exactly when the range fits, and then designates it. Missing: counts for which the sum wraps around, where it is false (next
theorem). -/
theorem C57_subspan_partial (mem : List α) (s : Sp) (h : Valid mem s) (offset count : Nat) (hw : offset + count < 2 ^ 64) :
    if offset + count ≤ s.size then
      ∃ t, subspan s offset count = .ok t ∧ Valid mem t ∧ elems mem t = ((elems mem s).drop offset).take count
    else subspan s offset count = .error .assert := by
  unfold Valid at h
  unfold subspan
  rw [Nat.mod_eq_of_lt hw]
  split
  · rename_i hn
    refine ⟨_, by rw [ccAssert_true (by simp; omega)]; rfl, by unfold Valid; simp only; omega, ?_⟩
    simp only [elems]
    rw [List.drop_take, List.drop_drop, List.take_take]
    congr 1; omega
  · rename_i hn
    rw [ccAssert_false (by simp; omega)]; rfl

example : ∃ t, subspan ⟨1, 4⟩ 1 2 = .ok t ∧ elems [10, 11, 12, 13, 14] t = [12, 13] := ⟨⟨2, 2⟩, by decide +kernel, by decide +kernel⟩

/-- **C57**, the defect: for every non-empty span there is a count for which `subspan` accepts a range that is far longer than the
span; the resulting span allows access behind the array. -/
theorem C57_subspan_wraps (s : Sp) (hs : 1 ≤ s.size) (offset count : Nat) (h1 : 1 ≤ offset) (h2 : offset ≤ s.size)
    (h3 : 2 ^ 64 ≤ offset + count) (h4 : count < 2 ^ 64) (h5 : s.size < 2 ^ 64) :
    subspan s offset count = .ok { data := s.data + offset, size := count } ∧ (∀ mem : List α, mem.length < 2 ^ 63 → s.size < 2 ^ 63 →
      ¬ Valid mem { data := s.data + offset, size := count }) := by
  unfold subspan
  have : (offset + count) % 2 ^ 64 = offset + count - 2 ^ 64 := by
    rw [Nat.mod_eq_sub_mod h3, Nat.mod_eq_of_lt (by omega)]
  refine ⟨by rw [this, ccAssert_true (by simp; omega)]; rfl, ?_⟩
  intro mem hm hsz hv
  unfold Valid at hv
  simp only at hv
  omega

example : (do let t ← subspan ⟨0, 3⟩ 1 (2 ^ 64 - 1); get [1, 2, 3] t 2) = (.error .ub : R Nat) := by decide +kernel

/-- **C57**, `equals_content`: compares the designated elements. -/
theorem C57_equals_content [DecidableEq α] (mem : List α) (s t : Sp) (h : Valid mem s) (h' : Valid mem t) :
    equalsContent mem s t = .ok (decide (elems mem s = elems mem t)) := by
  have hl := elems_length h
  have hl' := elems_length h'
  unfold equalsContent
  split
  · rename_i hne
    have : elems mem s ≠ elems mem t := by intro e; rw [← hl, ← hl', e] at hne; exact hne rfl
    simp [this]
  · rename_i he
    have he : s.size = t.size := by omega
    have hloop : ∀ n i, i + n = s.size → equalsLoop mem s t i n = .ok (decide ((elems mem s).drop i = (elems mem t).drop i)) := by
      intro n
      induction n with
      | zero => intro i hi; rw [List.drop_eq_nil_of_le (by omega), List.drop_eq_nil_of_le (by omega)]; rfl
      | succ n ih =>
        intro i hi
        rw [equalsLoop, at_ok h (by omega), at_ok h' (by omega)]
        simp only [R.ok_bind]
        rw [List.drop_eq_getElem_cons (show i < (elems mem s).length by omega),
          List.drop_eq_getElem_cons (show i < (elems mem t).length by omega), ih (i + 1) (by omega)]
        by_cases e : (elems mem s)[i]'(by omega) = (elems mem t)[i]'(by omega)
        · simp only [e, ne_eq, not_true_eq_false, if_false, List.cons.injEq, true_and]
        · simp only [e, ne_eq, not_false_eq_true, if_true, List.cons.injEq, false_and, decide_false]
    simpa using hloop s.size 0 (by omega)

example : equalsContent [1, 2, 1, 2] ⟨0, 2⟩ ⟨2, 2⟩ = .ok true ∧ equalsContent [1, 2, 1, 3] ⟨0, 2⟩ ⟨2, 2⟩ = .ok false := by
  decide +kernel

theorem copyLoop_ok {dst src : Sp} (hd : src.data + src.size ≤ dst.data ∨ dst.data + dst.size ≤ src.data) (n : Nat) :
    ∀ {i : Nat} {mem : List α}, Valid mem src → Valid mem dst → i + n ≤ src.size → i + n ≤ dst.size →
    ∃ mem', copyLoop mem dst src i n = .ok mem' ∧ mem'.length = mem.length ∧
      ∀ j, mem'[j]? = if dst.data + i ≤ j ∧ j < dst.data + i + n then mem[src.data + (j - dst.data)]? else mem[j]? := by
  induction n with
  | zero =>
    intro i mem _ _ _ _
    refine ⟨mem, rfl, rfl, ?_⟩
    intro j
    rw [if_neg (by omega)]
  | succ n ih =>
    intro i mem hs ht h1 h2
    unfold Valid at hs ht
    rw [copyLoop]
    unfold at_
    rw [List.getElem?_eq_getElem (show src.data + i < mem.length by omega)]
    simp only [R.ok_bind]
    rw [if_pos (by omega)]
    obtain ⟨m, e, hl, hm⟩ := ih (i := i + 1) (mem := mem.set (dst.data + i) (mem[src.data + i]'(by omega)))
      (by unfold Valid; rw [List.length_set]; omega) (by unfold Valid; rw [List.length_set]; omega) (by omega) (by omega)
    refine ⟨m, e, by rw [hl, List.length_set], ?_⟩
    intro j
    rw [hm j]
    by_cases c1 : dst.data + (i + 1) ≤ j ∧ j < dst.data + (i + 1) + n
    · rw [if_pos c1, if_pos (by omega), List.getElem?_set, if_neg (by omega)]
    · rw [if_neg c1, List.getElem?_set]
      by_cases c2 : dst.data + i = j
      · rw [if_pos c2, if_pos (by omega), if_pos (by omega), ← c2, show src.data + (dst.data + i - dst.data) = src.data + i by omega,
          List.getElem?_eq_getElem (show src.data + i < mem.length by omega)]
      · rw [if_neg c2, if_neg (by omega)]

theorem copy_elems {mem mem' : List α} {dst src : Sp} {n : Nat} (hs : Valid mem src) (ht : Valid mem dst)
    (hl : mem'.length = mem.length) (h1 : n ≤ src.size) (h2 : n ≤ dst.size)
    (hm : ∀ j, mem'[j]? = if dst.data + 0 ≤ j ∧ j < dst.data + 0 + n then mem[src.data + (j - dst.data)]? else mem[j]?) :
    elems mem' dst = (elems mem src).take n ++ (elems mem dst).drop n := by
  have hv' : Valid mem' dst := by unfold Valid at *; omega
  unfold Valid at hs ht
  apply List.ext_getElem?
  intro j
  rcases Nat.lt_or_ge j dst.size with hj | hj
  · have e1 : (elems mem' dst)[j]? = mem'[dst.data + j]? := by simp [elems, hj]
    rw [e1, hm]
    rcases Nat.lt_or_ge j n with hjn | hjn
    · rw [if_pos (by omega), List.getElem?_append_left (by simp [elems]; omega)]
      simp only [elems, List.take_take]
      rw [List.getElem?_take, if_pos (by omega), List.getElem?_drop]
      congr 1; omega
    · rw [if_neg (by omega), List.getElem?_append_right (by simp [elems]; omega)]
      simp only [elems, List.getElem?_drop, List.length_take, List.length_drop]
      rw [List.getElem?_take, if_pos (by omega), List.getElem?_drop]
      congr 1; omega
  · rw [List.getElem?_eq_none (by rw [elems_length hv']; exact hj), List.getElem?_eq_none]
    simp [elems]; omega

/-- **C57**, `copy_from`: with spans of different sizes a contract failure; otherwise, for ranges that do not overlap (a documented
precondition), the target then designates the source's elements and nothing else changes. -/
theorem C57_copy_from (mem : List α) (dst src : Sp) (hs : Valid mem src) (ht : Valid mem dst)
    (hd : src.data + src.size ≤ dst.data ∨ dst.data + dst.size ≤ src.data) :
    if src.size = dst.size then
      ∃ mem', copyFrom mem dst src = .ok mem' ∧ mem'.length = mem.length ∧ elems mem' dst = elems mem src ∧
        ∀ j, j < dst.data ∨ dst.data + dst.size ≤ j → mem'[j]? = mem[j]?
    else copyFrom mem dst src = .error .assert := by
  unfold copyFrom
  split
  · rename_i he
    rw [ccAssert_true (by simpa using he)]
    obtain ⟨m, e, hl, hm⟩ := copyLoop_ok hd dst.size (i := 0) hs ht (by omega) (by omega)
    refine ⟨m, e, hl, ?_, ?_⟩
    · rw [copy_elems hs ht hl (by omega) (Nat.le_refl _) hm, List.take_of_length_le (by rw [elems_length hs]; omega),
        List.drop_eq_nil_of_le (by rw [elems_length ht]; omega), List.append_nil]
    · intro j hj
      rw [hm j, if_neg (by omega)]
  · rename_i he
    rw [ccAssert_false (by simpa using he)]; rfl

example : copyFrom [1, 2, 3, 4, 5] ⟨3, 2⟩ ⟨0, 2⟩ = .ok [1, 2, 3, 1, 2] := by decide +kernel

/-- **C57**, `fill_from`: copies as many elements as fit and returns the source's size. -/
theorem C57_fill_from (mem : List α) (dst src : Sp) (hs : Valid mem src) (ht : Valid mem dst)
    (hd : src.data + src.size ≤ dst.data ∨ dst.data + dst.size ≤ src.data) :
    ∃ mem', fillFrom mem dst src = .ok (mem', src.size) ∧ mem'.length = mem.length ∧
      elems mem' dst = (elems mem src).take dst.size ++ (elems mem dst).drop src.size ∧
      ∀ j, j < dst.data ∨ dst.data + dst.size ≤ j → mem'[j]? = mem[j]? := by
  unfold fillFrom
  obtain ⟨m, e, hl, hm⟩ := copyLoop_ok hd (if src.size < dst.size then src.size else dst.size) (i := 0) hs ht
    (by split <;> omega) (by split <;> omega)
  simp only [e]
  refine ⟨m, rfl, hl, ?_, ?_⟩
  · rw [copy_elems hs ht hl (by split <;> omega) (by split <;> omega) hm]
    have h1 := elems_length hs
    have h2 := elems_length ht
    split
    · rw [List.take_of_length_le (by omega), List.take_of_length_le (by omega)]
    · congr 1
      rw [List.drop_eq_nil_of_le (by omega), List.drop_eq_nil_of_le (by omega)]
  · intro j hj
    rw [hm j, if_neg (by split <;> omega)]

example : fillFrom [1, 2, 3, 4, 5] ⟨3, 2⟩ ⟨0, 3⟩ = .ok ([1, 2, 3, 1, 2], 3) ∧
    fillFrom [1, 2, 3, 4, 5] ⟨2, 3⟩ ⟨0, 1⟩ = .ok ([1, 2, 1, 4, 5], 1) := by decide +kernel

theorem atInt_ok {mem : List α} {s : Sp} (h : Valid mem s) {i : Int} (h0 : 0 ≤ i) (hi : i < s.size) :
    atInt mem s i = .ok ((elems mem s)[i.toNat]'(by rw [elems_length h]; omega)) := by
  have := at_ok h (i := i.toNat) (by omega)
  unfold at_ at this
  unfold atInt
  rw [if_neg (by omega)]
  have e : ((s.data : Int) + i).toNat = s.data + i.toNat := by omega
  rw [e]
  exact this

theorem toI64_small {x : Nat} (h : x < 2 ^ 63) : toI64 x = x := by
  unfold toI64
  have : x % 2 ^ 64 = x := Nat.mod_eq_of_lt (by omega)
  rw [this, if_pos h]

/-- **C57**, `clamped_span`: for every `int64_t` index of a non-empty span (of fewer than 2^63 elements), the access gives the element
at the index clamped to the valid range; an empty span is a contract failure. -/
theorem C57_clamped_span (mem : List α) (s : Sp) (h : Valid mem s) (hs : s.size < 2 ^ 63) (i : Int) :
    if s.size = 0 then clampedGet mem s i = .error .assert
    else ∃ (k : Nat) (a : α), clampedGet mem s i = .ok a ∧ (elems mem s)[k]? = some a ∧
      (i < 0 → k = 0) ∧ (0 ≤ i → i < s.size → (k : Int) = i) ∧ (s.size ≤ i → k + 1 = s.size) := by
  unfold clampedGet
  split
  · rename_i h0
    rw [ccAssert_false (by simpa using h0)]; rfl
  · rename_i h0
    rw [ccAssert_true (by simp; omega)]
    simp only [R.ok_bind]
    rw [toI64_small (by omega)]
    unfold clamp
    rw [ccAssert_true (by simp)]
    simp only [R.ok_bind]
    have hl := elems_length h
    split
    · refine ⟨0, _, atInt_ok h (by omega) (by omega), List.getElem?_eq_getElem (by omega), fun _ => rfl, ?_, ?_⟩ <;> omega
    · split
      · refine ⟨s.size - 1, _, atInt_ok h (by omega) (by omega), ?_, ?_, ?_, ?_⟩
        · have e : ((s.size - 1 : Nat) : Int).toNat = s.size - 1 := by omega
          simp only [e]
          exact List.getElem?_eq_getElem (by omega)
        all_goals omega
      · refine ⟨i.toNat, _, atInt_ok h (by omega) (by omega), List.getElem?_eq_getElem (by omega), ?_, ?_, ?_⟩ <;> omega

example : clampedGet [1, 2, 3] ⟨0, 3⟩ (-5) = .ok 1 ∧ clampedGet [1, 2, 3] ⟨0, 3⟩ 1 = .ok 2 ∧ clampedGet [1, 2, 3] ⟨0, 3⟩ 99 = .ok 3 := by
  decide +kernel

/-- **C57**, `wrapped_span`: for every `int64_t` index of a non-empty span (of fewer than 2^63 elements), the access gives the element
at the index modulo the size (so -1 is the last element); an empty span is a contract failure. -/
theorem C57_wrapped_span (mem : List α) (s : Sp) (h : Valid mem s) (hs : s.size < 2 ^ 63) (i : Int) :
    if s.size = 0 then wrappedGet mem s i = .error .assert
    else ∃ a, wrappedGet mem s i = .ok a ∧ (elems mem s)[(i % (s.size : Int)).toNat]? = some a := by
  unfold wrappedGet
  split
  · rename_i h0
    rw [ccAssert_false (by simpa using h0)]; rfl
  · rename_i h0
    rw [ccAssert_true (by simp; omega)]
    simp only [R.ok_bind]
    rw [toI64_small hs]
    have hl := elems_length h
    have hpos : (0 : Int) < s.size := by omega
    have hem := Int.emod_nonneg i (show (s.size : Int) ≠ 0 by omega)
    have hem2 := Int.emod_lt_of_pos i hpos
    have key : (if i.tmod (s.size : Int) < 0 then i.tmod (s.size : Int) + (s.size : Int) else i.tmod (s.size : Int)) = i % (s.size : Int) := by
      rw [Int.tmod_eq_emod, Int.natAbs_natCast]
      by_cases c : 0 ≤ i ∨ (s.size : Int) ∣ i
      · rw [if_pos c, if_neg (by omega)]; omega
      · rw [if_neg c, if_pos (by omega)]; omega
    rw [key]
    exact ⟨_, atInt_ok h hem hem2, List.getElem?_eq_getElem (by omega)⟩

example : wrappedGet [1, 2, 3] ⟨0, 3⟩ (-1) = .ok 3 ∧ wrappedGet [1, 2, 3] ⟨0, 3⟩ 3 = .ok 1 ∧ wrappedGet [1, 2, 3] ⟨0, 3⟩ (-7) = .ok 3 := by
  decide +kernel

/-! ### strided spans -/

theorem addrs_length (s : Ss) : (addrs s).length = s.size.toNat := by simp [addrs]

theorem addrs_getElem (s : Ss) {i : Nat} (h : i < (addrs s).length) : (addrs s)[i] = s.data + s.stride * BitVec.ofNat 64 i := by
  simp [addrs]

theorem ofNat_sub' {a : BitVec 64} {n : Nat} (h : n ≤ a.toNat) : BitVec.ofNat 64 (a.toNat - n) = a - BitVec.ofNat 64 n := by
  apply BitVec.eq_of_toNat_eq
  have := a.isLt
  rw [BitVec.toNat_ofNat, BitVec.toNat_sub, BitVec.toNat_ofNat]
  rw [Nat.mod_eq_of_lt (show n < 2 ^ 64 by omega), Nat.mod_eq_of_lt (by omega)]
  have : 2 ^ 64 - n + a.toNat = (a.toNat - n) + 2 ^ 64 := by omega
  rw [this, Nat.add_mod_right, Nat.mod_eq_of_lt (by omega)]

/-- **C57**, strided element access: `operator[]`, `front` and `back` give the designated address, or a contract failure. -/
theorem C57_strided_access (s : Ss) (i : BitVec 64) :
    (sGet s i = match (addrs s)[i.toNat]? with | some a => .ok a | none => .error .assert) ∧
    (sFront s = match (addrs s).head? with | some a => .ok a | none => .error .assert) ∧
    (sBack s = match (addrs s).getLast? with | some a => .ok a | none => .error .assert) := by
  have hl := addrs_length s
  refine ⟨?_, ?_, ?_⟩
  · unfold sGet
    by_cases hi : i.toNat < s.size.toNat
    · rw [ccAssert_true (by simpa [BitVec.lt_def] using hi), List.getElem?_eq_getElem (by omega), addrs_getElem]
      simp
    · rw [ccAssert_false (by simpa [BitVec.lt_def] using hi), List.getElem?_eq_none (by omega)]; rfl
  · unfold sFront
    by_cases hi : 0 < s.size.toNat
    · rw [ccAssert_true (by simpa [BitVec.lt_def] using hi), List.head?_eq_getElem?, List.getElem?_eq_getElem (by omega), addrs_getElem]
      simp
    · rw [ccAssert_false (by simpa [BitVec.lt_def] using hi), List.head?_eq_getElem?, List.getElem?_eq_none (by omega)]; rfl
  · unfold sBack
    rw [List.getLast?_eq_getElem?, hl]
    by_cases hi : 0 < s.size.toNat
    · rw [ccAssert_true (by simpa [BitVec.lt_def] using hi), List.getElem?_eq_getElem (by omega), addrs_getElem,
        ofNat_sub' (by omega)]
      rfl
    · rw [ccAssert_false (by simpa [BitVec.lt_def] using hi), List.getElem?_eq_none (by omega)]; rfl

example : sBack ⟨1000#64, 3#64, 8#64⟩ = .ok 1016#64 ∧ sBack ⟨1000#64, 3#64, -8#64⟩ = .ok 984#64 := by decide +kernel

/-- **C57**, strided sub-ranges. -/
theorem C57_strided_first_last (s : Ss) (n : BitVec 64) :
    (if n ≤ s.size then ∃ t, sFirst s n = .ok t ∧ addrs t = (addrs s).take n.toNat else sFirst s n = .error .assert) ∧
    (if n ≤ s.size then ∃ t, sLast s n = .ok t ∧ addrs t = (addrs s).drop (s.size.toNat - n.toNat) else sLast s n = .error .assert) ∧
    (if n ≤ s.size then ∃ t, sSubspanFrom s n = .ok t ∧ addrs t = (addrs s).drop n.toNat else sSubspanFrom s n = .error .assert) := by
  refine ⟨?_, ?_, ?_⟩
  · split
    · rename_i hn
      refine ⟨_, by unfold sFirst; rw [ccAssert_true (by simpa using hn)]; rfl, ?_⟩
      rw [BitVec.le_def] at hn
      apply List.ext_getElem
      · simp [addrs]; omega
      · intro i h1 h2
        rw [List.getElem_take, addrs_getElem, addrs_getElem]
    · rename_i hn
      unfold sFirst; rw [ccAssert_false (by simpa using hn)]; rfl
  · split
    · rename_i hn
      refine ⟨_, by unfold sLast; rw [ccAssert_true (by simpa using hn)]; rfl, ?_⟩
      rw [BitVec.le_def] at hn
      apply List.ext_getElem
      · simp [addrs]; omega
      · intro i h1 h2
        rw [List.getElem_drop, addrs_getElem, addrs_getElem]
        simp only
        rw [BitVec.add_assoc, ← BitVec.mul_add]
        congr 2
        rw [BitVec.ofNat_add, ofNat_sub' hn]
        simp
    · rename_i hn
      unfold sLast; rw [ccAssert_false (by simpa using hn)]; rfl
  · split
    · rename_i hn
      refine ⟨_, by unfold sSubspanFrom; rw [ccAssert_true (by simpa using hn)]; rfl, ?_⟩
      rw [BitVec.le_def] at hn
      apply List.ext_getElem
      · simp [addrs]
        have := s.size.isLt
        omega
      · intro i h1 h2
        rw [List.getElem_drop, addrs_getElem, addrs_getElem]
        simp only
        rw [BitVec.add_assoc, ← BitVec.mul_add]
        congr 2
        rw [BitVec.ofNat_add]
        simp
    · rename_i hn
      unfold sSubspanFrom; rw [ccAssert_false (by simpa using hn)]; rfl

/-- **C57 (partial)**, strided `subspan(offset, count)`, for sums that do not wrap around. -/
theorem C57_strided_subspan_partial (s : Ss) (o c : BitVec 64) (hw : o.toNat + c.toNat < 2 ^ 64) :
    if o.toNat + c.toNat ≤ s.size.toNat then ∃ t, sSubspan s o c = .ok t ∧ addrs t = ((addrs s).drop o.toNat).take c.toNat
    else sSubspan s o c = .error .assert := by
  have hsum : (o + c).toNat = o.toNat + c.toNat := by rw [BitVec.toNat_add, Nat.mod_eq_of_lt hw]
  unfold sSubspan
  split
  · rename_i hn
    refine ⟨_, by rw [ccAssert_true (by simp [BitVec.le_def, hsum]; omega)]; rfl, ?_⟩
    apply List.ext_getElem
    · simp [addrs]; omega
    · intro i h1 h2
      rw [List.getElem_take, List.getElem_drop, addrs_getElem, addrs_getElem]
      simp only
      rw [BitVec.add_assoc, ← BitVec.mul_add]
      congr 2
      rw [BitVec.ofNat_add]
      simp
  · rename_i hn
    rw [ccAssert_false (by simp [BitVec.le_def, hsum]; omega)]; rfl

/-- The same defect as in `span`: `subspan(1, SIZE_MAX)` of a strided span is accepted. -/
theorem C57_strided_subspan_wraps :
    sSubspan ⟨1000#64, 3#64, 8#64⟩ 1#64 (-1#64) = .ok ⟨1008#64, -1#64, 8#64⟩ := by decide +kernel

/-- **C57**, reversal: the designated addresses are reversed (also for the empty span), and reversing twice gives the same span. -/
theorem C57_strided_reversed (s : Ss) (hs : s.stride ≠ BitVec.intMin 64) :
    ∃ t, sReversed s = .ok t ∧ addrs t = (addrs s).reverse ∧ sReversed t = .ok s := by
  refine ⟨_, by unfold sReversed; rw [if_neg hs], ?_, ?_⟩
  · apply List.ext_getElem
    · simp [addrs]
    · intro i h1 h2
      have hi : i < s.size.toNat := by simpa [addrs] using h1
      rw [List.getElem_reverse, addrs_getElem, addrs_getElem]
      simp only [addrs_length]
      rw [show s.size.toNat - 1 - i = s.size.toNat - (1 + i) by omega, ofNat_sub' (by omega), BitVec.ofNat_add]
      rw [BitVec.neg_mul, BitVec.add_assoc]
      congr 1
      have e : s.size - (1#64 + BitVec.ofNat 64 i) = (s.size - 1#64) - BitVec.ofNat 64 i := by
        rw [BitVec.sub_eq_add_neg, BitVec.neg_add, BitVec.sub_eq_add_neg, BitVec.sub_eq_add_neg, BitVec.sub_eq_add_neg, BitVec.add_assoc]
      rw [e, BitVec.sub_eq_add_neg _ (BitVec.ofNat 64 i), BitVec.mul_add, BitVec.mul_neg]
  · unfold sReversed
    have hne : -s.stride ≠ BitVec.intMin 64 := by
      intro h
      apply hs
      have := congrArg (fun x => -x) h
      simp only [BitVec.neg_neg] at this
      rw [this]
      decide
    rw [if_neg hne]
    congr 1
    obtain ⟨d, n, st⟩ := s
    simp only [BitVec.neg_neg, Ss.mk.injEq, and_true]
    rw [BitVec.neg_mul, BitVec.add_assoc, ← BitVec.sub_eq_add_neg, BitVec.sub_self, BitVec.add_zero]

example : (8#64 : BitVec 64) ≠ BitVec.intMin 64 ∧ sReversed ⟨1000#64, 3#64, 8#64⟩ = .ok ⟨1016#64, 3#64, -8#64⟩ ∧
    addrs ⟨1016#64, 3#64, -8#64⟩ = [1016#64, 1008#64, 1000#64] := by decide +kernel

/-- **C57**, iteration: a range-for over a strided span visits the designated addresses in order, unless one of them is the null
address (contract failure). -/
theorem C57_strided_iteration (s : Ss) :
    sIter s = if 0#64 ∈ addrs s then .error .assert else .ok (addrs s) := by
  have hloop : ∀ (st : BitVec 64) (n : Nat) (p : BitVec 64), sIterLoop st p n =
      if 0#64 ∈ (List.range n).map (fun i => p + st * BitVec.ofNat 64 i) then .error .assert
      else .ok ((List.range n).map fun i => p + st * BitVec.ofNat 64 i) := by
    intro st n
    induction n with
    | zero => intro p; rfl
    | succ n ih =>
      intro p
      rw [sIterLoop, List.range_succ_eq_map, List.map_cons, List.map_map]
      have e : ((fun i => p + st * BitVec.ofNat 64 i) ∘ Nat.succ) = fun i => (p + st) + st * BitVec.ofNat 64 i := by
        funext i
        simp only [Function.comp, Nat.succ_eq_add_one]
        rw [BitVec.ofNat_add, BitVec.mul_add, BitVec.add_assoc]
        congr 1
        rw [BitVec.add_comm]
        congr 1
        simp
      rw [e, ih (p + st)]
      simp only [BitVec.mul_zero, BitVec.add_zero, List.mem_cons]
      by_cases hp : p = 0#64
      · rw [ccAssert_false (by simpa using hp), if_pos (Or.inl hp.symm)]; rfl
      · rw [ccAssert_true (by simpa using hp)]
        simp only [R.ok_bind]
        have hp' : ¬ 0#64 = p := fun h => hp h.symm
        split
        · rename_i hm; rw [if_pos (Or.inr hm)]; rfl
        · rename_i hm
          rw [if_neg (by rintro (h | h) <;> contradiction)]; rfl
  exact hloop s.stride s.size.toNat s.data

example : sIter ⟨1000#64, 3#64, -8#64⟩ = .ok [1000#64, 992#64, 984#64] := by decide +kernel

end Verif.Span
