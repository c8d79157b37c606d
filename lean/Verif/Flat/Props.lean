import Verif.Flat.Spec

/-! Property theorems for `cc::flat_vector_of_vector`: C23. -/
namespace Verif.Flat

variable {α : Type}

/-- Start indices of the inner lists when the first one starts at `o`. -/
def starts (o : Nat) : List (List α) → List Nat
  | [] => []
  | l :: ls => o :: starts (o + l.length) ls

/-- The flat representation of a list of lists. -/
structure Rel (f : Flat α) (s : List (List α)) : Prop where
  elements : f.elements = s.flatten
  start : f.start = starts 0 s

theorem starts_length (s : List (List α)) : ∀ o, (starts o s).length = s.length := by
  induction s with
  | nil => intro o; rfl
  | cons l ls ih => intro o; simp [starts, ih]

theorem starts_append (s t : List (List α)) : ∀ o, starts o (s ++ t) = starts o s ++ starts (o + s.flatten.length) t := by
  induction s with
  | nil => intro o; simp [starts]
  | cons l ls ih => intro o; simp [starts, ih, Nat.add_assoc]

theorem starts_get (s : List (List α)) : ∀ o i (h : i < (starts o s).length), (starts o s)[i] = o + (s.take i).flatten.length := by
  induction s with
  | nil => intro o i h; simp [starts] at h
  | cons l ls ih =>
    intro o i h
    cases i with
    | zero => simp [starts]
    | succ i => simp [starts, ih, Nat.add_assoc]

theorem range_ok {f : Flat α} {pre l post : List α} (h : f.elements = pre ++ l ++ post) {b e : Nat} (hb : b = pre.length)
    (he : e = pre.length + l.length) : range f b e = .ok l := by
  unfold range
  subst hb he
  rw [if_pos (by rw [h]; simp), h]
  congr 1
  rw [List.append_assoc, List.drop_left, show pre.length + l.length - pre.length = l.length by omega, List.take_left]

theorem iterFrom_ok {f : Flat α} (s : List (List α)) : ∀ pre : List α, f.elements = pre ++ s.flatten →
    iterFrom f (starts pre.length s) = .ok s := by
  induction s with
  | nil => intro pre _; rfl
  | cons l ls ih =>
    intro pre h
    cases ls with
    | nil =>
      simp only [starts, iterFrom]
      rw [range_ok (pre := pre) (l := l) (post := []) (by simpa using h) rfl (by rw [h]; simp)]
      rfl
    | cons m ms =>
      simp only [starts, iterFrom]
      rw [range_ok (pre := pre) (l := l) (post := (m :: ms).flatten) (by simpa using h) rfl rfl]
      simp only [R.ok_bind]
      have := ih (pre ++ l) (by simpa using h)
      simp only [List.length_append, starts] at this
      rw [this]
      rfl

theorem appendLast_ok (s : List (List α)) (as : List α) : ∀ {s'}, Spec.appendLast s as = some s' →
    s'.flatten = s.flatten ++ as ∧ (∀ o, starts o s' = starts o s) ∧ s ≠ [] := by
  induction s with
  | nil => intro s' h; simp [Spec.appendLast] at h
  | cons l ls ih =>
    intro s' h
    cases ls with
    | nil =>
      simp only [Spec.appendLast, Option.some.injEq] at h
      subst h
      simp [starts]
    | cons m ms =>
      simp only [Spec.appendLast, Option.map_eq_some_iff] at h
      obtain ⟨t, ht, rfl⟩ := h
      obtain ⟨h1, h2, -⟩ := ih ht
      refine ⟨by simp only [List.flatten_cons, h1]; simp, ?_, by simp⟩
      intro o
      simp only [starts, h2]

theorem appendLast_none (s : List (List α)) (as : List α) (h : Spec.appendLast s as = none) : s = [] := by
  induction s with
  | nil => rfl
  | cons l ls ih =>
    cases ls with
    | nil => simp [Spec.appendLast] at h
    | cons m ms =>
      simp only [Spec.appendLast, Option.map_eq_none_iff] at h
      exact absurd (ih h) (by simp)

theorem get_ok {f : Flat α} {s : List (List α)} (h : Rel f s) (i : Nat) :
    get f i = match s[i]? with | some l => .ok l | none => .error .assert := by
  unfold get
  have hlen : f.start.length = s.length := by rw [h.start, starts_length]
  by_cases hi : i < s.length
  · rw [dif_pos (by omega), List.getElem?_eq_getElem hi]
    have e1 : f.elements = (s.take i).flatten ++ s[i] ++ (s.drop (i + 1)).flatten := by
      rw [h.elements]
      have hsplit : s = s.take i ++ s[i] :: s.drop (i + 1) := by
        rw [List.getElem_cons_drop, List.take_append_drop]
      have := congrArg List.flatten hsplit
      rw [List.flatten_append, List.flatten_cons] at this
      rw [List.append_assoc]; exact this
    have s1 : ∀ h', f.start[i]'h' = (s.take i).flatten.length := by
      intro h'
      have := starts_get s 0 i (by rw [starts_length]; exact hi)
      simp only [h.start, this]; omega
    split
    · rename_i h'
      refine range_ok e1 (s1 _) ?_
      have := starts_get s 0 (i + 1) (by rw [starts_length]; omega)
      simp only [h.start, this]
      rw [List.take_succ_eq_append_getElem hi, List.flatten_append, List.length_append]
      simp only [List.flatten_cons, List.flatten_nil, List.append_nil]
      omega
    · rename_i h'
      refine range_ok e1 (s1 _) ?_
      rw [e1, List.drop_eq_nil_of_le (by omega)]
      simp
  · rw [dif_neg (by omega), List.getElem?_eq_none (by omega)]

theorem step_ok {w : Nat} {f : Flat α} {s : List (List α)} (h : Rel f s) (hw : s.flatten.length < 2 ^ w) (op : Op α) :
    match Spec.step s op with
    | none => step w f op = .error .assert
    | some (s', o) => ∃ f', step w f op = .ok (f', o) ∧ Rel f' s' ∧
        s'.flatten.length ≤ s.flatten.length + Spec.added [op] := by
  have hemp : f.start.isEmpty = s.isEmpty := by
    rw [h.start]; cases s <;> rfl
  have hpush : ∀ as : List α, match (Spec.appendLast s as).map (·, (Obs.none : Obs α)) with
      | none => pushElements f as = .error .assert
      | some (s', _) => pushElements f as = .ok { f with elements := f.elements ++ as } ∧
          Rel { f with elements := f.elements ++ as } s' ∧ s'.flatten.length ≤ s.flatten.length + as.length := by
    intro as
    cases ha : Spec.appendLast s as with
    | none =>
      have := appendLast_none s as ha
      simp only [Option.map_none]
      unfold pushElements
      rw [hemp, this]; rfl
    | some s' =>
      obtain ⟨h1, h2, h3⟩ := appendLast_ok s as ha
      simp only [Option.map_some]
      refine ⟨?_, ⟨by rw [h1, h.elements], by rw [h2]; exact h.start⟩, by rw [h1]; simp⟩
      unfold pushElements
      rw [hemp, ccAssert_true (by cases s <;> simp_all)]
      rfl
  cases op with
  | startNewRange =>
    refine ⟨_, rfl, ⟨by simp [startNewRange, h.elements], ?_⟩, by simp [Spec.added]⟩
    simp only [startNewRange]
    rw [starts_append, h.start, h.elements, Nat.mod_eq_of_lt hw]
    simp [starts]
  | pushElement a =>
    have := hpush [a]
    simp only [Spec.step, step]
    have e : pushElement f a = pushElements f [a] := rfl
    rw [e]
    cases ha : Spec.appendLast s [a] with
    | none => rw [ha] at this; simp only [Option.map_none] at this ⊢; rw [this]; rfl
    | some s' =>
      rw [ha] at this
      simp only [Option.map_some] at this ⊢
      rw [this.1]
      exact ⟨_, rfl, this.2.1, by simpa [Spec.added] using this.2.2⟩
  | pushElements as =>
    have := hpush as
    simp only [Spec.step, step]
    cases ha : Spec.appendLast s as with
    | none => rw [ha] at this; simp only [Option.map_none] at this ⊢; rw [this]; rfl
    | some s' =>
      rw [ha] at this
      simp only [Option.map_some] at this ⊢
      rw [this.1]
      exact ⟨_, rfl, this.2.1, by simpa [Spec.added] using this.2.2⟩
  | clear => exact ⟨_, rfl, ⟨rfl, rfl⟩, by simp⟩
  | get i =>
    simp only [Spec.step, step]
    rw [get_ok h]
    cases hi : s[i]? with
    | none => rfl
    | some l => exact ⟨f, rfl, h, by simp⟩
  | iterate =>
    simp only [Spec.step, step, iter]
    have := iterFrom_ok s [] (f := f) (by simpa using h.elements)
    rw [h.start]
    simp only [List.length_nil] at this
    rw [this]
    exact ⟨f, rfl, h, by simp⟩
  | elements => exact ⟨f, by simp only [step]; rw [h.elements], h, by simp⟩
  | size => exact ⟨f, by simp only [step, size]; rw [h.start, starts_length], h, by simp⟩
  | empty => exact ⟨f, by simp only [step, isEmpty]; rw [hemp], h, by simp⟩

theorem added_cons (op : Op α) (ops : List (Op α)) : Spec.added (op :: ops) = Spec.added [op] + Spec.added ops := by
  cases op <;> simp [Spec.added]

theorem run_ok {w : Nat} (ops : List (Op α)) : ∀ {f : Flat α} {s : List (List α)}, Rel f s →
    s.flatten.length + Spec.added ops < 2 ^ w →
    match Spec.run s ops with
    | none => run w f ops = .error .assert
    | some (s', os) => ∃ f', run w f ops = .ok (f', os) ∧ Rel f' s' := by
  induction ops with
  | nil => intro f s h _; exact ⟨f, rfl, h⟩
  | cons op ops ih =>
    intro f s h hw
    rw [added_cons] at hw
    have hst := step_ok h (w := w) (by omega) op
    simp only [Spec.run, run]
    cases hs : Spec.step s op with
    | none =>
      rw [hs] at hst
      simp only at hst
      simp only [Option.bind_eq_bind, Option.bind_none]
      rw [hst]; rfl
    | some p =>
      obtain ⟨s1, o⟩ := p
      rw [hs] at hst
      obtain ⟨f1, e, h1, hl⟩ := hst
      have h2 := ih h1 (by omega)
      simp only [Option.bind_eq_bind, Option.bind_some]
      rw [e]
      simp only [R.ok_bind]
      cases hs2 : Spec.run s1 ops with
      | none => rw [hs2] at h2; simp only [Option.bind_none] at h2 ⊢; rw [h2]; rfl
      | some p2 =>
        obtain ⟨s2, os⟩ := p2
        rw [hs2] at h2
        obtain ⟨f2, e2, h2⟩ := h2
        simp only [Option.bind_some]
        rw [e2]
        exact ⟨f2, rfl, h2⟩

/-- A history with empty inner lists at the beginning, in the middle and at the end, used in the examples. -/
def demoOps : List (Op Nat) :=
  [.empty, .startNewRange, .startNewRange, .pushElement 1, .pushElements [2, 3], .startNewRange, .startNewRange, .pushElement 4,
   .startNewRange, .get 0, .get 1, .get 4, .iterate, .elements, .size]

/-- **C23.** For every history that adds fewer elements than the index type can count (for the default `size_t` index: fewer than
2^64), the container behaves like a list of lists: subscript, iteration, size, emptiness and the flat element array agree, adding an
element to no range or subscripting out of range is a contract failure, and no span leaves the element array. -/
theorem C23_flat_vector_is_list_of_lists (w : Nat) (ops : List (Op α)) (hw : Spec.added ops < 2 ^ w) :
    match Spec.run [] ops with
    | none => run w Flat.empty ops = .error .assert
    | some (s, os) => ∃ f, run w Flat.empty ops = .ok (f, os) ∧ f.elements = s.flatten ∧ size f = s.length ∧ iter f = .ok s ∧
        ∀ i (hi : i < s.length), get f i = .ok s[i] := by
  have h := run_ok (w := w) ops (f := Flat.empty) (s := []) ⟨rfl, rfl⟩ (by simpa using hw)
  cases hs : Spec.run [] ops with
  | none => rw [hs] at h; exact h
  | some p =>
    rw [hs] at h
    obtain ⟨f, e, r⟩ := h
    refine ⟨f, e, r.elements, by rw [size, r.start, starts_length], ?_, ?_⟩
    · have := iterFrom_ok p.1 [] (f := f) (by simpa using r.elements)
      rw [iter, r.start]; exact this
    · intro i hi
      rw [get_ok r, List.getElem?_eq_getElem hi]

example : Spec.added demoOps < 2 ^ 64 ∧ (Spec.run [] demoOps).map (fun p => (p.1, p.2.drop 9)) =
    some ([[], [1, 2, 3], [], [4], []], [.list [], .list [1, 2, 3], .list [], .lists [[], [1, 2, 3], [], [4], []],
      .list [1, 2, 3, 4], .nat 5]) := by decide +kernel

/-- **C23**, what the index type bounds: with an 8 bit index type and 256 elements, the next range starts at index 0 and shows all
elements although it is empty. (The bound in the theorem above cannot be dropped.) -/
theorem C23_narrow_index_wraps :
    let ops : List (Op Nat) := [.startNewRange, .pushElements (List.replicate 256 7), .startNewRange, .get 1]
    (Spec.run [] ops).map (fun p => p.2.getLast?) = some (some (.list [])) ∧
      (match run 8 Flat.empty ops with | .ok (_, os) => os.getLast? | _ => none) = some (.list (List.replicate 256 7)) := by
  decide +kernel

end Verif.Flat
