import Verif.CConv.Spec

/-!
**C118** Converting a capped box of a derived class to one of a base class keeps the object, inside the storage of both.
-/
namespace Verif.CConv
open Spec

section
variable {T U D : Cls} {obj junk old : List Byte}

theorem same_size (h : Holds U D obj junk) : D.size = U.size ∧ junk = [] := by
  have h1 := h.room
  have h2 := h.derived.size
  have h3 := h.len
  rw [List.length_append] at h1
  exact ⟨by omega, List.eq_nil_of_length_eq_zero (by omega)⟩

/-- **C118**, the part that holds: if the object has as many bytes as the destination — or if the base class is not trivially movable, at most as
many — and the derived class is trivial where the base class is, the destination holds the object afterwards and destroys it. -/
theorem C118_convert_partial (hT : Derived T U) (h : Holds U D obj junk) (hsize : U.size ≤ old.length) (htriv : T.trivMove = true → old.length = U.size ∧ U.trivMove = true)
    (hd : T.trivDtor = true → U.trivDtor = true) :
    ∃ b s, convert T old (make U D obj junk) = .ok (b, s) ∧ Moved D obj b ∧ Destroyed D T obj b ∧ b.data.length = old.length := by
  obtain ⟨hs, rfl⟩ := same_size h
  have ho := h.len
  have hlen := h.okD.len obj ho
  have hdt : D.trivDtor = T.trivDtor := by
    have h1 := h.dtor; have h2 := h.derived.dtor; have h3 := hT.dtor
    cases hD : D.trivDtor <;> cases hTT : T.trivDtor <;> simp_all
  have hdu : U.trivDtor = T.trivDtor := by
    have h1 := h.dtor; have h2 := h.derived.dtor; have h3 := hT.dtor
    cases hU : U.trivDtor <;> cases hTT : T.trivDtor <;> simp_all
  unfold convert takeOver
  by_cases ht : T.trivMove = true
  · obtain ⟨hM, hU⟩ := htriv ht
    have hmv := h.okD.triv (h.move hU) obj
    rw [if_pos ht]
    unfold memcpy make
    dsimp only
    rw [if_pos (by simp; omega), R.ok_bind]
    rw [R.ok_bind]
    have e1 : List.take old.length (obj ++ []) = obj := by rw [List.append_nil]; exact List.take_of_length_le (by omega)
    have e2 : obj.take D.size = obj := List.take_of_length_le (by omega)
    have e3 : (obj ++ old.drop old.length).take D.size = obj := by rw [List.drop_length, List.append_nil, e2]
    by_cases htd : T.trivDtor = true
    · rw [if_pos htd]
      refine ⟨_, _, rfl, ⟨?_, ?_⟩, ?_, ?_⟩
      · dsimp only; rw [e1, e3, hmv]
      · dsimp only; rw [e1]; simp; omega
      · unfold Destroyed destroy; rw [if_pos htd, hdt, if_pos htd]
      · dsimp only; rw [e1]; simp; omega
    · rw [if_neg htd]
      refine ⟨_, _, rfl, ⟨?_, ?_⟩, ?_, ?_⟩
      · dsimp only; rw [e1, e3, hmv]
      · dsimp only; rw [e1]; simp; omega
      · unfold Destroyed destroy
        rw [if_neg htd, hdt, if_neg htd]
        dsimp only
        rw [hdu, if_neg htd, e1]
        dsimp only
        rw [e3, hmv]
      · dsimp only; rw [e1]; simp; omega
  · rw [if_neg ht]
    have hU : ¬ U.trivMove = true := fun hu => ht (hT.move hu)
    unfold make
    dsimp only
    rw [if_neg hU]
    dsimp only
    unfold moveObject
    rw [if_pos (by simp; omega), R.ok_bind]
    dsimp only
    rw [R.ok_bind]
    have e1 : List.take D.size (obj ++ []) = obj := by rw [List.append_nil]; exact List.take_of_length_le (by omega)
    have e3 : ((D.move obj).1 ++ old.drop D.size).take D.size = (D.move obj).1 := by
      rw [List.take_append_of_le_length (by omega)]; exact List.take_of_length_le (by omega)
    by_cases htd : T.trivDtor = true
    · rw [if_pos htd]
      refine ⟨_, _, rfl, ⟨?_, ?_⟩, ?_, ?_⟩
      · dsimp only; rw [e1, e3]
      · dsimp only; rw [e1]; simp; omega
      · unfold Destroyed destroy; rw [if_pos htd, hdt, if_pos htd]
      · dsimp only; rw [e1]; simp; omega
    · rw [if_neg htd]
      refine ⟨_, _, rfl, ⟨?_, ?_⟩, ?_, ?_⟩
      · dsimp only; rw [e1, e3]
      · dsimp only; rw [e1]; simp; omega
      · unfold Destroyed destroy
        rw [if_neg htd, hdt, if_neg htd]
        dsimp only
        rw [hdu, if_neg htd, e1]
        dsimp only
        rw [e3]
      · dsimp only; rw [e1]; simp; omega

/-- **C118** Exactly when a conversion leaves the storage: a destination bigger than the object, if the base class is trivially movable (bytes behind
the source are read), or a smaller one, if it is not (bytes behind the destination are written). -/
theorem C118_out_of_bounds (hT : Derived T U) (h : Holds U D obj junk) :
    convert T old (make U D obj junk) = .error .ub ↔ (T.trivMove = true ∧ U.size < old.length) ∨ (T.trivMove = false ∧ old.length < U.size) := by
  obtain ⟨hs, rfl⟩ := same_size h
  have ho := h.len
  unfold convert takeOver
  by_cases ht : T.trivMove = true
  · rw [if_pos ht]
    unfold memcpy make
    dsimp only
    by_cases hc : old.length ≤ U.size
    · rw [if_pos (by simp; omega), R.ok_bind]
      rw [R.ok_bind]
      constructor
      · intro hh; split at hh <;> cases hh
      · rintro (⟨_, h2⟩ | ⟨h1, _⟩)
        · omega
        · rw [ht] at h1; cases h1
    · rw [if_neg (by simp; omega), R.error_bind]
      exact ⟨fun _ => .inl ⟨ht, by omega⟩, fun _ => rfl⟩
  · rw [if_neg ht]
    have hU : ¬ U.trivMove = true := fun hu => ht (hT.move hu)
    have ht' : T.trivMove = false := Bool.eq_false_iff.mpr ht
    unfold make
    dsimp only
    rw [if_neg hU]
    dsimp only
    unfold moveObject
    by_cases hc : U.size ≤ old.length
    · rw [if_pos (by simp; omega), R.ok_bind]
      dsimp only
      rw [R.ok_bind]
      constructor
      · intro hh; split at hh <;> cases hh
      · rintro (⟨h1, _⟩ | ⟨_, h2⟩)
        · exact absurd h1 ht
        · omega
    · rw [if_neg (by simp; omega), R.error_bind]
      exact ⟨fun _ => .inr ⟨ht', by omega⟩, fun _ => rfl⟩

/-- **C118** A trivially movable base class and a destination that is too small: the object is cut off. -/
theorem C118_cut_off (h : Holds U D obj junk) (ht : T.trivMove = true) (hsmall : old.length < U.size) :
    ∃ b s, convert T old (make U D obj junk) = .ok (b, s) ∧ ¬ Moved D obj b := by
  obtain ⟨hs, rfl⟩ := same_size h
  have ho := h.len
  unfold convert takeOver
  rw [if_pos ht]
  unfold memcpy make
  dsimp only
  rw [if_pos (by simp; omega), R.ok_bind]
  rw [R.ok_bind]
  split
  · refine ⟨_, _, rfl, fun hm => ?_⟩
    have := hm.2
    simp at this; omega
  · refine ⟨_, _, rfl, fun hm => ?_⟩
    have := hm.2
    simp at this; omega

/-- **C118** A base class without destructor and a derived class with one: the converted object is never destroyed. -/
theorem C118_not_destroyed (ht : T.trivDtor = true) (hd : D.trivDtor = false) (b s : Box) (_ : convert T old (make U D obj junk) = .ok (b, s)) :
    ¬ Destroyed D T obj b := by
  unfold Destroyed destroy
  rw [if_pos ht, hd]
  intro hh; cases hh

/-- **C118** The source destroys nothing afterwards (its destructor went to the destination, also if the object left behind would need one). -/
theorem C118_source (hT : Derived T U) (hd : T.trivDtor = true → U.trivDtor = true) (b s : Box) (hc : convert T old (make U D obj junk) = .ok (b, s)) :
    destroy U s = [] := by
  unfold convert at hc
  rw [R.bind_eq_ok] at hc
  obtain ⟨⟨b1, s1⟩, _, hc⟩ := hc
  dsimp only at hc
  unfold destroy
  by_cases htd : T.trivDtor = true
  · rw [if_pos (hd htd)]
  · rw [if_neg htd] at hc
    have e := (Prod.mk.inj (Except.ok.inj hc)).2
    rw [if_neg (fun hu => htd (hT.dtor hu)), ← e]

/-- **C118** If the base class is not trivially movable, the destination can be moved on with the move constructor of the object. -/
theorem C118_again (hT : Derived T U) (h : Holds U D obj junk) (ht : T.trivMove = false) (b s : Box) (hc : convert T old (make U D obj junk) = .ok (b, s))
    (next : List Byte) (hn : D.size ≤ next.length) :
    ∃ b' s', convert T next b = .ok (b', s') ∧ b'.data.take D.size = (D.move (D.move obj).1).1 := by
  have ht' : ¬ T.trivMove = true := by rw [ht]; decide
  have hU : ¬ U.trivMove = true := fun hu => ht' (hT.move hu)
  have ho := h.len
  have hlen := h.okD.len obj ho
  have hlen2 := h.okD.len _ hlen.1
  have key : b.move = some D ∧ b.data.take D.size = (D.move obj).1 ∧ D.size ≤ b.data.length := by
    unfold convert takeOver make at hc
    dsimp only at hc
    rw [if_neg ht', if_neg hU] at hc
    dsimp only at hc
    unfold moveObject at hc
    by_cases hr : D.size ≤ old.length ∧ D.size ≤ (obj ++ junk).length
    · rw [if_pos hr, R.ok_bind] at hc
      dsimp only at hc
      rw [R.ok_bind] at hc
      have e1 : List.take D.size (obj ++ junk) = obj := by
        rw [List.take_append_of_le_length (by omega)]; exact List.take_of_length_le (by omega)
      rw [e1] at hc
      have e2 : ((D.move obj).1 ++ old.drop D.size).take D.size = (D.move obj).1 := by
        rw [List.take_append_of_le_length (by omega)]; exact List.take_of_length_le (by omega)
      have e3 : D.size ≤ ((D.move obj).1 ++ old.drop D.size).length := by rw [List.length_append]; omega
      by_cases htd : T.trivDtor = true
      · rw [if_pos htd] at hc
        have e := (Prod.mk.inj (Except.ok.inj hc)).1
        rw [← e]
        exact ⟨rfl, e2, e3⟩
      · rw [if_neg htd] at hc
        have e := (Prod.mk.inj (Except.ok.inj hc)).1
        rw [← e]
        exact ⟨rfl, e2, e3⟩
    · rw [if_neg hr] at hc
      cases hc
  obtain ⟨k1, k2, k3⟩ := key
  unfold convert takeOver
  rw [if_neg ht', k1]
  dsimp only
  unfold moveObject
  rw [if_pos ⟨hn, k3⟩, R.ok_bind, k2]
  dsimp only
  rw [R.ok_bind]
  have e2 : ((D.move (D.move obj).1).1 ++ next.drop D.size).take D.size = (D.move (D.move obj).1).1 := by
    rw [List.take_append_of_le_length (by omega)]; exact List.take_of_length_le (by omega)
  by_cases htd : T.trivDtor = true
  · rw [if_pos htd]
    exact ⟨_, _, rfl, e2⟩
  · rw [if_neg htd]
    exact ⟨_, _, rfl, e2⟩

end

/-! ### examples -/

/-- A polymorphic base class of 8 bytes. -/
def base (triv : Bool) : Cls := ⟨0, 8, triv, triv, fun l => (l, l)⟩
/-- A derived class of 16 bytes; after a move the old object is zero. -/
def derived (triv : Bool) : Cls := ⟨1, 16, triv, triv, fun l => if triv then (l, l) else (l, List.replicate 16 0#8)⟩

/-- An object. -/
def sample : List Byte := (List.range 16).map (BitVec.ofNat 8)

theorem derived_holds (triv : Bool) : Holds (derived triv) (derived triv) sample [] where
  derived := ⟨Nat.le_refl _, id, id⟩
  okU := ⟨by show 0 < 16; decide, fun h l => by show (if triv then (l, l) else _) = _; exact if_pos h, fun l hl => by
    show (if triv then (l, l) else (l, List.replicate 16 0#8)).1.length = 16 ∧ (if triv then (l, l) else (l, List.replicate 16 0#8)).2.length = 16
    have hl' : l.length = 16 := hl
    clear hl
    cases triv <;> simp [hl']⟩
  okD := ⟨by show 0 < 16; decide, fun h l => by show (if triv then (l, l) else _) = _; exact if_pos h, fun l hl => by
    show (if triv then (l, l) else (l, List.replicate 16 0#8)).1.length = 16 ∧ (if triv then (l, l) else (l, List.replicate 16 0#8)).2.length = 16
    have hl' : l.length = 16 := hl
    clear hl
    cases triv <;> simp [hl']⟩
  len := rfl
  room := rfl
  move := id
  dtor := id

theorem base_derived (triv : Bool) : Derived (base triv) (derived triv) := ⟨by show 8 ≤ 16; decide, id, id⟩

/-- `capped_box<Base, 64>` from `capped_box<Derived>` with a virtual destructor works … -/
example : ∃ b s, convert (base false) (List.replicate 64 9#8) (make (derived false) (derived false) sample []) = .ok (b, s) ∧ Moved (derived false) sample b ∧
    Destroyed (derived false) (base false) sample b ∧ b.data.length = 64 :=
  C118_convert_partial (base_derived false) (derived_holds false) (by decide) (fun h => by cases h) (fun h => by cases h)

/-- … with trivial classes it reads 48 bytes too many. -/
example : convert (base true) (List.replicate 64 9#8) (make (derived true) (derived true) sample []) = .error .ub :=
  (C118_out_of_bounds (base_derived true) (derived_holds true)).mpr (.inl ⟨rfl, by decide⟩)

/-- `capped_box<Base>` from `capped_box<Derived>` compiles: it writes 8 bytes too many, … -/
example : convert (base false) (List.replicate 8 9#8) (make (derived false) (derived false) sample []) = .error .ub :=
  (C118_out_of_bounds (base_derived false) (derived_holds false)).mpr (.inr ⟨rfl, by decide⟩)

/-- … or, with trivial classes, cuts off the object. -/
example : ∃ b s, convert (base true) (List.replicate 8 9#8) (make (derived true) (derived true) sample []) = .ok (b, s) ∧ ¬ Moved (derived true) sample b :=
  C118_cut_off (derived_holds true) rfl (by decide)

example : ∃ b s, convert (base true) (List.replicate 16 9#8) (make (derived false) (derived false) sample []) = .ok (b, s) ∧ ¬ Destroyed (derived false) (base true) sample b :=
  ⟨_, _, rfl, C118_not_destroyed (T := base true) (U := derived false) (D := derived false) (junk := []) (old := List.replicate 16 9#8) rfl rfl _ _ rfl⟩

example : ∃ b s b' s', convert (base false) (List.replicate 64 9#8) (make (derived false) (derived false) sample []) = .ok (b, s) ∧ destroy (derived false) s = [] ∧
    convert (base false) (List.replicate 32 7#8) b = .ok (b', s') ∧ b'.data.take 16 = sample := by
  obtain ⟨b, s, h, _⟩ := C118_convert_partial (T := base false) (old := List.replicate 64 9#8) (base_derived false) (derived_holds false) (by decide) (fun h => by cases h) (fun h => by cases h)
  obtain ⟨b', s', h1, h2⟩ := C118_again (base_derived false) (derived_holds false) rfl b s h (List.replicate 32 7#8) (by decide)
  exact ⟨b, s, b', s', h, C118_source (base_derived false) (fun h => by cases h) b s h, h1, h2⟩

end Verif.CConv
