import Verif.Tuple.Model
/-!
# C108: tuples and pairs are the sequence of their components

The model is `Verif/Tuple/Model.lean`; the specification of a tuple is a function from the positions to the components.
-/
namespace Verif.Tuple

variable {n : Nat} {T U : Fin n → Type}

theorem get_make : {n : Nat} → {T : Fin n → Type} → (v : (i : Fin n) → T i) → (i : Fin n) → get (make v) i = v i
  | 0, _, _, i => i.elim0
  | n + 1, T, v, i => by
    refine Fin.cases ?_ (fun j => ?_) i
    · rfl
    · exact get_make (fun j => v j.succ) j

theorem tup_ext : {n : Nat} → {T : Fin n → Type} → (s t : Tup n T) → (∀ i, get s i = get t i) → s = t
  | 0, _, _, _, _ => rfl
  | n + 1, T, s, t, h => by
    have h0 : s.1 = t.1 := h 0
    have h1 : s.2 = t.2 := tup_ext s.2 t.2 fun i => h i.succ
    exact Prod.ext h0 h1

theorem get_set_same : {n : Nat} → {T : Fin n → Type} → (t : Tup n T) → (i : Fin n) → (x : T i) → get (set t i x) i = x
  | 0, _, _, i, _ => i.elim0
  | n + 1, T, t, i, x => by
    revert x
    refine Fin.cases (fun x => ?_) (fun j x => ?_) i
    · rfl
    · exact get_set_same t.2 j x

theorem get_set_ne : {n : Nat} → {T : Fin n → Type} → (t : Tup n T) → (i j : Fin n) → (x : T i) → j ≠ i → get (set t i x) j = get t j
  | 0, _, _, i, _, _, _ => i.elim0
  | n + 1, T, t, i, j, x, h => by
    revert x h
    refine Fin.cases (fun x => ?_) (fun i' x => ?_) i
    · refine Fin.cases (fun h => absurd rfl h) (fun j' _ => ?_) j
      rfl
    · refine Fin.cases (fun _ => ?_) (fun j' h => ?_) j
      · rfl
      · exact get_set_ne t.2 i' j' x fun e => h (congrArg Fin.succ e)

/-- **C108 (components).** A tuple made of values has exactly these values at their positions; it is determined by them; writing one component changes this one and no other;
the type of a position is the one given for it. -/
theorem C108_components (v : (i : Fin n) → T i) (t : Tup n T) :
    (∀ i, get (make v) i = v i) ∧ (∀ s, (∀ i, get s i = get t i) → s = t) ∧
    (∀ i x, get (set t i x) i = x ∧ ∀ j, j ≠ i → get (set t i x) j = get t j) ∧ ∀ i, tupleElement T i = T i := by
  refine ⟨get_make v, fun s h => tup_ext s t h, fun i x => ⟨get_set_same t i x, fun j h => get_set_ne t i j x h⟩, ?_⟩
  clear v t
  induction n with
  | zero => exact fun i => i.elim0
  | succ n ih => exact fun i => Fin.cases rfl (fun j => ih (T := fun k => T k.succ) j) i

theorem foldAnd_true (es : List (Unit → R Bool)) : foldAnd es = .ok true ↔ ∀ e ∈ es, e () = .ok true := by
  induction es with
  | nil => simp [foldAnd]
  | cons e es ih =>
    simp only [foldAnd, List.forall_mem_cons, ← ih]
    cases e () with
    | error f => simp
    | ok b => cases b <;> simp

theorem foldAnd_stop {es : List (Unit → R Bool)} {pre post : List (Unit → R Bool)} {e : Unit → R Bool} (h : es = pre ++ e :: post) (h1 : ∀ x ∈ pre, x () = .ok true) (h2 : e () ≠ .ok true) :
    foldAnd es = e () := by
  subst h
  induction pre with
  | nil =>
    simp only [List.nil_append, foldAnd]
    cases he : e () with
    | error f => rfl
    | ok b => cases b with
      | true => exact absurd he h2
      | false => rfl
  | cons x pre ih =>
    simp only [List.cons_append, foldAnd, h1 x List.mem_cons_self, R.ok_bind, if_true]
    exact ih fun y hy => h1 y (List.mem_cons_of_mem _ hy)

theorem foldOr_false (es : List (Unit → R Bool)) : foldOr es = .ok false ↔ ∀ e ∈ es, e () = .ok false := by
  induction es with
  | nil => simp [foldOr]
  | cons e es ih =>
    simp only [foldOr, List.forall_mem_cons, ← ih]
    cases e () with
    | error f => simp
    | ok b => cases b <;> simp

theorem foldOr_stop {es : List (Unit → R Bool)} {pre post : List (Unit → R Bool)} {e : Unit → R Bool} (h : es = pre ++ e :: post) (h1 : ∀ x ∈ pre, x () = .ok false) (h2 : e () ≠ .ok false) :
    foldOr es = e () := by
  subst h
  induction pre with
  | nil =>
    simp only [List.nil_append, foldOr]
    cases he : e () with
    | error f => rfl
    | ok b => cases b with
      | false => exact absurd he h2
      | true => rfl
  | cons x pre ih =>
    simp only [List.cons_append, foldOr, h1 x List.mem_cons_self, R.ok_bind, Bool.false_eq_true, if_false]
    exact ih fun y hy => h1 y (List.mem_cons_of_mem _ hy)

/-- The positions before and behind one of them. -/
theorem indices_split (i : Fin n) : ∃ pre post, indices n = pre ++ i :: post ∧ ∀ j ∈ pre, j < i := by
  obtain ⟨pre, post, h⟩ := List.append_of_mem (List.mem_finRange i)
  refine ⟨pre, post, h, fun j hj => ?_⟩
  have hp : (List.finRange n).Pairwise (· < ·) := List.pairwise_lt_finRange n
  rw [h, List.pairwise_append] at hp
  exact hp.2.2 j hj i List.mem_cons_self

/-- **C108 (equality).** Tuples are compared component by component from the left: they are equal if and only if all components are; at the first position that does not compare equal
the comparison ends with the result of this position, and no later component is compared (so that its comparison may even be undefined). -/
theorem C108_equal (eq : (i : Fin n) → T i → U i → R Bool) (l : Tup n T) (r : Tup n U) :
    (areEqual eq l r = .ok true ↔ ∀ i, eq i (get l i) (get r i) = .ok true) ∧
    ∀ i, (∀ j, j < i → eq j (get l j) (get r j) = .ok true) → eq i (get l i) (get r i) ≠ .ok true → areEqual eq l r = eq i (get l i) (get r i) := by
  refine ⟨?_, fun i h1 h2 => ?_⟩
  · unfold areEqual
    rw [foldAnd_true]
    constructor
    · exact fun h i => h _ (List.mem_map_of_mem (f := fun i (_ : Unit) => eq i (get l i) (get r i)) (List.mem_finRange i))
    · intro h e he
      obtain ⟨i, _, rfl⟩ := List.mem_map.mp he
      exact h i
  · obtain ⟨pre, post, e, hp⟩ := indices_split i
    unfold areEqual
    rw [e, List.map_append, List.map_cons]
    refine foldAnd_stop rfl (fun x hx => ?_) h2
    obtain ⟨j, hj, rfl⟩ := List.mem_map.mp hx
    exact h1 j (hp j hj)

/-- **C108 (inequality).** The same for `!=`. -/
theorem C108_not_equal (ne : (i : Fin n) → T i → U i → R Bool) (l : Tup n T) (r : Tup n U) :
    (areNotEqual ne l r = .ok false ↔ ∀ i, ne i (get l i) (get r i) = .ok false) ∧
    ∀ i, (∀ j, j < i → ne j (get l j) (get r j) = .ok false) → ne i (get l i) (get r i) ≠ .ok false → areNotEqual ne l r = ne i (get l i) (get r i) := by
  refine ⟨?_, fun i h1 h2 => ?_⟩
  · unfold areNotEqual
    rw [foldOr_false]
    constructor
    · exact fun h i => h _ (List.mem_map_of_mem (f := fun i (_ : Unit) => ne i (get l i) (get r i)) (List.mem_finRange i))
    · intro h e he
      obtain ⟨i, _, rfl⟩ := List.mem_map.mp he
      exact h i
  · obtain ⟨pre, post, e, hp⟩ := indices_split i
    unfold areNotEqual
    rw [e, List.map_append, List.map_cons]
    refine foldOr_stop rfl (fun x hx => ?_) h2
    obtain ⟨j, hj, rfl⟩ := List.mem_map.mp hx
    exact h1 j (hp j hj)

theorem fold_not (es : List (Unit → R Bool)) : foldOr (es.map fun e _ => (e ()).map (!·)) = (foldAnd es).map (!·) := by
  induction es with
  | nil => rfl
  | cons e es ih =>
    simp only [List.map_cons, foldOr, foldAnd, ih]
    cases e () with
    | error f => rfl
    | ok b => cases b <;> rfl

/-- **C108 (consistent).** If `!=` of all components is the negation of their `==`, then so it is for the tuples. -/
theorem C108_consistent (eq ne : (i : Fin n) → T i → U i → R Bool) (h : ∀ i x y, ne i x y = (eq i x y).map (!·)) (l : Tup n T) (r : Tup n U) :
    areNotEqual ne l r = (areEqual eq l r).map (!·) := by
  unfold areNotEqual areEqual
  rw [← fold_not, List.map_map]
  congr 1
  refine List.map_congr_left fun i _ => ?_
  funext _
  exact h i _ _

/-- **C108 (equivalence).** If the components' equality is total and an equivalence relation, so is the equality of tuples. -/
theorem C108_equivalence (eq : (i : Fin n) → T i → T i → Bool) (hr : ∀ i x, eq i x x = true) (hs : ∀ i x y, eq i x y = eq i y x) (ht : ∀ i x y z, eq i x y = true → eq i y z = true → eq i x z = true)
    (a b c : Tup n T) :
    areEqual (fun i x y => .ok (eq i x y)) a a = .ok true ∧ areEqual (fun i x y => .ok (eq i x y)) a b = areEqual (fun i x y => .ok (eq i x y)) b a ∧
    (areEqual (fun i x y => .ok (eq i x y)) a b = .ok true → areEqual (fun i x y => .ok (eq i x y)) b c = .ok true → areEqual (fun i x y => .ok (eq i x y)) a c = .ok true) := by
  refine ⟨(C108_equal _ a a).1.mpr fun i => by rw [hr], ?_, fun h1 h2 => (C108_equal _ a c).1.mpr fun i => ?_⟩
  · unfold areEqual
    congr 1
    refine List.map_congr_left fun i _ => ?_
    funext _
    show Except.ok (eq i (get a i) (get b i)) = Except.ok (eq i (get b i) (get a i))
    rw [hs]
  · have g1 := (C108_equal _ a b).1.mp h1 i
    have g2 := (C108_equal _ b c).1.mp h2 i
    rw [ht i _ _ _ (Except.ok.inj g1) (Except.ok.inj g2)]

/-- **C108 (pairs).** A pair is compared like the tuple of its two members. -/
theorem C108_pair {A B C D : Type} (eqA : A → C → R Bool) (eqB : B → D → R Bool) (l : Pair A B) (r : Pair C D) :
    pairEq eqA eqB l r = foldAnd [fun _ => eqA l.first r.first, fun _ => eqB l.second r.second] ∧
    pairNe eqA eqB l r = foldOr [fun _ => eqA l.first r.first, fun _ => eqB l.second r.second] := by
  unfold pairEq pairNe
  simp only [foldAnd, foldOr]
  generalize eqA l.first r.first = a
  generalize eqB l.second r.second = b
  cases a with
  | error f => exact ⟨rfl, rfl⟩
  | ok x =>
    cases b with
    | error f => cases x <;> exact ⟨rfl, rfl⟩
    | ok y => cases x <;> cases y <;> exact ⟨rfl, rfl⟩

/-- **C108 (pairs, in words).** Two pairs are equal if and only if both members are. -/
theorem C108_pair_equal {A B C D : Type} (eqA : A → C → R Bool) (eqB : B → D → R Bool) (l : Pair A B) (r : Pair C D) :
    (pairEq eqA eqB l r = .ok true ↔ eqA l.first r.first = .ok true ∧ eqB l.second r.second = .ok true) ∧
    (pairNe eqA eqB l r = .ok false ↔ eqA l.first r.first = .ok false ∧ eqB l.second r.second = .ok false) := by
  rw [(C108_pair eqA eqB l r).1, (C108_pair eqA eqB l r).2, foldAnd_true, foldOr_false]
  simp

/-- Writing some of the components. -/
theorem foldl_set (v : (i : Fin n) → T i) (is : List (Fin n)) (t : Tup n T) (j : Fin n) :
    get (is.foldl (fun t i => set t i (v i)) t) j = if j ∈ is then v j else get t j := by
  induction is generalizing t with
  | nil => simp
  | cons i is ih =>
    rw [List.foldl_cons, ih]
    by_cases hj : j ∈ is
    · rw [if_pos hj, if_pos (List.mem_cons_of_mem _ hj)]
    · rw [if_neg hj]
      by_cases hi : j = i
      · subst hi
        rw [if_pos List.mem_cons_self, get_set_same]
      · rw [if_neg (by simp [hi, hj]), get_set_ne _ _ _ _ hi]

/-- **C108 (apply).** `apply` calls the function once with all components in their places; what it writes through the references is in the tuple afterwards, and its result is returned. -/
theorem C108_apply {β : Type} (f : ((i : Fin n) → T i) → R (β × ((i : Fin n) → T i))) (v : (i : Fin n) → T i) : apply f (make v) = (f v).map fun p => (p.1, make p.2) := by
  unfold apply
  rw [show get (make v) = v from funext (get_make v)]
  cases f v with
  | error e => rfl
  | ok p =>
    show (Except.ok (p.1, _) : R _) = .ok _
    congr 2
    refine tup_ext _ _ fun i => ?_
    rw [foldl_set, if_pos (show i ∈ indices n from List.mem_finRange i), get_make]

/-- **C108 (projection).** `projection_function<I>` returns its argument number `I`, `constant_function<C>` the constant, whatever the arguments. -/
theorem C108_projection (args : (i : Fin n) → T i) : (∀ i, projection args i = args i) ∧ ∀ {α : Type} (c : α), constant c args = c := by
  refine ⟨?_, fun c => rfl⟩
  induction n with
  | zero => exact fun i => i.elim0
  | succ n ih => exact fun i => Fin.cases rfl (fun j => ih (T := fun k => T k.succ) (fun k => args k.succ) j) i

/-! ### Witnesses -/

/-- `cc::tuple<int, bool, std::vector<int>>` -/
def exT : Fin 3 → Type := fun i => match i with | 0 => Nat | 1 => Bool | 2 => List Nat

def exV (a : Nat) (b : Bool) (c : List Nat) : (i : Fin 3) → exT i := fun i => match i with | 0 => a | 1 => b | 2 => c

/-- The third comparison is undefined. -/
def exEq : (i : Fin 3) → exT i → exT i → R Bool := fun i => match i with
  | 0 => fun (x y : Nat) => .ok (Nat.beq x y)
  | 1 => fun (x y : Bool) => .ok (x && y || !x && !y)
  | 2 => fun _ _ => .error .ub

/-- A function that returns the first component and counts it up. -/
def exF (v : (i : Fin 3) → exT i) : R (Nat × ((i : Fin 3) → exT i)) :=
  let a : Nat := v 0
  .ok (a, exV (a + 1) (v 1) (v 2))

example : @Eq (List Nat) (get (make (exV 7 true [1, 2])) 2) [1, 2] ∧ @Eq Bool (get (set (make (exV 7 true [1, 2])) 1 (false : Bool)) 1) false ∧
    @Eq Nat (get (set (make (exV 7 true [1, 2])) 1 (false : Bool)) 0) 7 := ⟨rfl, rfl, rfl⟩

example : areEqual exEq (make (exV 7 true [])) (make (exV 7 false [])) = .ok false := by rfl
example : areEqual exEq (make (exV 7 true [])) (make (exV 7 true [])) = .error .ub := by rfl

example : apply exF (make (exV 7 true [3])) = .ok ((7 : Nat), make (exV 8 true [3])) := by rfl

end Verif.Tuple
