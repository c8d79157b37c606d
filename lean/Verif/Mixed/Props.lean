import Verif.Mixed.Spec
/-!
# Properties of comparisons with optionals and variants (C115)
-/
namespace Verif.Mixed

variable {α : Type}

theorem Equal.symm {E : Ops α} (hE : E.Symm) {A B : Ty} {x y : Val α} (h : Equal E A x B y) : Equal E B y A x := by
  induction h with
  | @base s t f a b h1 h2 =>
    have := hE s t
    rw [h1] at this
    cases h3 : E.eq t s with
    | none => rw [h3] at this; exact this.elim
    | some g => rw [h3] at this; exact .base h3 ((this a b).symm.trans h2)
  | noneNull => exact .nullNone
  | nullNone => exact .noneNull
  | noneNone => exact .noneNone
  | someSome _ ih => exact .someSome ih
  | someBase _ ih => exact .baseSome ih
  | baseSome _ ih => exact .someBase ih
  | hereL _ ih => exact .hereR ih
  | thereL _ ih => exact .thereR ih
  | hereR _ ih => exact .hereL ih
  | thereR _ ih => exact .thereL ih

/-- What cannot be compared with a base type is not equal to its values. -/
theorem undeclared_base {E : Ops α} {T : Ty} {t : Nat} (h : declared (fun s t => (E.eq s t).isSome) T (.base t) = false) {x y : Val α} :
    ¬ Equal E T x (.base t) y := by
  intro he
  cases he with
  | base h1 => simp [declared, h1] at h
  | someBase => simp [declared] at h
  | hereL => simp [declared] at h
  | thereL => simp [declared] at h

theorem undeclared_null {E : Ops α} {T : Ty} (h : declared (fun s t => (E.eq s t).isSome) T .nullopt = false) {x y : Val α} :
    ¬ Equal E T x .nullopt y := by
  intro he
  cases he with
  | noneNull => simp [declared] at h
  | hereL => simp [declared] at h
  | thereL => simp [declared] at h

theorem undeclared_base' {E : Ops α} {T : Ty} {t : Nat} (h : declared (fun s t => (E.eq s t).isSome) (.base t) T = false) {x y : Val α} :
    ¬ Equal E (.base t) x T y := by
  intro he
  cases he with
  | base h1 => simp [declared, h1] at h
  | baseSome => simp [declared] at h
  | hereR => simp [declared] at h
  | thereR => simp [declared] at h

theorem undeclared_null' {E : Ops α} {T : Ty} (h : declared (fun s t => (E.eq s t).isSome) .nullopt T = false) {x y : Val α} :
    ¬ Equal E .nullopt x T y := by
  intro he
  cases he with
  | nullNone => simp [declared] at h
  | hereR => simp [declared] at h
  | thereR => simp [declared] at h

/-- What a comparison has to do. -/
def Decides (E : Ops α) (A B : Ty) (f : Cmp α) : Prop := ∀ x y, HasTy A x → HasTy B y → ∃ b, f x y = .ok b ∧ (b = true ↔ Equal E A x B y)

theorem eqv_decides {E : Ops α} (hE : E.Symm) : ∀ n A B, sizeOf A + sizeOf B ≤ n → ∀ f, eqv E A B = some f → Decides E A B f := by
  intro n
  induction n with
  | zero => intro A B h; cases A <;> simp at h
  | succ n ih =>
    intro A B hn f hf x y hx hy
    -- the choice for one alternative
    have alt : ∀ A B g, sizeOf A + sizeOf B ≤ n → (declared (fun s t => (E.eq s t).isSome) A B = false → ∀ x y, ¬ Equal E A x B y) →
        permissive (declared (fun s t => (E.eq s t).isSome) A B) (eqv E A B) false = some g → Decides E A B g := by
      intro A B g hs hu hg
      by_cases hd : declared (fun s t => (E.eq s t).isSome) A B = true
      · rw [hd] at hg; exact ih A B hs g hg
      · rw [Bool.not_eq_true] at hd
        rw [hd] at hg
        simp only [permissive, Option.some.injEq] at hg
        subst hg
        intro x y _ _
        exact ⟨false, rfl, by simp [hu hd]⟩
    cases A with
    | base s =>
      cases x <;> try exact hx.elim
      rename_i a
      cases B with
      | base t =>
        cases y <;> try exact hy.elim
        rename_i b
        rw [eqv] at hf
        cases he : E.eq s t with
        | none => rw [he] at hf; cases hf
        | some g =>
          rw [he] at hf
          simp only [Option.map_some, Option.some.injEq] at hf
          subst hf
          refine ⟨g a b, rfl, ⟨fun h => .base he h, fun h => ?_⟩⟩
          cases h with
          | base h1 h2 => rw [he] at h1; cases h1; exact h2
      | nullopt => simp [eqv] at hf
      | opt V =>
        rw [eqv] at hf
        cases hg : eqv E V (.base s) with
        | none => rw [hg] at hf; cases hf
        | some g =>
          rw [hg] at hf
          simp only [Option.map_some, Option.some.injEq] at hf
          subst hf
          cases y <;> try exact hy.elim
          · refine ⟨false, rfl, ⟨nofun, fun h => nomatch h⟩⟩
          · rename_i v
            obtain ⟨b, h1, h2⟩ := ih V (.base s) (by simp at hn ⊢; omega) g hg v (.base a) hy trivial
            refine ⟨b, by simpa [hasValue, value] using h1, h2.trans ⟨fun h => .baseSome (h.symm hE), fun h => ?_⟩⟩
            cases h with
            | baseSome h => exact h.symm hE
      | vnil => cases y <;> exact hy.elim
      | vcons T r =>
        rw [eqv] at hf
        simp only [Option.bind_eq_bind, Option.bind_eq_some_iff, Option.some.injEq] at hf
        obtain ⟨f1, h1, g, h2, rfl⟩ := hf
        have d1 := alt (.base s) T f1 (by simp at hn ⊢; omega) (fun h x y => undeclared_base' h) h1
        have d2 := ih (.base s) r (by simp at hn ⊢; omega) g h2
        cases y <;> try exact hy.elim
        · rename_i v
          obtain ⟨b, h3, h4⟩ := d1 (.base a) v trivial hy
          exact ⟨b, h3, h4.trans ⟨.hereR, fun h => by cases h; assumption⟩⟩
        · rename_i v
          obtain ⟨b, h3, h4⟩ := d2 (.base a) v trivial hy
          exact ⟨b, h3, h4.trans ⟨.thereR, fun h => by cases h; assumption⟩⟩
    | nullopt =>
      cases x <;> try exact hx.elim
      cases B with
      | base t => simp [eqv] at hf
      | nullopt => simp [eqv] at hf
      | opt V =>
        rw [eqv] at hf
        simp only [Option.some.injEq] at hf
        subst hf
        cases y <;> try exact hy.elim
        · exact ⟨true, rfl, by simp [Equal.nullNone]⟩
        · exact ⟨false, rfl, ⟨nofun, fun h => nomatch h⟩⟩
      | vnil => cases y <;> exact hy.elim
      | vcons T r =>
        rw [eqv] at hf
        simp only [Option.bind_eq_bind, Option.bind_eq_some_iff, Option.some.injEq] at hf
        obtain ⟨f1, h1, g, h2, rfl⟩ := hf
        have d1 := alt .nullopt T f1 (by simp at hn ⊢; omega) (fun h x y => undeclared_null' h) h1
        have d2 := ih .nullopt r (by simp at hn ⊢; omega) g h2
        cases y <;> try exact hy.elim
        · rename_i v
          obtain ⟨b, h3, h4⟩ := d1 .null v trivial hy
          exact ⟨b, h3, h4.trans ⟨.hereR, fun h => by cases h; assumption⟩⟩
        · rename_i v
          obtain ⟨b, h3, h4⟩ := d2 .null v trivial hy
          exact ⟨b, h3, h4.trans ⟨.thereR, fun h => by cases h; assumption⟩⟩
    | opt U =>
      cases B with
      | base t =>
        rw [eqv] at hf
        cases hg : eqv E U (.base t) with
        | none => rw [hg] at hf; cases hf
        | some g =>
          rw [hg] at hf
          simp only [Option.map_some, Option.some.injEq] at hf
          subst hf
          cases x <;> try exact hx.elim
          · exact ⟨false, rfl, ⟨nofun, fun h => nomatch h⟩⟩
          · rename_i v
            obtain ⟨b, h1, h2⟩ := ih U (.base t) (by simp at hn ⊢; omega) g hg v y hx hy
            refine ⟨b, by simpa [hasValue, value] using h1, h2.trans ⟨.someBase, fun h => by cases h; assumption⟩⟩
      | nullopt =>
        rw [eqv] at hf
        simp only [Option.some.injEq] at hf
        subst hf
        cases y <;> try exact hy.elim
        cases x <;> try exact hx.elim
        · exact ⟨true, rfl, by simp [Equal.noneNull]⟩
        · exact ⟨false, rfl, ⟨nofun, fun h => nomatch h⟩⟩
      | opt V =>
        rw [eqv] at hf
        cases hg : eqv E U V with
        | none => rw [hg] at hf; cases hf
        | some g =>
          rw [hg] at hf
          simp only [Option.map_some, Option.some.injEq] at hf
          subst hf
          cases x <;> try exact hx.elim
          · cases y <;> try exact hy.elim
            · exact ⟨true, rfl, by simp [Equal.noneNone]⟩
            · exact ⟨false, rfl, ⟨nofun, fun h => nomatch h⟩⟩
          · cases y <;> try exact hy.elim
            · exact ⟨false, rfl, ⟨nofun, fun h => nomatch h⟩⟩
            · rename_i u v
              obtain ⟨b, h1, h2⟩ := ih U V (by simp at hn ⊢; omega) g hg u v hx hy
              exact ⟨b, by simpa [hasValue, value] using h1, h2.trans ⟨.someSome, fun h => by cases h; assumption⟩⟩
      | vnil => simp [eqv] at hf
      | vcons T r => simp [eqv] at hf
    | vnil => cases x <;> exact hx.elim
    | vcons T r =>
      cases B with
      | base t =>
        rw [eqv] at hf
        simp only [Option.bind_eq_bind, Option.bind_eq_some_iff, Option.some.injEq] at hf
        obtain ⟨f1, h1, g, h2, rfl⟩ := hf
        have d1 := alt T (.base t) f1 (by simp at hn ⊢; omega) (fun h x y => undeclared_base h) h1
        have d2 := ih r (.base t) (by simp at hn ⊢; omega) g h2
        cases x <;> try exact hx.elim
        · rename_i v
          obtain ⟨b, h3, h4⟩ := d1 v y hx hy
          exact ⟨b, h3, h4.trans ⟨.hereL, fun h => by cases h; assumption⟩⟩
        · rename_i v
          obtain ⟨b, h3, h4⟩ := d2 v y hx hy
          exact ⟨b, h3, h4.trans ⟨.thereL, fun h => by cases h; assumption⟩⟩
      | nullopt =>
        rw [eqv] at hf
        simp only [Option.bind_eq_bind, Option.bind_eq_some_iff, Option.some.injEq] at hf
        obtain ⟨f1, h1, g, h2, rfl⟩ := hf
        have d1 := alt T .nullopt f1 (by simp at hn ⊢; omega) (fun h x y => undeclared_null h) h1
        have d2 := ih r .nullopt (by simp at hn ⊢; omega) g h2
        cases x <;> try exact hx.elim
        · rename_i v
          obtain ⟨b, h3, h4⟩ := d1 v y hx hy
          exact ⟨b, h3, h4.trans ⟨.hereL, fun h => by cases h; assumption⟩⟩
        · rename_i v
          obtain ⟨b, h3, h4⟩ := d2 v y hx hy
          exact ⟨b, h3, h4.trans ⟨.thereL, fun h => by cases h; assumption⟩⟩
      | opt V => simp [eqv] at hf
      | vnil => simp [eqv] at hf
      | vcons T' r' => simp [eqv] at hf

/-- C115: every comparison with `==` that compiles gives true exactly if the values are equal, an optional and a variant counting as the value they hold. -/
theorem C115_equal_partial {E : Ops α} (hE : E.Symm) {A B : Ty} {f : Cmp α} (hf : eqv E A B = some f) {x y : Val α} (hx : HasTy A x) (hy : HasTy B y) :
    ∃ b, f x y = .ok b ∧ (b = true ↔ Equal E A x B y) := eqv_decides hE _ A B (Nat.le_refl _) f hf x y hx hy

/-! ### `!=` -/

/-- The negation of a result. -/
def neg (r : R Bool) : R Bool := r.map (!·)

/-- Both compile and one is the negation of the other, or neither compiles. -/
def Opposite (f g : Option (Cmp α)) : Prop :=
  match f, g with
  | some f, some g => ∀ x y, g x y = neg (f x y)
  | none, none => True
  | _, _ => False

theorem Opposite.map {f g : Option (Cmp α)} (h : Opposite f g) {F G : Cmp α → Cmp α}
    (hFG : ∀ f g : Cmp α, (∀ x y, g x y = neg (f x y)) → ∀ x y, G g x y = neg (F f x y)) : Opposite (f.map F) (g.map G) := by
  cases f <;> cases g <;> simp only [Opposite] at h
  · trivial
  · exact hFG _ _ h

theorem Opposite.visit {f g f' g' : Option (Cmp α)} {V : Cmp α → Cmp α → Cmp α} (hV : V = visitL ∨ V = visitR) (h : Opposite f g) (h' : Opposite f' g') :
    Opposite (do let a ← f; let b ← f'; some (V a b)) (do let a ← g; let b ← g'; some (V a b)) := by
  cases f <;> cases g <;> simp only [Opposite] at h
  · trivial
  · cases f' <;> cases g' <;> simp only [Opposite] at h'
    · trivial
    · intro x y
      rcases hV with rfl | rfl
      · cases x <;> simp [visitL, h, h', neg, Except.map]
      · cases y <;> simp [visitR, h, h', neg, Except.map]

theorem compl_declared {E : Ops α} (hE : E.Compl) : (fun s t => (E.ne s t).isSome) = fun s t => (E.eq s t).isSome := by
  funext s t
  have := hE s t
  cases h1 : E.eq s t <;> cases h2 : E.ne s t <;> simp_all

theorem Opposite.permissive {f g : Option (Cmp α)} (h : Opposite f g) (d : Bool) : Opposite (permissive d f false) (permissive d g true) := by
  cases d
  · intro x y; rfl
  · exact h

theorem neq_opposite {E : Ops α} (hE : E.Compl) : ∀ n A B, sizeOf A + sizeOf B ≤ n → Opposite (eqv E A B) (neq E A B) := by
  intro n
  induction n with
  | zero => intro A B h; cases A <;> simp at h
  | succ n ih =>
    intro A B hn
    cases A with
    | base s =>
      cases B with
      | base t =>
        rw [eqv, neq]
        have := hE s t
        cases h1 : E.eq s t <;> cases h2 : E.ne s t <;> rw [h1, h2] at this
        · trivial
        · exact this.elim
        · exact this.elim
        · intro x y
          cases x <;> cases y <;> simp [this, neg, Except.map]
      | nullopt => simp [eqv, neq, Opposite]
      | opt V =>
        rw [eqv, neq]
        refine (ih V (.base s) (by simp at hn ⊢; omega)).map fun f g h x y => ?_
        cases y <;> simp [hasValue, value, neg, Except.map, h]
      | vnil => rw [eqv, neq]; intro x y; rfl
      | vcons T r =>
        rw [eqv, neq, compl_declared hE]
        exact .visit (.inr rfl) ((ih (.base s) T (by simp at hn ⊢; omega)).permissive _) (ih (.base s) r (by simp at hn ⊢; omega))
    | nullopt =>
      cases B with
      | base t => simp [eqv, neq, Opposite]
      | nullopt => simp [eqv, neq, Opposite]
      | opt V =>
        rw [eqv, neq]
        intro x y
        cases y <;> simp [hasValue, neg, Except.map]
      | vnil => rw [eqv, neq]; intro x y; rfl
      | vcons T r =>
        rw [eqv, neq, compl_declared hE]
        exact .visit (.inr rfl) ((ih .nullopt T (by simp at hn ⊢; omega)).permissive _) (ih .nullopt r (by simp at hn ⊢; omega))
    | opt U =>
      cases B with
      | base t =>
        rw [eqv, neq]
        refine (ih U (.base t) (by simp at hn ⊢; omega)).map fun f g h x y => ?_
        cases x <;> simp [hasValue, value, neg, Except.map, h]
      | nullopt =>
        rw [eqv, neq]
        intro x y
        cases x <;> simp [hasValue, neg, Except.map]
      | opt V =>
        rw [eqv, neq]
        refine (ih U V (by simp at hn ⊢; omega)).map fun f g h x y => ?_
        cases x <;> cases y <;> simp [hasValue, value, neg, Except.map, h]
      | vnil => simp [eqv, neq, Opposite]
      | vcons T r => simp [eqv, neq, Opposite]
    | vnil =>
      cases B with
      | base t => rw [eqv, neq]; intro x y; rfl
      | nullopt => rw [eqv, neq]; intro x y; rfl
      | opt V => simp [eqv, neq, Opposite]
      | vnil => simp [eqv, neq, Opposite]
      | vcons T r => simp [eqv, neq, Opposite]
    | vcons T r =>
      cases B with
      | base t =>
        rw [eqv, neq, compl_declared hE]
        exact .visit (.inl rfl) ((ih T (.base t) (by simp at hn ⊢; omega)).permissive _) (ih r (.base t) (by simp at hn ⊢; omega))
      | nullopt =>
        rw [eqv, neq, compl_declared hE]
        exact .visit (.inl rfl) ((ih T .nullopt (by simp at hn ⊢; omega)).permissive _) (ih r .nullopt (by simp at hn ⊢; omega))
      | opt V => simp [eqv, neq, Opposite]
      | vnil => simp [eqv, neq, Opposite]
      | vcons T' r' => simp [eqv, neq, Opposite]

/-- C115: `!=` compiles exactly if `==` does, and is its negation. -/
theorem C115_not_equal {E : Ops α} (hE : E.Compl) (A B : Ty) : ((neq E A B).isSome = (eqv E A B).isSome) ∧
    ∀ f g, eqv E A B = some f → neq E A B = some g → ∀ x y b, f x y = .ok b → g x y = .ok (!b) := by
  have h := neq_opposite hE _ A B (Nat.le_refl _)
  constructor
  · cases h1 : eqv E A B <;> cases h2 : neq E A B <;> rw [h1, h2] at h <;> simp_all [Opposite]
  · intro f g hf hg x y b hb
    rw [hf, hg] at h
    rw [h x y, hb]; rfl

/-- C115: where both directions compile, it does not matter which operand is on the left. -/
theorem C115_symmetric {E : Ops α} (hE : E.Symm) {A B : Ty} {f g : Cmp α} (hf : eqv E A B = some f) (hg : eqv E B A = some g) {x y : Val α} (hx : HasTy A x) (hy : HasTy B y) :
    f x y = g y x := by
  obtain ⟨b, h1, h2⟩ := C115_equal_partial hE hf hx hy
  obtain ⟨c, h3, h4⟩ := C115_equal_partial hE hg hy hx
  rw [h1, h3]
  have : b = true ↔ c = true := h2.trans (⟨Equal.symm hE, Equal.symm hE⟩ : Equal E A x B y ↔ _) |>.trans h4.symm
  congr 1
  exact Bool.eq_iff_iff.2 this

/-! ### what does not compile -/

/-- C115, the negation: two variants cannot be compared, whatever their types, also if they are the same. -/
theorem C115_variants_rejected (E : Ops α) (A B : Ty) (hA : A.isVar = true) (hB : B.isVar = true) : eqv E A B = none ∧ neq E A B = none := by
  cases A <;> simp [Ty.isVar] at hA <;> cases B <;> simp [Ty.isVar] at hB <;> simp [eqv, neq]

/-- C115, the negation: an optional cannot be compared with a variant. -/
theorem C115_optional_variant_rejected (E : Ops α) (T B : Ty) (hB : B.isVar = true) :
    eqv E (.opt T) B = none ∧ eqv E B (.opt T) = none ∧ neq E (.opt T) B = none ∧ neq E B (.opt T) = none := by
  cases B <;> simp [Ty.isVar] at hB <;> simp [eqv, neq]

/-- Two base types, 0 and 1, that can be compared only with themselves. -/
def twoTypes : Ops Nat :=
  { eq := fun s t => if s = t then some (· == ·) else none
    ne := fun s t => if s = t then some (· != ·) else none }

theorem twoTypes_symm : twoTypes.Symm := by
  intro s t
  by_cases h : s = t
  · subst h; simp [twoTypes, Bool.beq_comm]
  · simp [twoTypes, h, Ne.symm h]

theorem twoTypes_compl : twoTypes.Compl := by
  intro s t
  by_cases h : s = t
  · subst h; simp [twoTypes, bne]
  · simp [twoTypes, h]

/-- `variant<optional<T0>, T1>`. -/
def optOrOne : Ty := .vcons (.opt (.base 0)) (.vcons (.base 1) .vnil)

/-- C115, the negation: a variant with an optional as alternative cannot be compared with a value of another of its alternatives, while a variant of the two types without the
optional can be: what has no comparison counts as different there. -/
theorem C115_optional_alternative_rejected : eqv twoTypes optOrOne (.base 1) = none ∧
    ∃ f, eqv twoTypes (.vcons (.base 0) (.vcons (.base 1) .vnil)) (.base 1) = some f ∧ f (.here (.base 5)) (.base 5) = .ok false ∧
      f (.there (.here (.base 5))) (.base 5) = .ok true := by
  refine ⟨?_, ?_⟩
  · simp [eqv, optOrOne, twoTypes, declared, permissive]
  · refine ⟨visitL (fun _ _ => .ok false) (visitL (fun x y => match x, y with
      | .base a, .base b => .ok (a == b)
      | _, _ => .error .ub) fun _ _ => .error .ub), ?_, rfl, rfl⟩
    simp [eqv, twoTypes, declared, permissive]
    congr 2
    funext x y
    cases x <;> cases y <;> rfl

/-! ### concrete cases -/

/-- `optional<optional<T0>> == optional<T0>`. -/
example : ∃ f, eqv twoTypes (.opt (.opt (.base 0))) (.opt (.base 0)) = some f := by
  simp [eqv, twoTypes]

example : HasTy (.opt (.opt (.base 0))) (.some (.none) : Val Nat) ∧ HasTy (.opt (.base 0)) (.none : Val Nat) ∧
    ¬ Equal twoTypes (.opt (.opt (.base 0))) (.some .none) (.opt (.base 0)) .none := ⟨trivial, trivial, fun h => nomatch h⟩

example : Equal twoTypes (.base 0) (.base 7) (.opt (.opt (.base 0))) (.some (.some (.base 7))) := .baseSome (.baseSome (.base (f := (· == ·)) rfl rfl))

example : Equal twoTypes (.vcons (.base 0) (.vcons (.base 1) .vnil)) (.there (.here (.base 4))) (.base 1) (.base 4) :=
  .thereL (.hereL (.base (f := (· == ·)) rfl rfl))

end Verif.Mixed
