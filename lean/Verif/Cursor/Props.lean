import Verif.Cursor.Spec
/-!
# Properties of cursors (C112)
-/
namespace Verif.Cursor

variable {σ α β γ ι : Type}

/-! ### sequences of calls -/

theorem seq_ok {x : Run σ β} {b : β} {f : β → Run σ γ} (h : x.out = .ok b) : x.seq f = ⟨x.calls ++ (f b).calls, (f b).out⟩ := by
  simp [Run.seq, h]

theorem seq_error {x : Run σ β} {e : Fault} {f : β → Run σ γ} (h : x.out = .error e) : x.seq f = ⟨x.calls, .error e⟩ := by
  simp [Run.seq, h]

theorem seq_guarantee {I : Impl σ α} {x : Run σ β} {f : β → Run σ γ} (hx : Guarantee I x.calls)
    (hf : ∀ b, x.out = .ok b → Guarantee I (f b).calls) : Guarantee I (x.seq f).calls := by
  unfold Run.seq
  split
  · rename_i b h
    intro c hc
    rcases List.mem_append.1 hc with h1 | h1
    · exact hx c h1
    · exact hf b h c h1
  · exact hx

theorem guarantee_nil (I : Impl σ α) : Guarantee I [] := by intro c hc; cases hc

theorem guarantee_one {I : Impl σ α} {c : Call σ} (h : I.valid c.on = true) : Guarantee I [c] := by
  intro d hd
  rw [List.mem_singleton.1 hd]; exact h

/-! ### loops -/

theorem loop_guarantee (I : Impl σ α) (body : Body α β) (n : Nat) : ∀ s b, Guarantee I (loop I body n s b).calls := by
  induction n with
  | zero =>
    intro s b
    unfold loop
    split
    · exact guarantee_nil I
    · exact guarantee_nil I
  | succ n ih =>
    intro s b
    unfold loop
    split
    · rename_i hv
      refine seq_guarantee (guarantee_one hv) fun a _ => ?_
      split
      · exact guarantee_nil I
      · exact guarantee_nil I
      · exact seq_guarantee (guarantee_one hv) fun s' _ => ih _ _
    · exact guarantee_nil I

/-- C112: in a loop over a cursor of any class, with any body, finite or not, `get` and `advance` are called on valid cursors only, as documented. -/
theorem C112_loop_guarantee (I : Impl σ α) (body : Body α β) (n : Nat) (c : σ) (b : β) : Guarantee I (rangeFor I body n c b).calls :=
  loop_guarantee I body n c b

/-- C112: the loop visits the elements of the cursor, each once and in order, until the body leaves it or fails. -/
theorem C112_loop_visits {I : Impl σ α} {c : σ} {l : List α} (h : Yields I c l) (body : Body α β) :
    ∀ n b, l.length ≤ n → (rangeFor I body n c b).out = (each body l b).map some := by
  show ∀ n b, l.length ≤ n → (loop I body n c b).out = (each body l b).map some
  induction h with
  | nil s hv =>
    intro n b _
    unfold loop
    simp [notAtEnd, hv, Run.done, each, Except.map]
  | cons s s' a l hv hg ha _ ih =>
    intro n b hn
    obtain ⟨n, rfl⟩ : ∃ m, n = m + 1 := ⟨n - 1, by simp at hn; omega⟩
    unfold loop
    rw [if_pos (show notAtEnd I s = true from hv)]
    dsimp only
    rw [seq_ok (show (deref I s).out = .ok a from hg)]
    dsimp only [each]
    cases hb : body b a with
    | error e => rfl
    | ok p =>
      obtain ⟨b', q⟩ := p
      cases q with
      | true => rfl
      | false =>
        dsimp only
        rw [seq_ok (show (incr I s).out = .ok s' from ha)]
        exact ih n b' (by simp at hn; omega)

/-- A loop that is left after some elements. -/
theorem loop_collect {I : Impl σ α} {c : σ} {l : List α} (h : Yields I c l) :
    ∀ n (acc : List α), (loop I (collect (acc.length + (n + 1))) (n + 1) c acc).out = .ok (some (acc ++ l.take (n + 1))) := by
  induction h with
  | nil s hv =>
    intro n acc
    unfold loop
    simp [notAtEnd, hv, Run.done]
  | cons s s' a l hv hg ha _ ih =>
    intro n acc
    unfold loop
    rw [if_pos (show notAtEnd I s = true from hv)]
    dsimp only
    rw [seq_ok (show (deref I s).out = .ok a from hg)]
    dsimp only [collect]
    cases n with
    | zero =>
      have : (acc.length + 1 == acc.length + (0 + 1)) = true := by simp
      rw [this]
      simp [Run.done]
    | succ n =>
      have : (acc.length + 1 == acc.length + (n + 1 + 1)) = false := by simp
      rw [this]
      dsimp only
      rw [seq_ok (show (incr I s).out = .ok s' from ha)]
      dsimp only
      have h := ih n (acc ++ [a])
      have e1 : (acc ++ [a]).length + (n + 1) = acc.length + (n + 1 + 1) := by simp; omega
      rw [e1] at h
      rw [h]
      simp

theorem each_out {I : Impl σ α} {c : σ} {l : List α} (h : Yields I c l) (n : Nat) :
    ∃ r, (rangeFor I (collect n) n c []).out = .ok r ∧ r.getD [] = l.take n := by
  cases n with
  | zero =>
    unfold rangeFor loop
    split
    · exact ⟨none, rfl, by simp⟩
    · exact ⟨some [], rfl, by simp⟩
  | succ n =>
    have := loop_collect h n []
    simp only [List.length_nil, Nat.zero_add, List.nil_append] at this
    exact ⟨_, this, rfl⟩

/-! ### programs -/

/-- A use that is allowed: the class does what is expected. -/
theorem use_ok {I : Impl σ α} {s : σ} {l : List α} (h : Yields I s l) (u : Use) {o : Obs α} {r : List α} (hu : useSpec l u = .ok (o, r)) :
    ∃ s', (use I s u).out = .ok (o, s') ∧ Yields I s' r ∧ Guarantee I (use I s u).calls := by
  cases u with
  | deref =>
    cases h with
    | nil _ hv => simp [useSpec] at hu
    | cons _ s' a l hv hg ha hl =>
      simp only [useSpec, Except.ok.injEq, Prod.mk.injEq] at hu
      obtain ⟨rfl, rfl⟩ := hu
      refine ⟨s, ?_, .cons s s' a l hv hg ha hl, ?_⟩
      · unfold use; rw [seq_ok (show (deref I s).out = .ok a from hg)]; rfl
      · exact seq_guarantee (guarantee_one hv) fun _ _ => guarantee_nil I
  | incr =>
    cases h with
    | nil _ hv => simp [useSpec] at hu
    | cons _ s' a l hv hg ha hl =>
      simp only [useSpec, Except.ok.injEq, Prod.mk.injEq] at hu
      obtain ⟨rfl, rfl⟩ := hu
      refine ⟨s', ?_, hl, ?_⟩
      · unfold use; rw [seq_ok (show (incr I s).out = .ok s' from ha)]; rfl
      · exact seq_guarantee (guarantee_one hv) fun _ _ => guarantee_nil I
  | incrPost =>
    cases h with
    | nil _ hv => simp [useSpec] at hu
    | cons _ s' a l hv hg ha hl =>
      simp only [useSpec, Except.ok.injEq, Prod.mk.injEq] at hu
      obtain ⟨rfl, rfl⟩ := hu
      refine ⟨s', ?_, hl, ?_⟩
      · unfold use; rw [seq_ok (show (incrPost I s).out = .ok s' from ha)]; rfl
      · exact seq_guarantee (guarantee_one hv) fun _ _ => guarantee_nil I
  | toBool =>
    simp only [useSpec, Except.ok.injEq, Prod.mk.injEq] at hu
    obtain ⟨rfl, rfl⟩ := hu
    refine ⟨s, ?_, h, guarantee_nil I⟩
    cases h <;> simp [use, Run.done, toBool, *]
  | atEnd =>
    simp only [useSpec, Except.ok.injEq, Prod.mk.injEq] at hu
    obtain ⟨rfl, rfl⟩ := hu
    refine ⟨s, ?_, h, guarantee_nil I⟩
    cases h <;> simp [use, Run.done, atEnd, *]
  | notAtEnd =>
    simp only [useSpec, Except.ok.injEq, Prod.mk.injEq] at hu
    obtain ⟨rfl, rfl⟩ := hu
    refine ⟨s, ?_, h, guarantee_nil I⟩
    cases h <;> simp [use, Run.done, notAtEnd, *]
  | each n =>
    simp only [useSpec, Except.ok.injEq, Prod.mk.injEq] at hu
    obtain ⟨rfl, rfl⟩ := hu
    obtain ⟨r, hr, hv⟩ := each_out h n
    refine ⟨s, ?_, h, seq_guarantee (C112_loop_guarantee I _ _ _ _) fun _ _ => guarantee_nil I⟩
    unfold use; dsimp only; rw [seq_ok hr, ← hv]; rfl

/-- C112: a program that reads and advances a cursor only while there are elements left sees exactly these elements, and the guarantee is kept. A loop
does not change the cursor it runs over. -/
theorem C112_guarantee_partial {I : Impl σ α} (us : List Use) : ∀ {s : σ} {l : List α}, Yields I s l → ∀ {os}, runSpec l us = .ok os →
    (run I s us).out = .ok os ∧ Guarantee I (run I s us).calls := by
  induction us with
  | nil => intro s l _ os h; simp only [runSpec, Except.ok.injEq] at h; subst h; exact ⟨rfl, guarantee_nil I⟩
  | cons u us ih =>
    intro s l h os ho
    unfold runSpec at ho
    cases hu : useSpec l u with
    | error e => rw [hu] at ho; simp at ho
    | ok p =>
      obtain ⟨o, r⟩ := p
      rw [hu] at ho
      dsimp only at ho
      cases hr : runSpec r us with
      | error e => rw [hr] at ho; simp at ho
      | ok os' =>
        rw [hr] at ho
        simp only [Except.ok.injEq] at ho
        subst ho
        obtain ⟨s', h1, h2, h3⟩ := use_ok h u hu
        obtain ⟨h4, h5⟩ := ih h2 hr
        unfold run
        refine ⟨?_, seq_guarantee h3 fun b hb => ?_⟩
        · rw [seq_ok h1]; dsimp only; rw [seq_ok h4]; rfl
        · rw [h1] at hb; cases hb
          exact seq_guarantee h5 fun _ _ => guarantee_nil I

/-- C112, the negation: the guarantee is not kept by the operators, which do not check. For every class a program that advances or reads a cursor at
its end calls the function of the class on an invalid object. -/
theorem C112_not_guaranteed (I : Impl σ α) (s : σ) (h : I.valid s = false) :
    ¬ Guarantee I (run I s [.incr]).calls ∧ ¬ Guarantee I (run I s [.deref]).calls ∧ ¬ Guarantee I (run I s [.incrPost]).calls := by
  have key : ∀ {c : Call σ} {l : List (Call σ)}, c ∈ l → c.on = s → ¬ Guarantee I l := by
    intro c l hc e g
    have := g c hc
    rw [e, h] at this
    cases this
  refine ⟨key (c := .advance s) ?_ rfl, key (c := .get s) ?_ rfl, key (c := .advance s) ?_ rfl⟩ <;>
  · unfold run use deref incr incrPost
    unfold Run.seq
    dsimp only
    split <;> split at * <;> simp_all

/-! ### cursors over ranges -/

/-- A range seen through `to_cursor`. -/
theorem between_yields {I : Iter ι α} {J : Impl (ItCur ι) α} (hJ : itImpl I = some J) {e b : ι} {l : List α} (h : Between I e b l) :
    Yields J (toCursor b e) l := by
  unfold itImpl at hJ
  cases ht : I.truth with
  | none => rw [ht] at hJ; cases hJ
  | some t =>
    rw [ht] at hJ
    simp only [Option.some.injEq] at hJ
    subst hJ
    induction h with
    | nil b hv => exact .nil _ hv
    | cons b b' a l hv hd hn hb _ ih =>
      refine .cons _ (toCursor b' e) a l hv ?_ ?_ ih
      · show itGet I t (toCursor b e) = .ok a
        have h1 : itValid I (toCursor b e) = true := hv
        have h2 : t (toCursor b e).curr = true := hb t ht
        unfold itGet
        rw [h1, h2]
        simpa [toCursor] using hd
      · show itAdvance I (toCursor b e) = .ok (toCursor b' e)
        have h1 : itValid I (toCursor b e) = true := hv
        unfold itAdvance
        rw [h1]
        simp only [ccAssert_true, R.ok_bind]
        rw [show I.next (toCursor b e).curr = .ok b' from hn]
        rfl

/-- At the end of a range the contracts of `iterator_cursor` fail. -/
theorem at_end {I : Iter ι α} {J : Impl (ItCur ι) α} (hJ : itImpl I = some J) {c : ItCur ι} (hv : J.valid c = false) :
    J.get c = .error .assert ∧ J.advance c = .error .assert := by
  unfold itImpl at hJ
  cases ht : I.truth with
  | none => rw [ht] at hJ; cases hJ
  | some t =>
    rw [ht] at hJ
    simp only [Option.some.injEq] at hJ
    subst hJ
    have hv : itValid I c = false := hv
    constructor
    · show itGet I t c = _
      unfold itGet
      rw [hv]
      cases t c.curr <;> rfl
    · show itAdvance I c = _
      unfold itAdvance
      rw [hv]; rfl

/-- C112: a cursor over a range behaves like the list of the elements that are left, in every program: it gives the elements of the range in order, and
where none is left a contract fails. -/
theorem C112_range_cursor {I : Iter ι α} {J : Impl (ItCur ι) α} (hJ : itImpl I = some J) {b e : ι} {l : List α} (h : Between I e b l) (us : List Use) :
    (run J (toCursor b e) us).out = runSpec l us := by
  have key : ∀ (us : List Use) (s : ItCur ι) (l : List α), Yields J s l → (run J s us).out = runSpec l us := by
    intro us
    induction us with
    | nil => intro s l _; rfl
    | cons u us ih =>
      intro s l h
      unfold run runSpec
      cases hu : useSpec l u with
      | ok p =>
        obtain ⟨o, r⟩ := p
        obtain ⟨s', h1, h2, _⟩ := use_ok h u hu
        rw [seq_ok h1]
        dsimp only
        have := ih s' r h2
        cases hr : runSpec r us with
        | ok os => rw [hr] at this; rw [seq_ok this]; rfl
        | error e => rw [hr] at this; rw [seq_error this]
      | error e =>
        have : (use J s u).out = .error e := by
          cases h with
          | cons => cases u <;> simp [useSpec] at hu
          | nil _ hv =>
            obtain ⟨h1, h2⟩ := at_end hJ hv
            cases u <;> simp only [useSpec, Except.error.injEq, reduceCtorEq] at hu <;> subst hu
            · unfold use; rw [seq_error (show (deref J s).out = .error .assert from h1)]
            · unfold use; rw [seq_error (show (incr J s).out = .error .assert from h2)]
            · unfold use; rw [seq_error (show (incrPost J s).out = .error .assert from h2)]
        rw [seq_error this]
  exact key us _ _ (between_yields hJ h)

/-- C112, the negation: a range whose iterators have no conversion to `bool` has no usable cursor, because `get` asks for it. -/
theorem C112_needs_bool (I : Iter ι α) (h : I.truth = none) : itImpl I = none := by
  simp [itImpl, h]

/-- The iterators of a range of numbers, which convert to `bool` like the numbers. -/
def numbers : Iter Nat Nat := { ne := fun a b => a != b, deref := .ok, next := fun a => .ok (a + 1), truth := some (· != 0) }

/-- The same as a class of iterators without conversion to `bool`. -/
def noBool : Iter Nat Nat := { numbers with truth := none }

/-- C112, the negation: an iterator that converts to `false` although it refers to an element cannot be read through a cursor. -/
theorem C112_false_element : ∃ J, itImpl numbers = some J ∧ J.valid (toCursor 0 3) = true ∧ numbers.deref 0 = .ok 0 ∧
    (run J (toCursor 0 3) [.deref]).out = .error .assert := ⟨_, rfl, rfl, rfl, rfl⟩

/-! ### concrete cases -/

/-- The numbers from 5 to 7. -/
theorem numbers_between : Between numbers 8 5 [5, 6, 7] := by
  refine .cons _ 6 _ _ rfl rfl rfl ?_ (.cons _ 7 _ _ rfl rfl rfl ?_ (.cons _ 8 _ _ rfl rfl rfl ?_ (.nil _ rfl))) <;>
  · intro t ht; simp [numbers] at ht; subst ht; rfl

/-- A class that counts down. -/
def down : Impl Nat Nat := { get := .ok, advance := fun n => .ok (n - 1), valid := fun n => n != 0 }

example : Yields down 2 [2, 1] := .cons _ 1 _ _ rfl rfl rfl (.cons _ 0 _ _ rfl rfl rfl (.nil _ rfl))

example : (rangeFor down (collect 5) 5 2 []).calls = [.get 2, .advance 2, .get 1, .advance 1] := by decide

example : runSpec [2, 1] [.deref, .each 9, .incr, .deref, .toBool, .incrPost, .atEnd] =
    .ok [.value 2, .values [2, 1], .none, .value 1, .bool true, .none, .bool true] := by rfl

example : down.valid 0 = false := rfl

example : (run down 0 [.incr]).calls = [.advance 0] := by decide

example : ∃ J, itImpl numbers = some J ∧ (run J (toCursor 5 8) [.each 2, .incr, .incr, .deref, .incr, .deref]).out = .error .assert :=
  ⟨_, rfl, C112_range_cursor rfl numbers_between _⟩

example : noBool.truth = none := rfl

end Verif.Cursor
