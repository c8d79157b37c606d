import Verif.Life.TlsfSpec

/-!
Property C131, the life of `cc::tlsf_allocator`.
-/
namespace Verif.Life.Tlsf

/-! ### lemmas -/

theorem put_self (w : World) (i : Nat) (o) : w.put i o i = o := if_pos rfl
theorem put_other (w : World) {i j : Nat} (o) (h : j ≠ i) : w.put i o j = w j := if_neg h
theorem get_ok {w : World} {i h : Nat} (e : w i = some h) : w.get i = .ok h := by rw [World.get, e]
theorem get_inv {w : World} {i h : Nat} (e : w.get i = .ok h) : w i = some h := by
  unfold World.get at e
  split at e
  · rename_i e'; cases e; exact e'
  · cases e
theorem fresh_inv {w : World} {i : Nat} {u : Unit} (e : fresh w i = .ok u) : w i = none := by
  unfold fresh at e
  split at e
  · assumption
  · cases e

theorem has_put {w : World} {i : Nat} {o : Option Nat} {j h : Nat} : Has (w.put i o) j h ↔ (j = i ∧ o = some h ∧ h ≠ 0) ∨ (j ≠ i ∧ Has w j h) := by
  unfold Has
  by_cases e : j = i
  · subst e; rw [put_self]; simp
  · rw [put_other _ _ e]; simp [e]

theorem assert_inv {b : Bool} {u : Unit} (e : ccAssert b = .ok u) : b = true := by
  cases b with
  | true => rfl
  | false => cases e

theorem init_inv {w w' : World} {i a n : Nat} (e : init w i a n = .ok w') :
    w i = some 0 ∧ controlSize < n ∧ a % 8 = 0 ∧ a ≠ 0 ∧ w' = w.put i (some a) := by
  simp only [init, R.bind_eq_ok] at e
  obtain ⟨h, h1, _, h2, _, h3, _, h4, h5⟩ := e
  have h2 := of_decide_eq_true (assert_inv h2)
  have h3 := of_decide_eq_true (assert_inv h3)
  have h4 := of_decide_eq_true (assert_inv h4)
  cases h5
  subst h2
  unfold create at h4 ⊢
  by_cases ha : a % 8 = 0
  · rw [if_pos ha] at h4 ⊢
    exact ⟨get_inv h1, h3, ha, h4, rfl⟩
  · rw [if_neg ha] at h4
    exact absurd rfl h4

theorem destroy_inv {w w' : World} {i : Nat} (e : destroy w i = .ok w') : (∃ h, w i = some h) ∧ w' = w.put i (some 0) := by
  simp only [destroy, R.bind_eq_ok] at e
  obtain ⟨h, h1, h2⟩ := e
  have h1 := get_inv h1
  refine ⟨⟨h, h1⟩, ?_⟩
  split at h2
  · cases h2; rfl
  · rename_i hz
    cases h2
    funext j
    by_cases e : j = i
    · subst e
      rw [put_self, h1, Classical.not_not.1 hz]
    · rw [put_other _ _ e]

/-- The calls, in words: nothing changes, or one of the four changes. -/
theorem step_inv {w w' : World} {op : Op} {n : Nat} (e : step w op = .ok (w', n)) :
    match op with
    | .make i => w i = none ∧ w' = w.put i (some 0) ∧ n = 0
    | .makeWith i a m => w i = none ∧ controlSize < m ∧ a % 8 = 0 ∧ a ≠ 0 ∧ w' = w.put i (some a) ∧ n = 0
    | .makeMoved j i => w j = none ∧ ∃ h, w i = some h ∧ w' = (w.put j (some h)).put i (some 0) ∧ n = 0
    | .setup i a m => w i = some 0 ∧ controlSize < m ∧ a % 8 = 0 ∧ a ≠ 0 ∧ w' = w.put i (some a) ∧ n = 0
    | .destroy i => (∃ h, w i = some h) ∧ w' = w.put i (some 0) ∧ n = 0
    | .drop i => (∃ h, w i = some h) ∧ w' = w.put i none ∧ n = 0
    | .equalMoved i j => (∃ h, w i = some h) ∧ ∃ h, (w.put i (some 0)) j = some h ∧ w' = ((w.put i (some 0)).put i (some h)).put j (some 0) ∧ n = 0
    | .addPool i _ _ => w' = w ∧ Has w i n
    | .alloc i m => w' = w ∧ 0 < m ∧ Has w i n
    | .free i ptr => w' = w ∧ (∃ h, w i = some h) ∧ (ptr = 0 ∧ n = 0 ∨ ptr ≠ 0 ∧ Has w i n)
    | .validate i => w' = w ∧ Has w i n := by
  cases op with
  | make i =>
    simp only [step, R.bind_eq_ok] at e
    obtain ⟨_, h1, h2⟩ := e
    cases h2
    exact ⟨fresh_inv h1, rfl, rfl⟩
  | makeWith i a m =>
    simp only [step, R.bind_eq_ok] at e
    obtain ⟨_, h1, w1, h2, h3⟩ := e
    cases h3
    obtain ⟨-, h4, h5, h6, rfl⟩ := init_inv h2
    refine ⟨fresh_inv h1, h4, h5, h6, ?_, rfl⟩
    funext j
    by_cases e : j = i
    · subst e; rw [put_self, put_self]
    · rw [put_other _ _ e, put_other _ _ e, put_other _ _ e]
  | makeMoved j i =>
    simp only [step, R.bind_eq_ok] at e
    obtain ⟨_, h1, h, h2, h3⟩ := e
    cases h3
    exact ⟨fresh_inv h1, h, get_inv h2, rfl, rfl⟩
  | setup i a m =>
    simp only [step, R.bind_eq_ok] at e
    obtain ⟨w1, h2, h3⟩ := e
    cases h3
    obtain ⟨h1, h4, h5, h6, rfl⟩ := init_inv h2
    exact ⟨h1, h4, h5, h6, rfl, rfl⟩
  | destroy i =>
    simp only [step, R.bind_eq_ok] at e
    obtain ⟨w1, h2, h3⟩ := e
    cases h3
    obtain ⟨h1, rfl⟩ := destroy_inv h2
    exact ⟨h1, rfl, rfl⟩
  | drop i =>
    simp only [step, R.bind_eq_ok] at e
    obtain ⟨w1, h2, h3⟩ := e
    cases h3
    obtain ⟨h1, rfl⟩ := destroy_inv h2
    refine ⟨h1, ?_, rfl⟩
    funext j
    by_cases e : j = i
    · subst e; rw [put_self, put_self]
    · rw [put_other _ _ e, put_other _ _ e, put_other _ _ e]
  | equalMoved i j =>
    simp only [step, R.bind_eq_ok] at e
    obtain ⟨w1, h2, h, h3, h4⟩ := e
    cases h4
    obtain ⟨h1, rfl⟩ := destroy_inv h2
    exact ⟨h1, h, get_inv h3, rfl, rfl⟩
  | addPool i a m =>
    simp only [step, R.bind_eq_ok] at e
    obtain ⟨h, h1, _, h2, h3⟩ := e
    cases h3
    exact ⟨rfl, get_inv h1, of_decide_eq_true (assert_inv h2)⟩
  | alloc i m =>
    simp only [step, R.bind_eq_ok] at e
    obtain ⟨h, h1, _, h2, _, h3, h4⟩ := e
    cases h4
    refine ⟨rfl, of_decide_eq_true (assert_inv h2), get_inv h1, fun hz => ?_⟩
    rw [use, if_pos hz] at h3
    cases h3
  | free i ptr =>
    simp only [step, R.bind_eq_ok] at e
    obtain ⟨h, h1, h2⟩ := e
    by_cases hp : ptr = 0
    · rw [if_neg (by simpa using hp)] at h2
      cases h2
      exact ⟨rfl, ⟨h, get_inv h1⟩, .inl ⟨hp, rfl⟩⟩
    · rw [if_pos hp, R.bind_eq_ok] at h2
      obtain ⟨_, h3, h4⟩ := h2
      cases h4
      refine ⟨rfl, ⟨_, get_inv h1⟩, .inr ⟨hp, get_inv h1, fun hz => ?_⟩⟩
      rw [use, if_pos hz] at h3
      cases h3
  | validate i =>
    simp only [step, R.bind_eq_ok] at e
    obtain ⟨h, h1, _, h2, h3⟩ := e
    cases h3
    exact ⟨rfl, get_inv h1, of_decide_eq_true (assert_inv h2)⟩

/-- No heap has two objects. -/
def Apart (w : World) : Prop := ∀ i j h, Has w i h → Has w j h → i = j

theorem Apart.put_none {w : World} (A : Apart w) (i : Nat) (o : Option Nat) (ho : o = none ∨ o = some 0) : Apart (w.put i o) := by
  intro a b h ha hb
  have hn : ¬ (o = some h ∧ h ≠ 0) := by
    rintro ⟨e, hz⟩
    rcases ho with rfl | rfl
    · cases e
    · cases e; exact hz rfl
  rcases has_put.1 ha with ⟨-, h1, h2⟩ | ⟨-, h1⟩
  · exact absurd ⟨h1, h2⟩ hn
  rcases has_put.1 hb with ⟨-, h3, h4⟩ | ⟨-, h3⟩
  · exact absurd ⟨h3, h4⟩ hn
  exact A a b h h1 h3

theorem Apart.put_new {w : World} (A : Apart w) (i a : Nat) (ha : ∀ j, ¬ Has w j a) : Apart (w.put i (some a)) := by
  intro b c h hb hc
  rcases has_put.1 hb with ⟨rfl, h1, -⟩ | ⟨hb', h1⟩
  · cases h1
    rcases has_put.1 hc with ⟨rfl, -, -⟩ | ⟨-, h2⟩
    · rfl
    · exact absurd h2 (ha _)
  · rcases has_put.1 hc with ⟨rfl, h2, -⟩ | ⟨-, h2⟩
    · cases h2; exact absurd h1 (ha _)
    · exact A b c h h1 h2

theorem Apart.step {w w' : World} {op : Op} {n : Nat} (A : Apart w) (L : Legal w op) (e : step w op = .ok (w', n)) : Apart w' := by
  have h := step_inv e
  cases op with
  | make i => obtain ⟨-, rfl, -⟩ := h; exact A.put_none i _ (.inr rfl)
  | makeWith i a m => obtain ⟨-, -, -, -, rfl, -⟩ := h; exact A.put_new i a (L a rfl)
  | makeMoved j i =>
    obtain ⟨hj, x, hi, rfl, -⟩ := h
    intro b c y hb hc
    have key : ∀ d, Has ((w.put j (some x)).put i (some 0)) d y → (d = j ∧ Has w i y) ∨ (d ≠ i ∧ d ≠ j ∧ Has w d y) := by
      intro d hd
      rcases has_put.1 hd with ⟨-, h1, h2⟩ | ⟨h0, h1⟩
      · cases h1; exact absurd rfl h2
      · rcases has_put.1 h1 with ⟨rfl, h2, h3⟩ | ⟨h2, h3⟩
        · cases h2; exact .inl ⟨rfl, hi, h3⟩
        · exact .inr ⟨h0, h2, h3⟩
    rcases key b hb with ⟨rfl, h1⟩ | ⟨h1, h2, h3⟩ <;> rcases key c hc with ⟨rfl, h4⟩ | ⟨h4, h5, h6⟩
    · rfl
    · exact absurd (A _ _ _ h6 h1) h4
    · exact absurd (A _ _ _ h3 h4) h1
    · exact A _ _ _ h3 h6
  | setup i a m => obtain ⟨-, -, -, -, rfl, -⟩ := h; exact A.put_new i a (L a rfl)
  | destroy i => obtain ⟨-, rfl, -⟩ := h; exact A.put_none i _ (.inr rfl)
  | drop i => obtain ⟨-, rfl, -⟩ := h; exact A.put_none i _ (.inl rfl)
  | equalMoved i j =>
    obtain ⟨-, x, hx, rfl, -⟩ := h
    have B : Apart (w.put i (some 0)) := A.put_none i _ (.inr rfl)
    generalize w.put i (some 0) = v at hx B
    intro b c y hb hc
    have key : ∀ d, Has ((v.put i (some x)).put j (some 0)) d y → (d = i ∧ Has v j y) ∨ (d ≠ i ∧ d ≠ j ∧ Has v d y) := by
      intro d hd
      rcases has_put.1 hd with ⟨-, h1, h2⟩ | ⟨h0, h1⟩
      · cases h1; exact absurd rfl h2
      · rcases has_put.1 h1 with ⟨rfl, h2, h3⟩ | ⟨h2, h3⟩
        · cases h2; exact .inl ⟨rfl, hx, h3⟩
        · exact .inr ⟨h2, h0, h3⟩
    rcases key b hb with ⟨rfl, h1⟩ | ⟨h1, h2, h3⟩ <;> rcases key c hc with ⟨rfl, h4⟩ | ⟨h4, h5, h6⟩
    · rfl
    · exact absurd (B _ _ _ h6 h1) h5
    · exact absurd (B _ _ _ h3 h4) h2
    · exact B _ _ _ h3 h6
  | addPool i a m => obtain ⟨rfl, -⟩ := h; exact A
  | alloc i m => obtain ⟨rfl, -⟩ := h; exact A
  | free i p => obtain ⟨rfl, -⟩ := h; exact A
  | validate i => obtain ⟨rfl, -⟩ := h; exact A

theorem Apart.run {ops : List Op} : ∀ {w w' : World} {ns : List Nat}, Apart w → LegalRun w ops → run w ops = .ok (w', ns) → Apart w' := by
  induction ops with
  | nil => intro w w' ns A _ e; cases e; exact A
  | cons op ops ih =>
    intro w w' ns A L e
    simp only [Tlsf.run, R.bind_eq_ok] at e
    obtain ⟨⟨w1, n⟩, e1, ⟨w2, ns2⟩, e2, e3⟩ := e
    cases e3
    exact ih (A.step L.1 e1) (L.2 _ _ e1) e2

theorem Apart.start : Apart start := fun _ _ _ h => by cases h.1

/-! ### properties -/

/-- **C131.** After every history that keeps to the rule for buffers, no two objects have the same heap; and a heap that an object has
stays with exactly one object through every call but `destroy`, the destructor and the assignment to the object that has it. -/
theorem C131_tlsf_exclusive (ops : List Op) (hl : LegalRun start ops) {w : World} {ns : List Nat} (h : run start ops = .ok (w, ns)) :
    (∀ i j x, Has w i x → Has w j x → i = j) ∧
    ∀ op w' n, Legal w op → step w op = .ok (w', n) → ∀ i x, Has w i x → op.ends ≠ some i → ∃ j, Has w' j x ∧ ∀ k, Has w' k x → k = j := by
  have A := Apart.start.run hl h
  refine ⟨A, fun op w' n L e i x hx hne => ?_⟩
  have A' := A.step L e
  suffices ∃ j, Has w' j x by
    obtain ⟨j, hj⟩ := this
    exact ⟨j, hj, fun k hk => A' k j x hk hj⟩
  have h := step_inv e
  cases op with
  | make j =>
    obtain ⟨hj, rfl, -⟩ := h
    exact ⟨i, has_put.2 (.inr ⟨fun e => (by rw [← e, hx.1] at hj; cases hj), hx⟩)⟩
  | makeWith j a m =>
    obtain ⟨hj, -, -, -, rfl, -⟩ := h
    exact ⟨i, has_put.2 (.inr ⟨fun e => (by rw [← e, hx.1] at hj; cases hj), hx⟩)⟩
  | makeMoved j k =>
    obtain ⟨hj, y, hk, rfl, -⟩ := h
    have hij : i ≠ j := fun e => by rw [← e, hx.1] at hj; cases hj
    by_cases eik : i = k
    · subst eik
      have : y = x := by rw [hx.1] at hk; cases hk; rfl
      subst this
      exact ⟨j, has_put.2 (.inr ⟨fun e => hij e.symm, has_put.2 (.inl ⟨rfl, rfl, hx.2⟩)⟩)⟩
    · exact ⟨i, has_put.2 (.inr ⟨eik, has_put.2 (.inr ⟨hij, hx⟩)⟩)⟩
  | setup j a m =>
    obtain ⟨hj, -, -, -, rfl, -⟩ := h
    exact ⟨i, has_put.2 (.inr ⟨fun e => by rw [← e, hx.1] at hj; cases hj; exact hx.2 rfl, hx⟩)⟩
  | destroy j =>
    obtain ⟨-, rfl, -⟩ := h
    exact ⟨i, has_put.2 (.inr ⟨fun e => hne (by rw [e]; rfl), hx⟩)⟩
  | drop j =>
    obtain ⟨-, rfl, -⟩ := h
    exact ⟨i, has_put.2 (.inr ⟨fun e => hne (by rw [e]; rfl), hx⟩)⟩
  | equalMoved j k =>
    obtain ⟨-, y, hy, rfl, -⟩ := h
    have hij : i ≠ j := fun e => hne (by rw [e]; rfl)
    by_cases eik : i = k
    · subst eik
      rw [put_other _ _ hij, hx.1] at hy
      cases hy
      exact ⟨j, has_put.2 (.inr ⟨fun e => hij e.symm, has_put.2 (.inl ⟨rfl, rfl, hx.2⟩)⟩)⟩
    · exact ⟨i, has_put.2 (.inr ⟨eik, has_put.2 (.inr ⟨hij, has_put.2 (.inr ⟨hij, hx⟩)⟩)⟩)⟩
  | addPool j a m => obtain ⟨rfl, -⟩ := h; exact ⟨i, hx⟩
  | alloc j m => obtain ⟨rfl, -⟩ := h; exact ⟨i, hx⟩
  | free j p => obtain ⟨rfl, -⟩ := h; exact ⟨i, hx⟩
  | validate j => obtain ⟨rfl, -⟩ := h; exact ⟨i, hx⟩

/-- **C131.** Every call that uses a heap uses that of its object. -/
theorem C131_tlsf_uses_own (w w' : World) (op : Op) (n : Nat) (h : step w op = .ok (w', n)) (hn : n ≠ 0) :
    ∃ i, Has w i n ∧ w' = w ∧ ((∃ a m, op = .addPool i a m) ∨ (∃ m, op = .alloc i m) ∨ (∃ p, op = .free i p) ∨ op = .validate i) := by
  have h := step_inv h
  cases op with
  | make j => exact absurd h.2.2 hn
  | makeWith j a m => exact absurd h.2.2.2.2.2 hn
  | makeMoved j k => obtain ⟨-, _, -, -, h⟩ := h; exact absurd h hn
  | setup j a m => exact absurd h.2.2.2.2.2 hn
  | destroy j => exact absurd h.2.2 hn
  | drop j => exact absurd h.2.2 hn
  | equalMoved j k => obtain ⟨-, _, -, -, h⟩ := h; exact absurd h hn
  | addPool j a m => exact ⟨j, h.2, h.1, .inl ⟨a, m, rfl⟩⟩
  | alloc j m => exact ⟨j, h.2.2, h.1, .inr (.inl ⟨m, rfl⟩)⟩
  | free j p =>
    rcases h.2.2 with ⟨-, h1⟩ | ⟨-, h1⟩
    · exact absurd h1 hn
    · exact ⟨j, h1, h.1, .inr (.inr (.inl ⟨p, rfl⟩))⟩
  | validate j => exact ⟨j, h.2, h.1, .inr (.inr (.inr rfl))⟩

/-- **C131.** An object that has a heap refuses to be initialised; one that has none accepts exactly the aligned buffers that are greater
than the control structure, and then has the heap there. -/
theorem C131_tlsf_initialize (w : World) (i a n : Nat) :
    (∀ h, Has w i h → step w (.setup i a n) = .error .assert) ∧
    (Empty w i → step w (.setup i a n) = if controlSize < n ∧ a % 8 = 0 ∧ a ≠ 0 then .ok (w.put i (some a), 0) else .error .assert) := by
  refine ⟨fun h hh => ?_, fun he => ?_⟩
  · simp only [step, init, get_ok hh.1, R.ok_bind, decide_eq_false hh.2, ccAssert_false, R.error_bind]
  · simp only [step, init, get_ok he, R.ok_bind, decide_true, ccAssert_true rfl]
    by_cases h1 : controlSize < n
    · rw [ccAssert_true (decide_eq_true h1), R.ok_bind]
      unfold create
      by_cases h2 : a % 8 = 0
      · rw [if_pos h2]
        by_cases h3 : a = 0
        · rw [decide_eq_false (by simpa using h3), ccAssert_false rfl, R.error_bind, R.error_bind, if_neg (fun h => h.2.2 h3)]
        · rw [ccAssert_true (decide_eq_true h3), R.ok_bind, if_pos ⟨h1, h2, h3⟩]; rfl
      · rw [if_neg h2, if_neg (fun h => h2 h.2.1)]; rfl
    · rw [decide_eq_false h1, ccAssert_false rfl, R.error_bind, R.error_bind, if_neg (fun h => h1 h.1)]

/-- **C131.** After `destroy`, and after it was moved from, an object has no heap, like a new one; the object made from it has the heap. -/
theorem C131_tlsf_empty (w w' : World) (n : Nat) :
    (∀ i, step w (.make i) = .ok (w', n) → Empty w' i) ∧
    (∀ i, step w (.destroy i) = .ok (w', n) → Empty w' i ∧ ∀ j, j ≠ i → w' j = w j) ∧
    (∀ i j h, Has w i h → step w (.makeMoved j i) = .ok (w', n) → Has w' j h ∧ Empty w' i ∧ ∀ k, k ≠ i → k ≠ j → w' k = w k) := by
  refine ⟨fun i e => ?_, fun i e => ?_, fun i j h hh e => ?_⟩
  · obtain ⟨-, rfl, -⟩ := step_inv e; exact put_self _ _ _
  · obtain ⟨-, rfl, -⟩ := step_inv e; exact ⟨put_self _ _ _, fun j hj => put_other _ _ hj⟩
  · obtain ⟨hj, x, hx, rfl, -⟩ := step_inv e
    rw [hh.1] at hx
    cases hx
    have hij : j ≠ i := fun e => by rw [e, hh.1] at hj; cases hj
    exact ⟨has_put.2 (.inr ⟨hij, has_put.2 (.inl ⟨rfl, rfl, hh.2⟩)⟩), put_self _ _ _,
      fun k h1 h2 => by rw [put_other _ _ h1, put_other _ _ h2]⟩

/-- **C131.** An object without a heap refuses `add_pool` and `validate_heap`, and takes the null pointer back. -/
theorem C131_tlsf_uninitialised (w : World) (i : Nat) (he : Empty w i) :
    (∀ a n, step w (.addPool i a n) = .error .assert) ∧ step w (.validate i) = .error .assert ∧ step w (.free i 0) = .ok (w, 0) := by
  refine ⟨fun a n => ?_, ?_, ?_⟩ <;> simp only [step, get_ok he, R.ok_bind] <;> rfl

/-- **C131 is false for `alloc`**: without a heap it is not refused but undefined (the null pointer is used as a heap). -/
theorem C131_tlsf_uninitialised_alloc (w : World) (i : Nat) (he : Empty w i) (size : Nat) (hs : 0 < size) :
    step w (.alloc i size) = .error .ub := by
  simp only [step, get_ok he, R.ok_bind, ccAssert_true (decide_eq_true hs), use, if_true, R.error_bind]

/-- **C131 is false for `==`**: the comparison of an object with one that is moved does not compare. It gives up the heap of the left
object, which no object has from then on, and takes that of the right; compared with itself the object loses its heap. -/
theorem C131_tlsf_equal_moves (w : World) (i j x y : Nat) (A : ∀ i j h, Has w i h → Has w j h → i = j) (hx : Has w i x) (hy : Has w j y) :
    ∃ w', step w (.equalMoved i j) = .ok (w', 0) ∧ Empty w' j ∧ (∀ k, ¬ Has w' k x) ∧ (i ≠ j → Has w' i y) := by
  have e1 : destroy w i = .ok (w.put i (some 0)) := by
    simp only [destroy, get_ok hx.1, R.ok_bind]
    rw [if_pos hx.2]; rfl
  by_cases e : i = j
  · subst e
    refine ⟨((w.put i (some 0)).put i (some 0)).put i (some 0), ?_, put_self _ _ _, fun k hk => ?_, fun h => absurd rfl h⟩
    · simp only [step, e1, R.ok_bind, get_ok (put_self w i (some 0)), R.pure_eq]
    · rcases has_put.1 hk with ⟨-, h1, h2⟩ | ⟨h0, h1⟩
      · cases h1; exact h2 rfl
      · rcases has_put.1 h1 with ⟨h2, -⟩ | ⟨-, h2⟩
        · exact h0 h2
        · rcases has_put.1 h2 with ⟨h3, -⟩ | ⟨-, h3⟩
          · exact h0 h3
          · exact h0 (A _ _ _ h3 hx)
  · have ej : (w.put i (some 0)) j = some y := by rw [put_other _ _ (fun h => e h.symm)]; exact hy.1
    refine ⟨((w.put i (some 0)).put i (some y)).put j (some 0), ?_, put_self _ _ _, fun k hk => ?_, fun _ => ?_⟩
    · simp only [step, e1, R.ok_bind, get_ok ej, R.pure_eq]
    · rcases has_put.1 hk with ⟨-, h1, h2⟩ | ⟨h0, h1⟩
      · cases h1; exact h2 rfl
      · rcases has_put.1 h1 with ⟨rfl, h2, -⟩ | ⟨h2, h3⟩
        · cases h2; exact e (A _ _ _ hx hy)
        · rcases has_put.1 h3 with ⟨h4, -⟩ | ⟨-, h4⟩
          · exact h2 h4
          · exact h2 (A _ _ _ h4 hx)
    · exact has_put.2 (.inr ⟨e, has_put.2 (.inl ⟨rfl, rfl, hy.2⟩)⟩)

/-! ### examples -/

/-- One heap goes from object to object, the first of which gets another. -/
def demo : List Op :=
  [.make 0, .setup 0 0x1000 8192, .alloc 0 16, .makeMoved 1 0, .alloc 1 16, .setup 0 0x8000 8192, .alloc 0 1, .free 0 0, .validate 1,
   .addPool 1 0x20000 4096, .destroy 0, .destroy 0, .makeWith 2 0x8000 8192, .alloc 2 5, .drop 0, .drop 1, .drop 2]

example : (run start demo).toOption.map (fun r => r.2) =
    some [0, 0, 0x1000, 0, 0x1000, 0, 0x8000, 0, 0x1000, 0x1000, 0, 0, 0, 0x8000, 0, 0, 0] := by decide +kernel

/-- The comparison: the heap at 0x1000 is lost. -/
example : (run start [.makeWith 0 0x1000 8192, .makeWith 1 0x8000 8192, .equalMoved 0 1]).toOption.map (fun r => (r.1 0, r.1 1)) =
    some (some 0x8000, some 0) := by decide +kernel

/-- Legal for the theorem: two heaps and a move. -/
example : LegalRun start [.makeWith 0 0x1000 8192, .makeWith 1 0x8000 8192, .makeMoved 2 1] := by
  refine ⟨fun a _ i h => (by cases h.1), fun w n e => ⟨fun a ha i h => ?_, fun _ _ _ => ⟨fun a h => (by cases h), fun _ _ _ => trivial⟩⟩⟩
  obtain ⟨-, -, -, -, rfl, -⟩ := step_inv e
  cases ha
  rcases has_put.1 h with ⟨-, h1, -⟩ | ⟨-, h1⟩
  · cases h1
  · cases h1.1

end Verif.Life.Tlsf
