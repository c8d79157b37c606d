import Verif.Life.VirtualSpec

/-!
Property C131, the life of the virtual allocators.
-/
namespace Verif.Life.Virtual

/-! ### lemmas -/

/-- What an object holds. -/
def Holds (v : Option (Option (Nat × Nat × Nat))) (o : Option Obj) : Prop :=
  match v with
  | none => o = none
  | some none => ∃ x, o = some x ∧ x.vbegin = 0
  | some (some (a, m, u)) => ∃ x, o = some x ∧ x.vbegin = a ∧ x.vend = a + m ∧ x.cur = a + u ∧ u ≤ m ∧ a ≠ 0 ∧ 0 < m ∧ a + m < 2 ^ 64

/-- The modelled objects and ranges are those expected. -/
structure Rep (s : Spec) (w : World) : Prop where
  holds : ∀ i, Holds (s i) (w.objs i)
  ranges : ∀ a m, (a, m) ∈ w.ranges ↔ ∃ i u, s i = some (some (a, m, u))
  apart : ∀ i j a m u b n v, s i = some (some (a, m, u)) → s j = some (some (b, n, v)) → i ≠ j → a + m ≤ b ∨ b + n ≤ a
  nodup : w.ranges.Nodup

theorem Rep.start : Rep Spec.start start :=
  ⟨fun _ => rfl, fun a m => by simp [Virtual.start, Spec.start], fun i j a m u b n v h => (by cases h), List.nodup_nil⟩

theorem Rep.absent {s : Spec} {w : World} (h : Rep s w) {i : Nat} (e : s i = none) : w.objs i = none := by
  have := h.holds i; rw [e] at this; exact this

theorem Rep.empty {s : Spec} {w : World} (h : Rep s w) {i : Nat} (e : s i = some none) : ∃ x, w.objs i = some x ∧ x.vbegin = 0 := by
  have := h.holds i; rw [e] at this; exact this

theorem Rep.held {s : Spec} {w : World} (h : Rep s w) {i a m u : Nat} (e : s i = some (some (a, m, u))) :
    ∃ x, w.objs i = some x ∧ x.vbegin = a ∧ x.vend = a + m ∧ x.cur = a + u ∧ u ≤ m ∧ a ≠ 0 ∧ 0 < m ∧ a + m < 2 ^ 64 := by
  have := h.holds i; rw [e] at this; exact this

theorem put_self (s : Spec) (i : Nat) (v) : s.put i v i = v := if_pos rfl
theorem put_other (s : Spec) {i j : Nat} (v) (h : j ≠ i) : s.put i v j = s j := if_neg h

theorem diff_add (a m : Nat) (h : a + m < 2 ^ 64) : diff (a + m) a = m := by
  unfold diff
  rw [Nat.mod_eq_of_lt (show a < 2 ^ 64 by omega), show a + m + (2 ^ 64 - a) = m + 2 ^ 64 by omega, Nat.add_mod_right]
  exact Nat.mod_eq_of_lt (by omega)

theorem isPow2_pow (k : Nat) : isPow2 (2 ^ k) = true := by
  unfold isPow2
  rw [Nat.and_two_pow_sub_one_eq_mod, Nat.mod_self]; rfl

/-- Replacing what an object holds by something with the same range, or with none if it had none. -/
theorem Rep.keep {s : Spec} {w : World} (h : Rep s w) {i : Nat} {v : Option (Option (Nat × Nat × Nat))} {o : Option Obj} (ho : Holds v o)
    (hv : ∀ a m, (∃ u, v = some (some (a, m, u))) ↔ ∃ u, s i = some (some (a, m, u))) : Rep (s.put i v) (w.put i o) := by
  have key : ∀ j a m, (∃ u, s.put i v j = some (some (a, m, u))) ↔ ∃ u, s j = some (some (a, m, u)) := by
    intro j a m
    by_cases e : j = i
    · subst e; rw [put_self]; exact hv a m
    · rw [put_other _ _ e]
  refine ⟨fun j => ?_, fun a m => ?_, fun j k a m u b n u' hj hk hne => ?_, h.nodup⟩
  · by_cases e : j = i
    · subst e
      rw [put_self, show (w.put j o).objs j = o from if_pos rfl]
      exact ho
    · rw [put_other _ _ e, show (w.put i o).objs j = w.objs j from if_neg e]
      exact h.holds j
  · rw [show (w.put i o).ranges = w.ranges from rfl, h.ranges]
    exact ⟨fun ⟨j, hj⟩ => ⟨j, (key j a m).2 hj⟩, fun ⟨j, hj⟩ => ⟨j, (key j a m).1 hj⟩⟩
  · obtain ⟨u1, h1⟩ := (key j a m).1 ⟨u, hj⟩
    obtain ⟨u2, h2⟩ := (key k b n).1 ⟨u', hk⟩
    exact h.apart j k a m u1 b n u2 h1 h2 hne

/-- An object gives its range back. -/
theorem Rep.give {s : Spec} {w : World} (h : Rep s w) {i a m u : Nat} (e : s i = some (some (a, m, u)))
    {v : Option (Option (Nat × Nat × Nat))} {o : Option Obj} (ho : Holds v o) (hv : v = Option.none ∨ v = some Option.none) :
    (a, m) ∈ w.ranges ∧ Rep (s.put i v) (({ w with ranges := w.ranges.erase (a, m) } : World).put i o) := by
  have hnv : ∀ x, v ≠ some (some x) := by rcases hv with rfl | rfl <;> intro x hx <;> cases hx
  refine ⟨(h.ranges a m).2 ⟨i, u, e⟩, fun j => ?_, fun b n => ?_, fun j k b n u' c l u2 hj hk hne => ?_, h.nodup.erase _⟩
  · by_cases e' : j = i
    · subst e'
      rw [put_self, show ((({ w with ranges := w.ranges.erase (a, m) } : World).put j o)).objs j = o from if_pos rfl]
      exact ho
    · rw [put_other _ _ e', show ((({ w with ranges := w.ranges.erase (a, m) } : World).put i o)).objs j = w.objs j from if_neg e']
      exact h.holds j
  · change (b, n) ∈ w.ranges.erase (a, m) ↔ _
    rw [h.nodup.mem_erase_iff, h.ranges]
    constructor
    · rintro ⟨hne, j, u', hj⟩
      have hji : j ≠ i := fun e' => by
        subst e'
        rw [e] at hj
        cases hj
        exact hne rfl
      exact ⟨j, u', by rw [put_other _ _ hji]; exact hj⟩
    · rintro ⟨j, u', hj⟩
      have hji : j ≠ i := fun e' => by
        subst e'
        rw [put_self] at hj
        exact hnv _ hj
      rw [put_other _ _ hji] at hj
      refine ⟨fun e' => ?_, j, u', hj⟩
      cases e'
      obtain ⟨-, -, -, -, -, -, -, hm, -⟩ := h.held e
      rcases h.apart j i _ _ _ _ _ _ hj e hji with h1 | h1 <;> omega
  · have hji : j ≠ i := fun e' => by
      subst e'; rw [put_self] at hj; exact hnv _ hj
    have hki : k ≠ i := fun e' => by
      subst e'; rw [put_self] at hk; exact hnv _ hk
    rw [put_other _ _ hji] at hj
    rw [put_other _ _ hki] at hk
    exact h.apart j k _ _ _ _ _ _ hj hk hne

/-- An object that holds nothing takes a range. -/
theorem Rep.take {s : Spec} {w : World} (h : Rep s w) {i a m : Nat} (e : s i = some none) (hm : 0 < m) (ha : a ≠ 0) (hb : a + m < 2 ^ 64)
    (hd : ∀ j b n u, s j = some (some (b, n, u)) → a + m ≤ b ∨ b + n ≤ a) :
    Rep (s.put i (some (some (a, m, 0))))
      (({ w with ranges := (a, m) :: w.ranges } : World).put i (some { vbegin := a, vend := a + m, cur := a, pend := a })) := by
  refine ⟨fun j => ?_, fun b n => ?_, fun j k b n u c l u' hj hk hne => ?_, ?_⟩
  · by_cases e' : j = i
    · subst e'
      rw [put_self, show ((({ w with ranges := (a, m) :: w.ranges } : World).put j _)).objs j = _ from if_pos rfl]
      exact ⟨_, rfl, rfl, rfl, rfl, Nat.zero_le _, ha, hm, hb⟩
    · rw [put_other _ _ e', show ((({ w with ranges := (a, m) :: w.ranges } : World).put i _)).objs j = w.objs j from if_neg e']
      exact h.holds j
  · change (b, n) ∈ (a, m) :: w.ranges ↔ _
    rw [List.mem_cons, h.ranges]
    constructor
    · rintro (he | ⟨j, u, hj⟩)
      · cases he; exact ⟨i, 0, put_self _ _ _⟩
      · refine ⟨j, u, ?_⟩
        rw [put_other _ _ (fun e' => by subst e'; rw [e] at hj; cases hj)]
        exact hj
    · rintro ⟨j, u, hj⟩
      by_cases e' : j = i
      · subst e'; rw [put_self] at hj; cases hj; exact .inl rfl
      · rw [put_other _ _ e'] at hj; exact .inr ⟨j, u, hj⟩
  · by_cases e1 : j = i
    · subst e1
      rw [put_self] at hj
      rw [put_other _ _ (fun e' => hne e'.symm)] at hk
      cases hj
      exact hd k _ _ _ hk
    · rw [put_other _ _ e1] at hj
      by_cases e2 : k = i
      · subst e2
        rw [put_self] at hk
        cases hk
        exact (hd j _ _ _ hj).symm
      · rw [put_other _ _ e2] at hk
        exact h.apart j k _ _ _ _ _ _ hj hk hne
  · refine List.nodup_cons.2 ⟨fun hmem => ?_, h.nodup⟩
    obtain ⟨j, u, hj⟩ := (h.ranges a m).1 hmem
    rcases hd j _ _ _ hj with h1 | h1 <;> omega

theorem get_ok {w : World} {i : Nat} {o : Obj} (h : w.objs i = some o) : w.get i = .ok o := by rw [World.get, h]

theorem roomFor_ok {s : Spec} {w : World} (h : Rep s w) {a n : Nat} (ha : a ≠ 0)
    (hd : ∀ j b m u, s j = some (some (b, m, u)) → a + n ≤ b ∨ b + m ≤ a) : w.roomFor a n = true := by
  rw [World.roomFor, Bool.and_eq_true, decide_eq_true_eq, List.all_eq_true]
  refine ⟨ha, fun r hr => ?_⟩
  obtain ⟨j, u, hj⟩ := (h.ranges r.1 r.2).1 hr
  have := hd j _ _ _ hj
  rw [overlap, ← decide_not, decide_eq_true_eq]
  change ¬(a < r.1 + r.2 ∧ r.1 < a + n)
  omega

theorem step_ok {s t : Spec} {w : World} {op : Op} {n : Nat} (h : Rep s w) (hs : Spec.Step s op t n) :
    ∃ w', step w op = .ok (w', n) ∧ Rep t w' := by
  cases hs with
  | @make i hi =>
    refine ⟨w.put i (some {}), ?_, h.keep ⟨_, rfl, rfl⟩ (fun a m => ?_)⟩
    · rw [step, h.absent hi]
    · rw [hi]; exact ⟨fun ⟨_, e⟩ => (by cases e), fun ⟨_, e⟩ => (by cases e)⟩
  | @setup i n c a hi hn hc ha hb hd =>
    obtain ⟨x, hx, -⟩ := h.empty hi
    obtain ⟨k, rfl⟩ := hc
    refine ⟨_, ?_, h.take hi hn ha hb hd⟩
    have hp : 0 < 2 ^ k := Nat.two_pow_pos k
    simp only [step, init, get_ok hx, R.ok_bind, reserve, roomFor_ok h ha hd, ne_eq, show ¬ n = 0 by omega, not_false_eq_true, and_self, if_true,
      ccAssert_true (decide_eq_true (show n > 0 ∧ 2 ^ k > 0 from ⟨hn, hp⟩)), isPow2_pow, ccAssert_true rfl, ha, decide_true, R.pure_eq]
  | @destroy i v hi =>
    cases v with
    | none =>
      obtain ⟨x, hx, h0⟩ := h.empty hi
      refine ⟨w, ?_, ?_⟩
      · simp only [step, Virtual.destroy, get_ok hx, R.ok_bind, h0, ne_eq, not_true_eq_false, if_false, R.pure_eq]
      · have : s.put i (some none) = s := by
          funext j
          by_cases e : j = i
          · subst e; rw [put_self, hi]
          · rw [put_other _ _ e]
        rw [this]; exact h
    | some v =>
      obtain ⟨a, m, u⟩ := v
      obtain ⟨x, hx, e1, e2, -, -, h0, -, -⟩ := h.held hi
      obtain ⟨hmem, hr⟩ := h.give hi (v := some none) (o := some { x with vbegin := 0 }) ⟨_, rfl, rfl⟩ (.inr rfl)
      refine ⟨_, ?_, hr⟩
      simp only [step, Virtual.destroy, get_ok hx, R.ok_bind, e1, e2, ne_eq, h0, not_false_eq_true, if_true, Nat.add_sub_cancel_left, release, hmem,
        R.pure_eq]
  | @drop i v hi =>
    cases v with
    | none =>
      obtain ⟨x, hx, h0⟩ := h.empty hi
      refine ⟨w.put i none, ?_, h.keep rfl (fun a m => ?_)⟩
      · simp only [step, Virtual.destroy, get_ok hx, R.ok_bind, h0, ne_eq, not_true_eq_false, if_false, R.pure_eq]
      · rw [hi]; exact ⟨fun ⟨_, e⟩ => (by cases e), fun ⟨_, e⟩ => (by cases e)⟩
    | some v =>
      obtain ⟨a, m, u⟩ := v
      obtain ⟨x, hx, e1, e2, -, -, h0, -, -⟩ := h.held hi
      obtain ⟨hmem, hr⟩ := h.give hi (v := none) (o := none) rfl (.inl rfl)
      refine ⟨_, ?_, hr⟩
      simp only [step, Virtual.destroy, get_ok hx, R.ok_bind, e1, e2, ne_eq, h0, not_false_eq_true, if_true, Nat.add_sub_cancel_left, release, hmem,
        R.pure_eq]
      congr 2
      simp only [World.put]
      congr 1
      funext j
      by_cases e : j = i <;> simp [e]
  | @alloc i n a m u hi hu =>
    obtain ⟨x, hx, e1, e2, e3, hum, h0, hm, hb⟩ := h.held hi
    refine ⟨w.put i (some { x with cur := x.cur + n, pend := max x.pend (x.cur + n) }), ?_, h.keep ⟨_, rfl, e1, e2, ?_, hu, h0, hm, hb⟩ (fun b l => ?_)⟩
    · simp only [step, get_ok hx, R.ok_bind, e1, e2, e3, ne_eq, h0, not_false_eq_true, decide_true, ccAssert_true rfl,
        ccAssert_true (decide_eq_true (show a + u + n ≤ a + m by omega)), R.pure_eq]
    · change x.cur + n = a + (u + n); omega
    · rw [hi]
      exact ⟨fun ⟨_, e⟩ => by cases e; exact ⟨_, rfl⟩, fun ⟨_, e⟩ => by cases e; exact ⟨_, rfl⟩⟩
  | @reset i a m u hi =>
    obtain ⟨x, hx, e1, e2, e3, hum, h0, hm, hb⟩ := h.held hi
    refine ⟨w.put i (some { x with cur := x.vbegin }), ?_, h.keep ⟨_, rfl, e1, e2, e1, Nat.zero_le _, h0, hm, hb⟩ (fun b l => ?_)⟩
    · simp only [step, get_ok hx, R.ok_bind, e1, e3, diff_add a n (by omega), R.pure_eq]
    · rw [hi]
      exact ⟨fun ⟨_, e⟩ => by cases e; exact ⟨_, rfl⟩, fun ⟨_, e⟩ => by cases e; exact ⟨_, rfl⟩⟩
  | @virtualSize i a m u hi =>
    obtain ⟨x, hx, e1, e2, e3, hum, h0, hm, hb⟩ := h.held hi
    exact ⟨w, by simp only [step, get_ok hx, R.ok_bind, e1, e2, diff_add a n (by omega), R.pure_eq], h⟩
  | @allocatedSize i a m u hi =>
    obtain ⟨x, hx, e1, e2, e3, hum, h0, hm, hb⟩ := h.held hi
    exact ⟨w, by simp only [step, get_ok hx, R.ok_bind, e1, e3, diff_add a n (by omega), R.pure_eq], h⟩

theorem run_ok {s t : Spec} {w : World} {ops : List Op} {ns : List Nat} (h : Rep s w) (hr : Spec.Run s ops t ns) :
    ∃ w', run w ops = .ok (w', ns) ∧ Rep t w' := by
  induction hr generalizing w with
  | nil => exact ⟨w, rfl, h⟩
  | cons hs _ ih =>
    obtain ⟨w1, e1, h1⟩ := step_ok h hs
    obtain ⟨w2, e2, h2⟩ := ih h1
    exact ⟨w2, by rw [run, e1, R.ok_bind]; dsimp only; rw [e2]; rfl, h2⟩

theorem run_append {w w1 : World} {ops more : List Op} {ns : List Nat} (h : run w ops = .ok (w1, ns)) :
    run w (ops ++ more) = (run w1 more).map (fun r => (r.1, ns ++ r.2)) := by
  induction ops generalizing w ns with
  | nil =>
    cases h
    rw [List.nil_append]
    cases run w1 more <;> rfl
  | cons op ops ih =>
    simp only [run, R.bind_eq_ok] at h
    obtain ⟨⟨w2, n⟩, e1, ⟨w3, ms⟩, e2, e3⟩ := h
    cases e3
    rw [List.cons_append, run, e1, R.ok_bind]
    dsimp only
    rw [ih e2]
    cases run w3 more <;> rfl

/-! ### properties -/

/-- **C131** (partial: of the histories in which `initialize` is only called for objects that hold nothing, and the sizes are only asked
of objects that hold a range). Every such history succeeds and returns what is expected; at its end exactly the ranges that objects
hold are reserved, each once. -/
theorem C131_virtual_partial (ops : List Op) (s : Spec) (ns : List Nat) (h : Spec.Run Spec.start ops s ns) :
    ∃ w, run start ops = .ok (w, ns) ∧ (∀ a m, (a, m) ∈ w.ranges ↔ ∃ i u, s i = some (some (a, m, u))) ∧ w.ranges.Nodup := by
  obtain ⟨w, e, hr⟩ := run_ok Rep.start h
  exact ⟨w, e, hr.ranges, hr.nodup⟩

/-- **C131.** When all objects are gone or destroyed, nothing is reserved. -/
theorem C131_virtual_all_returned_partial (ops : List Op) (s : Spec) (ns : List Nat) (h : Spec.Run Spec.start ops s ns)
    (hs : ∀ i, s i = none ∨ s i = some none) : ∃ w, run start ops = .ok (w, ns) ∧ w.ranges = [] := by
  obtain ⟨w, e, hr⟩ := run_ok Rep.start h
  refine ⟨w, e, List.eq_nil_iff_forall_not_mem.2 fun r hm => ?_⟩
  obtain ⟨i, u, hi⟩ := (hr.ranges r.1 r.2).1 hm
  rcases hs i with h | h <;> rw [h] at hi <;> cases hi

/-- **C131.** An object that holds nothing, because it is new or was destroyed, refuses to allocate; `destroy` does nothing to it, and
`initialize` makes it hold a range whatever it held before. -/
theorem C131_virtual_empty (ops : List Op) (s : Spec) (ns : List Nat) (h : Spec.Run Spec.start ops s ns) (i : Nat) (hi : s i = some none) :
    ∃ w, run start ops = .ok (w, ns) ∧ (∀ n, step w (.alloc i n) = .error .assert) ∧ step w (.destroy i) = .ok (w, 0) ∧
      ∀ n k a, 0 < n → w.roomFor a n = true →
        ∃ w', step w (.setup i n (2 ^ k) (some a)) = .ok (w', 0) ∧ w'.objs i = some { vbegin := a, vend := a + n, cur := a, pend := a } := by
  obtain ⟨w, e, hr⟩ := run_ok Rep.start h
  obtain ⟨x, hx, h0⟩ := hr.empty hi
  refine ⟨w, e, fun n => ?_, ?_, fun n k a hn hroom => ?_⟩
  · simp only [step, get_ok hx, R.ok_bind, h0, ne_eq, not_true_eq_false, decide_false, ccAssert_false, R.error_bind]
  · simp only [step, Virtual.destroy, get_ok hx, R.ok_bind, h0, ne_eq, not_true_eq_false, if_false, R.pure_eq]
  · have ha : a ≠ 0 := by
      rw [World.roomFor, Bool.and_eq_true, decide_eq_true_eq] at hroom
      exact hroom.1
    refine ⟨({ w with ranges := (a, n) :: w.ranges } : World).put i (some { vbegin := a, vend := a + n, cur := a, pend := a }), ?_, if_pos rfl⟩
    have hp : 0 < 2 ^ k := Nat.two_pow_pos k
    simp only [step, init, get_ok hx, R.ok_bind, reserve, hroom, ne_eq, show ¬ n = 0 by omega, not_false_eq_true, and_self, if_true,
      ccAssert_true (decide_eq_true (show n > 0 ∧ 2 ^ k > 0 from ⟨hn, hp⟩)), isPow2_pow, ccAssert_true rfl, ha, decide_true, R.pure_eq]

/-- A range that is reserved though no object knows its address. -/
def Lost (a m : Nat) (w : World) : Prop := (a, m) ∈ w.ranges ∧ 0 < m ∧ ∀ i o, w.objs i = some o → o.vbegin ≠ a

theorem Lost.put {a m : Nat} {w : World} (h : Lost a m w) {i : Nat} {o : Option Obj} (ho : ∀ x, o = some x → x.vbegin ≠ a) : Lost a m (w.put i o) := by
  refine ⟨h.1, h.2.1, fun j x hx => ?_⟩
  by_cases e : j = i
  · subst e
    rw [show (w.put j o).objs j = o from if_pos rfl] at hx
    exact ho x hx
  · rw [show (w.put i o).objs j = w.objs j from if_neg e] at hx
    exact h.2.2 j x hx

theorem get_inv {w : World} {i : Nat} {o : Obj} (h : w.get i = .ok o) : w.objs i = some o := by
  unfold World.get at h
  split at h
  · rename_i e; cases h; exact e
  · cases h

theorem Lost.destroy {a m : Nat} {w w' : World} (h : Lost a m w) (ha : a ≠ 0) {i : Nat} (e : destroy w i = .ok w') : Lost a m w' := by
  simp only [Virtual.destroy, R.bind_eq_ok] at e
  obtain ⟨o, ho, e⟩ := e
  have hne := h.2.2 i o (get_inv ho)
  split at e
  · simp only [R.bind_eq_ok, release] at e
    obtain ⟨w1, e1, e2⟩ := e
    split at e1
    · cases e1
      cases e2
      refine Lost.put (w := { w with ranges := w.ranges.erase (o.vbegin, o.vend - o.vbegin) }) (o := some { o with vbegin := 0 })
        ⟨?_, h.2.1, h.2.2⟩ (fun x hx => by cases hx; exact fun e => ha e.symm)
      exact (List.mem_erase_of_ne (fun e => hne (Prod.ext_iff.1 e).1.symm)).2 h.1
    · cases e1
  · cases e; exact h

theorem Lost.step {a m : Nat} {w w' : World} {op : Op} {n : Nat} (h : Lost a m w) (ha : a ≠ 0) (e : step w op = .ok (w', n)) : Lost a m w' := by
  cases op with
  | make i =>
    simp only [Virtual.step] at e
    split at e
    · cases e; exact h.put (fun x hx => by cases hx; exact fun e => ha e.symm)
    · cases e
  | setup i k c room =>
    simp only [Virtual.step, R.bind_eq_ok, init] at e
    obtain ⟨w1, ⟨o, -, ⟨b, w2⟩, e1, e2⟩, e3⟩ := e
    obtain ⟨_, -, _, -, _, -, e2⟩ := e2
    cases e2
    cases e3
    unfold reserve at e1
    split at e1
    · split at e1
      · rename_i hc
        cases e1
        refine Lost.put (w := { w with ranges := (b, k) :: w.ranges }) ⟨List.mem_cons_of_mem _ h.1, h.2.1, h.2.2⟩ (fun x hx => ?_)
        cases hx
        intro hab
        have hr := hc.2
        rw [World.roomFor, Bool.and_eq_true, List.all_eq_true] at hr
        have := hr.2 _ h.1
        rw [overlap, ← decide_not, decide_eq_true_eq] at this
        have hm := h.2.1
        have hk := hc.1
        change b = a at hab
        refine this ⟨?_, ?_⟩
        · change b < a + m; omega
        · change a < b + k; omega
      · cases e1
    · cases e1
  | destroy i =>
    simp only [Virtual.step, R.bind_eq_ok] at e
    obtain ⟨w1, e1, e2⟩ := e
    cases e2
    exact h.destroy ha e1
  | drop i =>
    simp only [Virtual.step, R.bind_eq_ok] at e
    obtain ⟨w1, e1, e2⟩ := e
    cases e2
    exact (h.destroy ha e1).put (fun x hx => by cases hx)
  | alloc i k =>
    simp only [Virtual.step, R.bind_eq_ok] at e
    obtain ⟨o, ho, _, -, _, -, e2⟩ := e
    cases e2
    exact h.put (fun x hx => by cases hx; exact h.2.2 i o (get_inv ho))
  | reset i =>
    simp only [Virtual.step, R.bind_eq_ok] at e
    obtain ⟨o, ho, e2⟩ := e
    cases e2
    exact h.put (fun x hx => by cases hx; exact h.2.2 i o (get_inv ho))
  | virtualSize i =>
    simp only [Virtual.step, R.bind_eq_ok] at e
    obtain ⟨o, ho, e2⟩ := e
    cases e2
    exact h
  | allocatedSize i =>
    simp only [Virtual.step, R.bind_eq_ok] at e
    obtain ⟨o, ho, e2⟩ := e
    cases e2
    exact h

theorem Lost.run {a m : Nat} {ops : List Op} {w w' : World} {ns : List Nat} (h : Lost a m w) (ha : a ≠ 0) (e : run w ops = .ok (w', ns)) :
    Lost a m w' := by
  induction ops generalizing w ns with
  | nil => cases e; exact h
  | cons op ops ih =>
    simp only [Virtual.run, R.bind_eq_ok] at e
    obtain ⟨⟨w1, n⟩, e1, ⟨w2, ns2⟩, e2, e3⟩ := e
    cases e3
    exact ih (h.step ha e1) e2

/-- **C131 is false for a second `initialize`**: if an object that holds a range is initialised again (nothing refuses it), the range it
held is never given back, whatever is called afterwards, even when all objects are destroyed. -/
theorem C131_virtual_leak (ops : List Op) (s : Spec) (ns : List Nat) (h : Spec.Run Spec.start ops s ns) (i a m u : Nat)
    (hi : s i = some (some (a, m, u))) :
    ∃ w, run start ops = .ok (w, ns) ∧
      (∀ n k b, 0 < n → w.roomFor b n = true → ∃ w1, step w (.setup i n (2 ^ k) (some b)) = .ok (w1, 0)) ∧
      ∀ n c b w1 x, step w (.setup i n c b) = .ok (w1, x) → ∀ more w2 ns2, run w1 more = .ok (w2, ns2) → (a, m) ∈ w2.ranges := by
  obtain ⟨w, e, hr⟩ := run_ok Rep.start h
  obtain ⟨x, hx, e1, e2, e3, hum, h0, hm, hb⟩ := hr.held hi
  refine ⟨w, e, fun n k b hn hroom => ?_, fun n c b w1 y he more w2 ns2 hrun => ?_⟩
  · have hb0 : b ≠ 0 := by
      rw [World.roomFor, Bool.and_eq_true, decide_eq_true_eq] at hroom
      exact hroom.1
    have hp : 0 < 2 ^ k := Nat.two_pow_pos k
    refine ⟨({ w with ranges := (b, n) :: w.ranges } : World).put i (some { vbegin := b, vend := b + n, cur := b, pend := b }), ?_⟩
    simp only [step, init, get_ok hx, R.ok_bind, reserve, hroom, ne_eq, show ¬ n = 0 by omega, not_false_eq_true, and_self, if_true,
      ccAssert_true (decide_eq_true (show n > 0 ∧ 2 ^ k > 0 from ⟨hn, hp⟩)), isPow2_pow, ccAssert_true rfl, hb0, decide_true, R.pure_eq]
  · have hmem : (a, m) ∈ w.ranges := (hr.ranges a m).2 ⟨i, u, hi⟩
    suffices Lost a m w1 from (this.run h0 hrun).1
    simp only [Virtual.step, R.bind_eq_ok, init] at he
    obtain ⟨w1', ⟨o, -, ⟨b', w3⟩, e4, e5⟩, e6⟩ := he
    obtain ⟨_, -, _, -, _, -, e5⟩ := e5
    cases e5
    cases e6
    unfold reserve at e4
    split at e4
    · split at e4
      · rename_i hc
        cases e4
        have hroom := hc.2
        rw [World.roomFor, Bool.and_eq_true, List.all_eq_true] at hroom
        have hov := hroom.2 _ hmem
        rw [overlap, ← decide_not, decide_eq_true_eq] at hov
        refine ⟨List.mem_cons_of_mem _ hmem, hm, fun j o ho => ?_⟩
        by_cases ej : j = i
        · subst ej
          rw [show ∀ W : World, ∀ v, (W.put j v).objs j = v from fun _ _ => if_pos rfl] at ho
          cases ho
          intro hab
          have hk := hc.1
          change b' = a at hab
          refine hov ⟨?_, ?_⟩
          · change b' < a + m; omega
          · change a < b' + n; omega
        · rw [show ∀ W : World, ∀ v, (W.put i v).objs j = W.objs j from fun _ _ => if_neg ej] at ho
          have hj := hr.holds j
          change w.objs j = some o at ho
          rw [ho] at hj
          intro hoa
          revert hj
          cases hsj : s j with
          | none => intro hj; cases hj
          | some v =>
            cases v with
            | none =>
              rintro ⟨x', hx', h0'⟩
              cases hx'
              exact h0 (hoa.symm.trans h0')
            | some v =>
              obtain ⟨b2, m2, u2⟩ := v
              rintro ⟨x', hx', h1', -, -, -, -, hm2, -⟩
              cases hx'
              have : b2 = a := h1'.symm.trans hoa
              rcases hr.apart j i _ _ _ _ _ _ hsj hi ej with h | h <;> omega
      · cases e4
    · cases e4

/-- **C131 is false for the sizes of a destroyed object**: asked after `destroy`, the size of the range is not zero but the address where
the range ended. -/
theorem C131_virtual_size_after_destroy (ops : List Op) (s : Spec) (ns : List Nat) (h : Spec.Run Spec.start ops s ns) (i a m u : Nat)
    (hi : s i = some (some (a, m, u))) :
    ∃ w, run start (ops ++ [.destroy i, .virtualSize i]) = .ok (w, ns ++ [0, a + m]) := by
  obtain ⟨w, e, hr⟩ := run_ok Rep.start h
  obtain ⟨x, hx, e1, e2, -, -, h0, -, hb⟩ := hr.held hi
  have hmem : (a, m) ∈ w.ranges := (hr.ranges a m).2 ⟨i, u, hi⟩
  refine ⟨({ w with ranges := w.ranges.erase (a, m) } : World).put i (some { x with vbegin := 0 }), ?_⟩
  have hd : diff (a + m) 0 = a + m := by simpa using diff_add 0 (a + m) (by omega)
  rw [run_append e]
  simp only [run, step, Virtual.destroy, get_ok hx, R.ok_bind, e1, e2, ne_eq, h0, not_false_eq_true, if_true, Nat.add_sub_cancel_left, release,
    hmem, R.pure_eq]
  rw [get_ok (show (({ w with ranges := w.ranges.erase (a, m) } : World).put i (some ⟨0, a + m, x.cur, x.pend⟩)).objs i = _ from if_pos rfl)]
  simp only [R.ok_bind, hd]
  rfl

/-! ### examples -/

/-- Two objects, one of them initialised twice with `destroy` in between. -/
def demo : List Op :=
  [.make 0, .setup 0 0x20000 4096 (some 0x10000), .alloc 0 100, .make 1, .setup 1 0x1000 4096 (some 0x40000), .alloc 0 50, .allocatedSize 0,
   .destroy 0, .destroy 0, .setup 0 0x8000 65536 (some 0x10000), .virtualSize 0, .alloc 0 8, .reset 0, .drop 1, .drop 0]

example : (run start demo).toOption.map (fun r => (r.1.ranges, r.2)) =
    some ([], [0, 0, 0x10000, 0, 0, 0x10000 + 100, 150, 0, 0, 0, 0x8000, 0x10000, 8, 0, 0]) := by decide +kernel

/-- The history is one of those the theorems are about. -/
example : ∃ s ns, Spec.Run Spec.start [.make 0, .setup 0 0x20000 4096 (some 0x10000), .alloc 0 100, .destroy 0, .setup 0 0x8000 1 (some 0x10000)] s ns ∧
    s 0 = some (some (0x10000, 0x8000, 0)) := by
  refine ⟨_, _, .cons (.make rfl) (.cons (.setup (put_self _ _ _) (by decide) ⟨12, rfl⟩ (by decide) (by decide) ?_) (.cons (.alloc (put_self _ _ _) (by decide))
    (.cons (.destroy (put_self _ _ _)) (.cons (.setup (put_self _ _ _) (by decide) ⟨0, rfl⟩ (by decide) (by decide) ?_) .nil)))), put_self _ _ _⟩
  · intro j b m u h
    by_cases e : j = 0
    · subst e; rw [put_self] at h; cases h
    · rw [put_other _ _ e] at h; cases h
  · intro j b m u h
    by_cases e : j = 0
    · subst e; rw [put_self] at h; cases h
    · rw [put_other _ _ e, put_other _ _ e, put_other _ _ e, put_other _ _ e] at h; cases h

/-- The leak: initialised twice, one range is left when the object is gone. -/
example : (run start [.make 0, .setup 0 0x20000 4096 (some 0x10000), .setup 0 0x8000 4096 (some 0x40000), .drop 0]).toOption.map (fun r => r.1.ranges) =
    some [(0x10000, 0x20000)] := by decide +kernel

end Verif.Life.Virtual
