import Verif.Set.Lemmas

/-!
Property C105 for `cc::set` (`/repo/src/clean-core/set.hh`): the nodes that growing has to make. `_reserve` makes a new node for
every element, so the nodes made are the measure: `next` counts them.
-/
namespace Verif.Set
open Verif.Map (HashEq)

variable {T : Type _}

/-- The calls of the theorem: all but `reserve` (see `C105_set_reserve_quadratic`), copies, and `|=` with a range, which is one
`add` for each element. -/
def Op.plain : Op T → Bool
  | .reserve _ => false
  | .copySelf => false
  | .addAll _ => false
  | _ => true

/-- The number of `add` calls. -/
def adds : List (Op T) → Nat
  | [] => 0
  | .add _ :: ops => adds ops + 1
  | _ :: ops => adds ops

/-- The sizes along a history. -/
def peak (H : HashEq T) : SetSt T → List (Op T) → R (SetSt T × Nat)
  | m, [] => .ok (m, m.size)
  | m, op :: ops => do
    let (m1, _) ← implStep H m op
    let (m2, p) ← peak H m1 ops
    .ok (m2, max m.size p)

/-- `n` rounds of `s.reserve(s.size() + 1); s.add(v)` with new values. -/
def reserveAdd (H : HashEq T) (f : Nat → T) : SetSt T → Nat → R (SetSt T)
  | m, 0 => .ok m
  | m, n + 1 => do
    let m1 ← reserve H m (m.size + 1)
    let (m2, _) ← add H m1 (f m.size)
    reserveAdd H f m2 n

theorem reinsert_next {H : HashEq T} {a b : List (List (Node T)) × Nat} {n : Node T} (e : reinsert H a n = .ok b) :
    b.1.length = a.1.length ∧ b.2 = a.2 + 1 := by
  simp only [reinsert, R.bind_eq_ok, R.pure_eq, Except.ok.injEq] at e
  obtain ⟨i, -, l, -, rfl⟩ := e
  simp

theorem reinserts_next {H : HashEq T} (l : List (Node T)) : ∀ {a b : List (List (Node T)) × Nat}, l.foldlM (reinsert H) a = .ok b →
    b.1.length = a.1.length ∧ b.2 = a.2 + l.length := by
  induction l with
  | nil => intro a b e; simp only [List.foldlM_nil, R.pure_eq, Except.ok.injEq] at e; subst e; simp
  | cons n l ih =>
    intro a b e
    rw [List.foldlM_cons, R.bind_eq_ok] at e
    obtain ⟨c, e1, e2⟩ := e
    have h1 := reinsert_next e1
    have h2 := ih e2
    simp only [List.length_cons]
    omega

theorem reinsertss_next {H : HashEq T} (ls : List (List (Node T))) : ∀ {a b : List (List (Node T)) × Nat},
    ls.foldlM (fun acc l => l.foldlM (reinsert H) acc) a = .ok b → b.1.length = a.1.length ∧ b.2 = a.2 + ls.flatten.length := by
  induction ls with
  | nil => intro a b e; simp only [List.foldlM_nil, R.pure_eq, Except.ok.injEq] at e; subst e; simp
  | cons l ls ih =>
    intro a b e
    rw [List.foldlM_cons, R.bind_eq_ok] at e
    obtain ⟨c, e1, e2⟩ := e
    have h1 := reinserts_next l e1
    have h2 := ih e2
    simp only [List.flatten_cons, List.length_append]
    omega

theorem reserve_next {H : HashEq T} {m m' : SetSt T} {s : List T} (h : Rel H m s) {c : Nat} (e : reserve H m c = .ok m') :
    m'.entries.length = c ∧ m'.next = m.next + m.size ∧ m'.size = m.size := by
  simp only [reserve, R.bind_eq_ok, R.pure_eq, Except.ok.injEq] at e
  obtain ⟨b, e, rfl⟩ := e
  have := reinsertss_next _ e
  refine ⟨by simpa using this.1, ?_, rfl⟩
  have h2 := h.size_eq
  simp only [SetSt.nodes] at h2
  simp only
  omega

theorem addTail_next {H : HashEq T} {m m' : SetSt T} {v : T} {b : Bool} (e : addTail H m v = .ok (m', b)) :
    m'.entries.length = m.entries.length ∧ m'.next ≤ m.next + 1 ∧ m.size ≤ m'.size ∧ m'.size ≤ m.size + 1 ∧
      (b = true → m'.next = m.next + 1) := by
  simp only [addTail, R.bind_eq_ok] at e
  obtain ⟨i, -, l, -, e⟩ := e
  split at e <;> simp only [R.pure_eq, Except.ok.injEq, Prod.mk.injEq] at e <;> obtain ⟨rfl, rfl⟩ := e <;> simp

theorem ensure_next {H : HashEq T} {m m' : SetSt T} {s : List T} (h : Rel H m s) (hle : m.size ≤ m.entries.length)
    (e : ensure H m = .ok m') :
    m'.size = m.size ∧ m.size < m'.entries.length ∧ m'.next + m.entries.length ≤ m.next + m'.entries.length ∧
      (m'.entries.length = m.entries.length ∨ m'.entries.length ≤ max 4 (2 * m.size)) := by
  unfold ensure at e
  split at e
  · obtain ⟨h1, h2, h3⟩ := reserve_next h e
    split at h1 <;> omega
  · simp only [Except.ok.injEq] at e
    subst e
    omega

theorem remove_next {H : HashEq T} {m m' : SetSt T} {v : T} {b : Bool} (e : remove H m v = .ok (m', b)) :
    m'.entries.length = m.entries.length ∧ m'.size ≤ m.size ∧ m'.next = m.next := by
  unfold remove at e
  split at e
  · simp only [Except.ok.injEq, Prod.mk.injEq] at e
    obtain ⟨rfl, -⟩ := e; simp
  · simp only [R.bind_eq_ok] at e
    obtain ⟨i, -, l, -, e⟩ := e
    split at e
    · simp only [R.pure_eq, Except.ok.injEq, Prod.mk.injEq] at e
      obtain ⟨rfl, -⟩ := e; simp
    · split at e
      · simp only [R.pure_eq, Except.ok.injEq, Prod.mk.injEq] at e
        obtain ⟨rfl, -⟩ := e; simp
      · split at e <;>
        · simp only [R.pure_eq, Except.ok.injEq, Prod.mk.injEq] at e
          obtain ⟨rfl, -⟩ := e; simp

theorem growth_bound {H : HashEq T} (L : H.Lawful) (ops : List (Op T)) : ∀ {m m2 : SetSt T} {s : List T} {p : Nat}, Rel H m s →
    m.size ≤ m.entries.length → (∀ op ∈ ops, op.plain = true) → peak H m ops = .ok (m2, p) →
    m2.next + m.entries.length ≤ m.next + adds ops + m2.entries.length ∧
      (m2.entries.length = m.entries.length ∨ m2.entries.length ≤ max 4 (2 * p)) ∧ m.size ≤ p := by
  induction ops with
  | nil =>
    intro m m2 s p _ _ _ e
    simp only [peak, Except.ok.injEq, Prod.mk.injEq] at e
    obtain ⟨rfl, rfl⟩ := e
    simp [adds]
  | cons op ops ih =>
    intro m m2 s p Q hle hp e
    simp only [peak, R.bind_eq_ok, Except.ok.injEq, Prod.mk.injEq] at e
    obtain ⟨⟨m1, o⟩, e1, ⟨m2', p'⟩, e2, rfl, rfl⟩ := e
    have hst := step_ok L Q op
    have hop := hp op (by simp)
    have R1 : Rel H m1 (specStep H s op).1 := by
      rcases hst with ⟨-, m', e', R'⟩ | ⟨-, e'⟩
      · rw [e'] at e1
        simp only [Except.ok.injEq, Prod.mk.injEq] at e1
        rw [← e1.1]; exact R'
      · rw [e'] at e1; simp at e1
    have fin := fun h => ih R1 h (fun op h => hp op (by simp [h])) e2
    simp only at *
    have key : m1.size ≤ m1.entries.length ∧ m1.next + m.entries.length + adds ops ≤ m.next + adds (op :: ops) + m1.entries.length ∧
        (m1.entries.length = m.entries.length ∨ m1.entries.length ≤ max 4 (2 * m.size)) := by
      have keep : adds (op :: ops) = adds ops → m1.entries.length = m.entries.length → m1.size ≤ m.size → m1.next = m.next →
          m1.size ≤ m1.entries.length ∧ m1.next + m.entries.length + adds ops ≤ m.next + adds (op :: ops) + m1.entries.length ∧
          (m1.entries.length = m.entries.length ∨ m1.entries.length ≤ max 4 (2 * m.size)) := by
        intro h1 h2 h3 h4; omega
      cases op with
      | add v =>
        simp only [implStep, add, R.bind_eq_ok, R.pure_eq, Except.ok.injEq, Prod.mk.injEq] at e1
        obtain ⟨⟨q, b⟩, ⟨q1, e3, e4⟩, rfl, -⟩ := e1
        have h3 := ensure_next Q hle e3
        have h4 := addTail_next e4
        simp only [adds]
        simp only at *
        omega
      | remove v =>
        simp only [implStep, R.bind_eq_ok, R.pure_eq, Except.ok.injEq, Prod.mk.injEq] at e1
        obtain ⟨⟨q, b⟩, e3, rfl, -⟩ := e1
        have h3 := remove_next e3
        exact keep rfl h3.1 h3.2.1 h3.2.2
      | addAll vs => simp [Op.plain] at hop
      | reserve n => simp [Op.plain] at hop
      | copySelf => simp [Op.plain] at hop
      | clear =>
        simp only [implStep, Except.ok.injEq, Prod.mk.injEq] at e1
        obtain ⟨rfl, -⟩ := e1
        exact keep rfl (by simp [clear]) (by simp [clear]) rfl
      | contains v =>
        simp only [implStep, R.bind_eq_ok, R.pure_eq, Except.ok.injEq, Prod.mk.injEq] at e1
        obtain ⟨_, -, rfl, -⟩ := e1
        exact keep rfl rfl (Nat.le_refl _) rfl
      | size =>
        simp only [implStep, Except.ok.injEq, Prod.mk.injEq] at e1
        obtain ⟨rfl, -⟩ := e1
        exact keep rfl rfl (Nat.le_refl _) rfl
    obtain ⟨f1, f2, f3⟩ := fin key.1
    omega

theorem peak_run {H : HashEq T} (ops : List (Op T)) : ∀ {m m2 : SetSt T} {os : List Out},
    implRun H m ops = .ok (m2, os) → ∃ p, peak H m ops = .ok (m2, p) := by
  induction ops with
  | nil =>
    intro m m2 os e
    simp only [implRun, Except.ok.injEq, Prod.mk.injEq] at e
    exact ⟨_, by rw [peak, e.1]⟩
  | cons op ops ih =>
    intro m m2 os e
    simp only [implRun, R.bind_eq_ok, R.pure_eq, Except.ok.injEq, Prod.mk.injEq] at e
    obtain ⟨⟨m1, o⟩, e1, ⟨m2', os'⟩, e2, rfl, rfl⟩ := e
    obtain ⟨p, e3⟩ := ih e2
    simp only at e3
    exact ⟨_, by rw [peak, e1]; simp only [R.ok_bind]; rw [e3]; rfl⟩

/-- Every round makes a new node for all elements. -/
theorem reserveAdd_ok {H : HashEq T} (L : H.Lawful) (f : Nat → T) (n : Nat) : ∀ {m : SetSt T} {s : List T}, Rel H m s →
    (∀ x ∈ s, ∀ i, m.size ≤ i → H.eq x (f i) = false) → (∀ i j, i < j → H.eq (f i) (f j) = false) →
    ∃ m', reserveAdd H f m n = .ok m' ∧ m'.size = m.size + n ∧ 2 * m'.next = 2 * m.next + n * (2 * m.size + n + 1) := by
  induction n with
  | zero => intro m s Q _ _; exact ⟨m, rfl, rfl, by simp⟩
  | succ n ih =>
    intro m s Q hs hf
    obtain ⟨m1, e1, R1, l1, z1⟩ := reserve_ok Q (c := m.size + 1) (by omega)
    have h1 := reserve_next Q e1
    obtain ⟨m2, e2, R2, -⟩ := add_ok L R1 (f m.size)
    have hnew : mem H (f m.size) s = false := mem_false.2 (fun x hx => hs x hx _ (Nat.le_refl _))
    have e2' := e2
    simp only [add, R.bind_eq_ok] at e2'
    obtain ⟨q, e3, e4⟩ := e2'
    have hq : q = m1 := by
      unfold ensure at e3
      rw [if_neg (by omega)] at e3
      simp only [Except.ok.injEq] at e3
      exact e3.symm
    subst hq
    have h2 := addTail_next e4
    have hn2 := h2.2.2.2.2 (by rw [hnew]; rfl)
    have hz : m2.size = m.size + 1 := by
      have := R2.size_len
      rw [insert, hnew, if_neg (by simp), List.length_cons] at this
      have := R1.size_len
      omega
    rw [insert, hnew, if_neg (by simp)] at R2
    obtain ⟨m3, e5, z3, n3⟩ := ih R2 (by
      intro x hx i hi
      rcases List.mem_cons.1 hx with rfl | hx
      · exact hf _ _ (by omega)
      · exact hs x hx i (by omega)) hf
    refine ⟨m3, by rw [reserveAdd, e1]; simp only [R.ok_bind]; rw [e2]; simp only [R.ok_bind]; exact e5, by omega, ?_⟩
    rw [n3, hz, hn2, h1.2.1]
    simp only [Nat.add_mul, Nat.mul_add]
    omega

end Verif.Set
