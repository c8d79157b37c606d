import Verif.Vector.Growth

/-!
Property C105 for `vector` and `alloc_vector` (which runs the same code): the elements that growing has to move to new
memory, over a whole history of calls.
-/
namespace Verif.Vector
open Verif.Mem

variable {α : Type}

/-- The elements that a call has moved to another block of memory: all that there were if the block is another one afterwards,
none if it is the same (block numbers are never reused). -/
def movedElems (v v' : Vec) : Nat := if v'.data = v.data then 0 else v.size

/-- What a program asks vector `i` to hold without storing it. -/
def Op.asks (i : Nat) : Op α → Nat
  | .reserve j n => if j = i then n else 0
  | _ => 0

/-- Run a history and report about vector `i`: how many elements were moved to another block, how often the block was
exchanged, and the greatest number of elements it held or was asked to hold. -/
def growth (T : Ty α) (i : Nat) (w : World α) : List (Op α) → R (World α × Nat × Nat × Nat)
  | [] => .ok (w, 0, 0, (w.vecs i).size)
  | op :: ops => do
    let (w1, _) ← step T w op
    let (w2, m, c, p) ← growth T i w1 ops
    .ok (w2, movedElems (w.vecs i) (w1.vecs i) + m, (if (w1.vecs i).data = (w.vecs i).data then 0 else 1) + c,
      max (max (w.vecs i).size (op.asks i)) p)

/-- The calls of the theorem: everything but `shrink_to_fit` and the assignments that replace vector `i` (after which the
memory is another one anyway), and `push_back_range` of ranges without a size, which is one `push_back` for each element. -/
def Op.plain (i : Nat) : Op α → Bool
  | .shrinkToFit j => j != i
  | .copyAssign j _ => j != i
  | .moveAssign j k => j != i && k != i
  | .assignNew j _ => j != i
  | .pushRange j c s _ => j != i || c || s
  | _ => true

/-- One step keeps the block of vector `i` or at least doubles the capacity. -/
theorem step_grow {T : Ty α} {w w' : World α} {op : Op α} {o : Obs α} {i : Nat} (e : step T w op = .ok (w', o))
    (hp : op.plain i = true) (hsz : (w.vecs i).size ≤ (w.vecs i).cap) :
    Keeps (w.vecs i) (w'.vecs i) ∨ Grows (w.vecs i) (w'.vecs i) (max (w'.vecs i).size (op.asks i)) := by
  by_cases ht : i ∈ op.targets
  case neg => rw [step_vecs e ht]; exact .inl ⟨rfl, rfl⟩
  have call : ∀ {f : Heap α → Vec → R (Heap α × Vec)}, w.call i f = .ok (w', o) →
      ∃ h1, f w.heap (w.vecs i) = .ok (h1, w'.vecs i) := by
    intro f e
    simp only [World.call, R.bind_eq_ok, Except.ok.injEq, Prod.mk.injEq] at e
    obtain ⟨⟨h1, v1⟩, e1, e2, -⟩ := e
    refine ⟨h1, ?_⟩
    rw [e1, ← e2]
    simp [World.put]
  have callObs : ∀ {β : Type} {f : Heap α → Vec → R (β × Heap α × Vec)} {g : β → Obs α}, w.callObs i f g = .ok (w', o) →
      ∃ b h1, f w.heap (w.vecs i) = .ok (b, h1, w'.vecs i) := by
    intro β f g e
    simp only [World.callObs, R.bind_eq_ok, Except.ok.injEq, Prod.mk.injEq] at e
    obtain ⟨⟨b, h1, v1⟩, e1, e2, -⟩ := e
    refine ⟨b, h1, ?_⟩
    rw [e1, ← e2]
    simp [World.put]
  have up : Keeps (w.vecs i) (w'.vecs i) ∨ Grows (w.vecs i) (w'.vecs i) (w'.vecs i).size → op.asks i = 0 →
      Keeps (w.vecs i) (w'.vecs i) ∨ Grows (w.vecs i) (w'.vecs i) (max (w'.vecs i).size (op.asks i)) := by
    intro h h0
    rw [h0, Nat.max_zero]; exact h
  cases op <;> simp only [Op.targets, List.mem_cons, List.not_mem_nil, or_false] at ht <;> simp only [step] at e
  case pushBack j a =>
    subst ht
    rw [R.bind_eq_ok] at e
    obtain ⟨x, -, e⟩ := e
    obtain ⟨h1, e⟩ := call e
    refine up ?_ rfl
    rcases (emplaceBack_grow e).2 with h | h
    · exact .inl h.2
    · exact .inr h.2
  case pushRange j c s l =>
    subst ht
    obtain ⟨h1, e⟩ := call e
    simp only [Op.plain, bne_self_eq_false, Bool.false_or, Bool.or_eq_true] at hp
    exact up (pushBackRange_grow e hp) rfl
  case insertRange => subst ht; obtain ⟨h1, e⟩ := call e; exact up (insertRangeAt_grow e) rfl
  case popBack => subst ht; obtain ⟨h1, e⟩ := call e; exact .inl (popBack_keep e)
  case getAndPopBack => subst ht; obtain ⟨b, h1, e⟩ := callObs e; exact .inl (getAndPopBack_keep e)
  case reserve j n =>
    subst ht
    obtain ⟨h1, e⟩ := call e
    have ha : (Op.reserve i n : Op α).asks i = n := by simp [Op.asks]
    rw [ha]
    obtain ⟨hs, h | h⟩ := reserve_grow e
    · exact .inl h.2
    · right
      unfold Grows at *
      omega
  case resize => subst ht; obtain ⟨h1, e⟩ := call e; exact up (resize_grow e) rfl
  case resizeWith => subst ht; obtain ⟨h1, e⟩ := call e; exact up (resize_grow e) rfl
  case clear => subst ht; obtain ⟨h1, e⟩ := call e; exact .inl (clear_keep e)
  case shrinkToFit => subst ht; simp [Op.plain] at hp
  case removeAll => subst ht; obtain ⟨b, h1, e⟩ := callObs e; exact .inl (removeAll_keep e)
  case removeFirst => subst ht; obtain ⟨b, h1, e⟩ := callObs e; exact .inl (removeFirst_keep e)
  case removeFirstUnordered => subst ht; obtain ⟨b, h1, e⟩ := callObs e; exact .inl (removeFirstUnordered_keep e)
  case removeValue => subst ht; obtain ⟨b, h1, e⟩ := callObs e; exact .inl (removeAll_keep e)
  case removeRange => subst ht; obtain ⟨h1, e⟩ := call e; exact .inl (removeRange_keep e)
  case removeAt => subst ht; obtain ⟨h1, e⟩ := call e; exact .inl (removeAt_keep e)
  case removeAtUnordered => subst ht; obtain ⟨h1, e⟩ := call e; exact .inl (removeAtUnordered_keep e)
  case set j k a =>
    subst ht
    obtain ⟨h1, e⟩ := call e
    simp only [R.bind_eq_ok, Except.ok.injEq, Prod.mk.injEq] at e
    obtain ⟨_, -, -, e⟩ := e
    rw [← e]; exact .inl ⟨rfl, rfl⟩
  case copyAssign => subst ht; simp [Op.plain] at hp
  case moveAssign => rcases ht with rfl | rfl <;> simp [Op.plain] at hp
  case assignNew => subst ht; simp [Op.plain] at hp

/-- The whole history, from any state that a program can reach. -/
theorem growth_bound {T : Ty α} {i : Nat} (ops : List (Op α)) : ∀ {w w2 : World α} {s : Spec.Lists α} {m c p : Nat},
    Inv T w s → Spec.InRange T.dflt T.eqv s ops → (∀ op ∈ ops, op.plain i = true) →
    growth T i w ops = .ok (w2, m, c, p) →
    m + (w.vecs i).cap ≤ (w2.vecs i).cap ∧ ((w2.vecs i).cap = (w.vecs i).cap ∨ (w2.vecs i).cap < 2 * p) ∧
      (w.vecs i).cap * 2 ^ c ≤ (w2.vecs i).cap ∧ (c = 0 ∨ 2 ^ (c - 1) ≤ (w2.vecs i).cap) ∧ (w.vecs i).size ≤ p := by
  induction ops with
  | nil =>
    intro w w2 s m c p I _ _ e
    simp only [growth, Except.ok.injEq, Prod.mk.injEq] at e
    obtain ⟨rfl, rfl, rfl, rfl⟩ := e
    simp
  | cons op ops ih =>
    intro w w2 s m c p I hr hp e
    simp only [growth, R.bind_eq_ok, Except.ok.injEq, Prod.mk.injEq] at e
    obtain ⟨⟨w1, o⟩, e1, ⟨w2', m', c', p'⟩, e2, rfl, rfl, rfl, rfl⟩ := e
    obtain ⟨h1, h2, h3⟩ := hr
    have hst := step_ok I h1 h2
    have hsz := (I.owns i).size_le
    have hg := step_grow e1 (hp op (by simp)) hsz
    cases hs : Spec.step T.dflt T.eqv s op with
    | none =>
      rw [hs] at hst
      simp only [StepOK] at hst
      rw [hst] at e1
      simp at e1
    | some q =>
      obtain ⟨s1, o'⟩ := q
      rw [hs] at hst
      obtain ⟨w1', e1', I1, -⟩ := hst
      rw [e1'] at e1
      simp only [Except.ok.injEq, Prod.mk.injEq] at e1
      obtain ⟨rfl, rfl⟩ := e1
      obtain ⟨a1, a2, a3, a4, a5⟩ := ih I1 (h3 s1 o' hs) (fun op h => hp op (by simp [h])) e2
      simp only at *
      have hmov : movedElems (w.vecs i) (w1'.vecs i) ≤ (w.vecs i).size := by
        unfold movedElems; split <;> omega
      rcases hg with ⟨g1, g2⟩ | ⟨g1, g2, g3, g4⟩
      · have hm0 : movedElems (w.vecs i) (w1'.vecs i) = 0 := by unfold movedElems; rw [if_pos g1]
        rw [if_pos g1, hm0, Nat.zero_add, Nat.zero_add]
        rw [g2] at a1 a2 a3
        refine ⟨a1, ?_, a3, a4, by omega⟩
        rcases a2 with h | h
        · exact .inl h
        · right; omega
      · refine ⟨by omega, ?_, ?_, ?_, by omega⟩
        · right
          rcases a2 with h | h <;> omega
        · split
          · rw [Nat.zero_add]
            have : (w.vecs i).cap * 2 ^ c' ≤ (w1'.vecs i).cap * 2 ^ c' := Nat.mul_le_mul_right _ (by omega)
            omega
          · rw [Nat.pow_add]
            have : (2 * (w.vecs i).cap) * 2 ^ c' ≤ (w1'.vecs i).cap * 2 ^ c' := Nat.mul_le_mul_right _ (by omega)
            have e : (w.vecs i).cap * (2 ^ 1 * 2 ^ c') = (2 * (w.vecs i).cap) * 2 ^ c' := by
              rw [Nat.pow_one, ← Nat.mul_assoc, Nat.mul_comm (w.vecs i).cap 2]
            omega
        · split
          · rw [Nat.zero_add]; exact a4
          · right
            rw [Nat.add_sub_cancel_left]
            have : 1 * 2 ^ c' ≤ (w1'.vecs i).cap * 2 ^ c' := Nat.mul_le_mul_right _ (by omega)
            omega

/-- `growth` runs the program. -/
theorem growth_run {T : Ty α} {i : Nat} (ops : List (Op α)) : ∀ {w w2 : World α} {os : List (Obs α)},
    run T w ops = .ok (w2, os) → ∃ m c p, growth T i w ops = .ok (w2, m, c, p) := by
  induction ops with
  | nil =>
    intro w w2 os e
    simp only [run, Except.ok.injEq, Prod.mk.injEq] at e
    exact ⟨0, 0, _, by rw [growth, e.1]⟩
  | cons op ops ih =>
    intro w w2 os e
    simp only [run, R.bind_eq_ok, Except.ok.injEq, Prod.mk.injEq] at e
    obtain ⟨⟨w1, o⟩, e1, ⟨w2', os'⟩, e2, rfl, rfl⟩ := e
    obtain ⟨m, c, p, e3⟩ := ih e2
    simp only at e3
    refine ⟨_, _, _, by rw [growth, e1]; simp only [R.ok_bind]; rw [e3]; rfl⟩

/-- **C105** for `vector`. Over every program, the calls on vector `i` other than `shrink_to_fit` and assignments move in total
fewer elements to new memory than the capacity reached, which is less than twice the greatest number `p` of elements that the
vector held or was asked to hold; and the memory is exchanged at most once for each power of two up to the capacity. -/
theorem C105_vector (T : Ty α) (i : Nat) (ops : List (Op α)) (hr : Spec.InRange T.dflt T.eqv (fun _ => []) ops)
    (hp : ∀ op ∈ ops, op.plain i = true) {w : World α} {os : List (Obs α)} (h : run T World.init ops = .ok (w, os)) :
    ∃ m c p, growth T i World.init ops = .ok (w, m, c, p) ∧ m ≤ (w.vecs i).cap ∧
      ((w.vecs i).cap = 0 ∨ (w.vecs i).cap < 2 * p) ∧ (c = 0 ∨ 2 ^ (c - 1) ≤ (w.vecs i).cap) := by
  obtain ⟨m, c, p, e⟩ := growth_run (i := i) ops h
  obtain ⟨a1, a2, -, a4, -⟩ := growth_bound ops (Inv.init T) hr hp e
  exact ⟨m, c, p, e, by omega, a2, a4⟩

/-- A history with two reservations: six elements are moved and five blocks of memory are used. -/
example : (growth strTy 0 World.init ([.pushBack 0 (.val 1), .pushBack 0 (.val 2), .pushBack 0 (.elem 0 0), .reserve 0 7, .popBack 0,
    .reserve 0 3, .pushRange 0 true false [4, 5, 6, 7, 8], .clear 0, .resize 0 12] : List (Op Nat))).map (fun r => r.2) =
    .ok (6, 5, 12) := by decide +kernel

end Verif.Vector
