import Verif.Vector.Props

/-! What the calls do to the memory block and the capacity of a vector. -/
namespace Verif.Vector
open Verif.Mem

variable {α : Type}

/-- The call keeps the memory block. -/
def Keeps (v v' : Vec) : Prop := v'.data = v.data ∧ v'.cap = v.cap

/-- The call exchanges the memory block for one that is at least twice as large, and less than twice what was asked for. -/
def Grows (v v' : Vec) (n : Nat) : Prop := v.cap < n ∧ n ≤ v'.cap ∧ 2 * v.cap ≤ v'.cap ∧ v'.cap < 2 * n

theorem emplaceBack_grow {T : Ty α} {h h' : Heap α} {v v' : Vec} {arg : Arg α} (e : emplaceBack T h v arg = .ok (h', v')) :
    v'.size = v.size + 1 ∧ ((v.size ≠ v.cap ∧ Keeps v v') ∨ (v.size = v.cap ∧ Grows v v' v'.size)) := by
  unfold emplaceBack at e
  split at e
  · rename_i hs
    have key : v'.size = v.size + 1 ∧ v'.cap = if v.cap = 0 then 1 else v.cap * 2 := by
      dsimp only at e
      generalize (if v.cap = 0 then 1 else v.cap * 2) = N at e ⊢
      split at e
      · simp only [R.bind_eq_ok, Except.ok.injEq, Prod.mk.injEq] at e
        obtain ⟨_, -, ⟨_, _⟩, -, _, -, -, e⟩ := e
        rw [← e]; exact ⟨rfl, rfl⟩
      · simp only [R.bind_eq_ok, Except.ok.injEq, Prod.mk.injEq] at e
        obtain ⟨_, -, _, -, _, -, _, -, _, -, -, e⟩ := e
        rw [← e]; exact ⟨rfl, rfl⟩
    refine ⟨key.1, .inr ⟨hs, ?_⟩⟩
    unfold Grows
    rw [key.1, key.2]
    split <;> omega
  · rename_i hs
    simp only [R.bind_eq_ok, Except.ok.injEq, Prod.mk.injEq] at e
    obtain ⟨_, -, _, -, -, e⟩ := e
    rw [← e]
    exact ⟨rfl, .inl ⟨hs, rfl, rfl⟩⟩

theorem reserve_grow {T : Ty α} {h h' : Heap α} {v v' : Vec} {n : Nat} (e : reserve T h v n = .ok (h', v')) :
    v'.size = v.size ∧ ((n ≤ v.cap ∧ Keeps v v') ∨ Grows v v' n) := by
  unfold reserve at e
  rw [R.bind_eq_ok] at e
  obtain ⟨_, -, e⟩ := e
  split at e
  · rename_i hs
    simp only [Except.ok.injEq, Prod.mk.injEq] at e
    rw [← e.2]
    exact ⟨rfl, .inl ⟨hs, rfl, rfl⟩⟩
  · rename_i hs
    have key : v'.size = v.size ∧ v'.cap = if v.cap * 2 < n then n else v.cap * 2 := by
      dsimp only at e
      split at e
      · simp only [R.bind_eq_ok, Except.ok.injEq, Prod.mk.injEq] at e
        obtain ⟨⟨_, _⟩, -, -, e⟩ := e
        rw [← e]; exact ⟨rfl, rfl⟩
      · simp only [R.bind_eq_ok, Except.ok.injEq, Prod.mk.injEq] at e
        obtain ⟨_, -, _, -, _, -, -, e⟩ := e
        rw [← e]; exact ⟨rfl, rfl⟩
    refine ⟨key.1, .inr ?_⟩
    unfold Grows
    rw [key.2]
    split <;> omega

theorem pushBackRangeN_grow {T : Ty α} {h h' : Heap α} {v v' : Vec} {src : Src α} {num : Nat}
    (e : pushBackRangeN T h v src num = .ok (h', v')) : Keeps v v' ∨ Grows v v' v'.size := by
  unfold pushBackRangeN at e
  split at e
  · simp only [Except.ok.injEq, Prod.mk.injEq] at e
    rw [← e.2]
    exact .inl ⟨rfl, rfl⟩
  · simp only [R.bind_eq_ok, Except.ok.injEq, Prod.mk.injEq] at e
    obtain ⟨⟨h1, v1⟩, e1, _, -, -, e⟩ := e
    obtain ⟨s1, g⟩ := reserve_grow e1
    rw [← e]
    rcases g with ⟨-, g1, g2⟩ | ⟨g1, g2, g3, g4⟩
    · exact .inl ⟨g1, g2⟩
    · right
      unfold Grows
      simp only at s1 ⊢
      omega

theorem pushEach_keep {T : Ty α} (xs : List α) : ∀ {h h' : Heap α} {v v' : Vec}, pushEach T h v xs = .ok (h', v') →
    v.size + xs.length ≤ v.cap → v'.size = v.size + xs.length ∧ Keeps v v' := by
  induction xs with
  | nil =>
    intro h h' v v' e _
    simp only [pushEach, Except.ok.injEq, Prod.mk.injEq] at e
    rw [← e.2]
    exact ⟨rfl, rfl, rfl⟩
  | cons x xs ih =>
    intro h h' v v' e hc
    simp only [pushEach, R.bind_eq_ok] at e
    obtain ⟨⟨h1, v1⟩, e1, e⟩ := e
    simp only [List.length_cons] at hc ⊢
    obtain ⟨s1, g⟩ := emplaceBack_grow e1
    rcases g with ⟨-, g1, g2⟩ | ⟨g, -⟩
    · obtain ⟨s2, k1, k2⟩ := ih e (by simp only; omega)
      simp only at s2 k1 k2
      exact ⟨by omega, k1.trans g1, k2.trans g2⟩
    · omega

theorem pushBackRange_grow {T : Ty α} {c s : Bool} {h h' : Heap α} {v v' : Vec} {l : List α}
    (e : pushBackRange T c s h v l = .ok (h', v')) (hcs : c = true ∨ s = true) : Keeps v v' ∨ Grows v v' v'.size := by
  unfold pushBackRange at e
  split at e
  · split at e
    · simp only [Except.ok.injEq, Prod.mk.injEq] at e
      rw [← e.2]
      exact .inl ⟨rfl, rfl⟩
    · exact pushBackRangeN_grow e
  · rename_i hc
    have hs : s = true := by
      rcases hcs with h | h
      · exact absurd h hc
      · exact h
    subst hs
    simp only [if_true, R.bind_eq_ok] at e
    obtain ⟨⟨h1, v1⟩, e1, e⟩ := e
    obtain ⟨s1, g⟩ := reserve_grow e1
    have hcap : v1.size + l.length ≤ v1.cap := by
      rcases g with ⟨g0, -, g2⟩ | ⟨g1, g2, g3, g4⟩ <;> omega
    obtain ⟨s2, k1, k2⟩ := pushEach_keep l e hcap
    rcases g with ⟨-, g1, g2⟩ | ⟨g1, g2, g3, g4⟩
    · exact .inl ⟨k1.trans g1, k2.trans g2⟩
    · right
      unfold Grows
      simp only at s2 k2
      omega

theorem insertRangeAt_grow {T : Ty α} {h h' : Heap α} {v v' : Vec} {k : Nat} {l : List α}
    (e : insertRangeAt T h v k l = .ok (h', v')) : Keeps v v' ∨ Grows v v' v'.size := by
  unfold insertRangeAt at e
  rw [R.bind_eq_ok] at e
  obtain ⟨_, -, e⟩ := e
  split at e
  · simp only [Except.ok.injEq, Prod.mk.injEq] at e
    rw [← e.2]
    exact .inl ⟨rfl, rfl⟩
  · simp only [R.bind_eq_ok, Except.ok.injEq, Prod.mk.injEq] at e
    obtain ⟨⟨h1, v1⟩, e1, _, -, _, -, -, e⟩ := e
    obtain ⟨s1, g⟩ := reserve_grow e1
    rw [← e]
    rcases g with ⟨-, g1, g2⟩ | ⟨g1, g2, g3, g4⟩
    · exact .inl ⟨g1, g2⟩
    · right
      unfold Grows
      simp only at s1 ⊢
      omega

theorem resize_grow {T : Ty α} {h h' : Heap α} {v v' : Vec} {n : Nat} {a : α}
    (e : resize T h v n a = .ok (h', v')) : Keeps v v' ∨ Grows v v' v'.size := by
  unfold resize at e
  split at e
  · simp only [R.bind_eq_ok, Except.ok.injEq, Prod.mk.injEq] at e
    obtain ⟨⟨h1, v1⟩, e1, _, -, _, -, -, e⟩ := e
    obtain ⟨s1, g⟩ := reserve_grow e1
    rw [← e]
    rcases g with ⟨-, g1, g2⟩ | ⟨g1, g2, g3, g4⟩
    · exact .inl ⟨g1, g2⟩
    · exact .inr ⟨g1, g2, g3, g4⟩
  · simp only [R.bind_eq_ok, R.ok_bind, Except.ok.injEq, Prod.mk.injEq] at e
    obtain ⟨_, -, _, -, -, e⟩ := e
    rw [← e]
    exact .inl ⟨rfl, rfl⟩

theorem popBack_keep {h h' : Heap α} {v v' : Vec} (e : popBack h v = .ok (h', v')) : Keeps v v' := by
  simp only [popBack, R.bind_eq_ok, Except.ok.injEq, Prod.mk.injEq] at e
  obtain ⟨_, -, _, -, -, e⟩ := e
  rw [← e]; exact ⟨rfl, rfl⟩

theorem getAndPopBack_keep {T : Ty α} {h h' : Heap α} {v v' : Vec} {a : α}
    (e : getAndPopBack T h v = .ok (a, h', v')) : Keeps v v' := by
  simp only [getAndPopBack, R.bind_eq_ok, Except.ok.injEq, Prod.mk.injEq] at e
  obtain ⟨_, -, ⟨_, _⟩, -, _, -, -, -, e⟩ := e
  rw [← e]; exact ⟨rfl, rfl⟩

theorem clear_keep {T : Ty α} {h h' : Heap α} {v v' : Vec} (e : clear T h v = .ok (h', v')) : Keeps v v' := by
  simp only [clear, R.bind_eq_ok, Except.ok.injEq, Prod.mk.injEq] at e
  obtain ⟨_, -, -, e⟩ := e
  rw [← e]; exact ⟨rfl, rfl⟩

theorem removeAll_keep {T : Ty α} {p : α → Bool} {h h' : Heap α} {v v' : Vec} {n : Nat}
    (e : removeAll T p h v = .ok (n, h', v')) : Keeps v v' := by
  simp only [removeAll, R.bind_eq_ok, Except.ok.injEq, Prod.mk.injEq] at e
  obtain ⟨⟨_, _⟩, -, _, -, -, -, e⟩ := e
  rw [← e]; exact ⟨rfl, rfl⟩

theorem removeAt_keep {T : Ty α} {h h' : Heap α} {v v' : Vec} {k : Nat}
    (e : removeAt T h v k = .ok (h', v')) : Keeps v v' := by
  simp only [removeAt, R.bind_eq_ok, Except.ok.injEq, Prod.mk.injEq] at e
  obtain ⟨_, -, _, -, _, -, -, e⟩ := e
  rw [← e]; exact ⟨rfl, rfl⟩

theorem removeAtUnordered_keep {T : Ty α} {h h' : Heap α} {v v' : Vec} {k : Nat}
    (e : removeAtUnordered T h v k = .ok (h', v')) : Keeps v v' := by
  simp only [removeAtUnordered, R.bind_eq_ok] at e
  obtain ⟨_, -, _, -, _, -, e⟩ := e
  exact popBack_keep e

theorem removeFirst_keep {T : Ty α} {p : α → Bool} {h h' : Heap α} {v v' : Vec} {b : Bool}
    (e : removeFirst T p h v = .ok (b, h', v')) : Keeps v v' := by
  simp only [removeFirst, R.bind_eq_ok] at e
  obtain ⟨x, -, e⟩ := e
  cases x with
  | none =>
    simp only [Except.ok.injEq, Prod.mk.injEq] at e
    rw [← e.2.2]; exact ⟨rfl, rfl⟩
  | some i =>
    simp only [R.bind_eq_ok, Except.ok.injEq, Prod.mk.injEq] at e
    obtain ⟨⟨_, v1⟩, e1, -, -, e⟩ := e
    rw [← e]; exact removeAt_keep e1

theorem removeFirstUnordered_keep {T : Ty α} {p : α → Bool} {h h' : Heap α} {v v' : Vec} {b : Bool}
    (e : removeFirstUnordered T p h v = .ok (b, h', v')) : Keeps v v' := by
  simp only [removeFirstUnordered, R.bind_eq_ok] at e
  obtain ⟨x, -, e⟩ := e
  cases x with
  | none =>
    simp only [Except.ok.injEq, Prod.mk.injEq] at e
    rw [← e.2.2]; exact ⟨rfl, rfl⟩
  | some i =>
    simp only [R.bind_eq_ok, Except.ok.injEq, Prod.mk.injEq] at e
    obtain ⟨⟨_, v1⟩, e1, -, -, e⟩ := e
    rw [← e]; exact removeAtUnordered_keep e1

theorem removeRange_keep {T : Ty α} {h h' : Heap α} {v v' : Vec} {k n : Nat}
    (e : removeRange T h v k n = .ok (h', v')) : Keeps v v' := by
  unfold removeRange at e
  split at e
  · simp only [Except.ok.injEq, Prod.mk.injEq] at e
    rw [← e.2]; exact ⟨rfl, rfl⟩
  · simp only [R.bind_eq_ok, Except.ok.injEq, Prod.mk.injEq] at e
    obtain ⟨_, -, _, -, _, -, _, -, -, e⟩ := e
    rw [← e]; exact ⟨rfl, rfl⟩

end Verif.Vector
