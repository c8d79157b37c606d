import Verif.Map.Lemmas

/-!
Property C105 for `cc::map` (`/repo/src/clean-core/map.hh`): the entries that growing has to link again.
-/
namespace Verif.Map

variable {K V : Type _}

/-- The entries a call has linked again: all that there were if the table has another length afterwards (`_reserve` is only called
with a greater one), none otherwise. -/
def relinked (m m' : MapSt K V) : Nat := if m'.entries.length = m.entries.length then 0 else m.size

/-- What a call asks the map to hold. -/
def Op.asks : Op K V → Nat
  | .reserve n => n
  | _ => 0

/-- Run a history; the map, the entries linked again, the number of new tables, and the greatest number of entries there were
or were asked for. -/
def growth (H : HashEq K) : MapSt K V → List (Op K V) → R (MapSt K V × Nat × Nat × Nat)
  | m, [] => .ok (m, 0, 0, m.size)
  | m, op :: ops => do
    let (m1, _) ← implStep H m op
    let (m2, r, c, p) ← growth H m1 ops
    .ok (m2, relinked m m1 + r, (if m1.entries.length = m.entries.length then 0 else 1) + c, max (max m.size op.asks) p)

/-- The table is a power of two, at least four, and holds at most one entry more than its length. -/
structure Shape (m : MapSt K V) : Prop where
  size_le : m.size ≤ m.entries.length + 1
  len : (m.entries.length = 0 ∧ m.size = 0) ∨ ∃ k, m.entries.length = 2 ^ (k + 2)

theorem relink_len {H : HashEq K} {es es' : List (List (Node K V))} {n : Node K V} (e : relink H es n = .ok es') :
    es'.length = es.length := by
  simp only [relink, R.bind_eq_ok, R.pure_eq, Except.ok.injEq] at e
  obtain ⟨i, -, l, -, rfl⟩ := e
  simp

theorem foldlM_inv {α β : Type _} {f : β → α → R β} {P : β → Prop} (hf : ∀ b a b', P b → f b a = .ok b' → P b') (l : List α) :
    ∀ {b b' : β}, P b → l.foldlM f b = .ok b' → P b' := by
  induction l with
  | nil => intro b b' h e; simp only [List.foldlM_nil, R.pure_eq, Except.ok.injEq] at e; rwa [← e]
  | cons a l ih =>
    intro b b' h e
    rw [List.foldlM_cons, R.bind_eq_ok] at e
    obtain ⟨b1, e1, e2⟩ := e
    exact ih (hf _ _ _ h e1) e2

theorem rehash_len {H : HashEq K} {m m' : MapSt K V} {c : Nat} (e : rehash H m c = .ok m') :
    m'.entries.length = c ∧ m'.size = m.size := by
  simp only [rehash, R.bind_eq_ok, R.pure_eq, Except.ok.injEq] at e
  obtain ⟨-, -, es, e, rfl⟩ := e
  refine ⟨?_, rfl⟩
  refine foldlM_inv (P := fun es => es.length = c) (fun b l b' hb e => ?_) _ (by simp) e
  exact foldlM_inv (P := fun es => es.length = c) (fun b n b' hb e => (relink_len e).trans hb) _ hb e

theorem growCap_lt (c n : Nat) (h : 0 < c) : growCap c n = c ∨ (c < n ∧ growCap c n < 2 * n) := by
  induction hm : n - c using Nat.strongRecOn generalizing c with
  | ind x ih =>
    rw [growCap]
    split
    · rename_i h
      rcases ih (n - 2 * c) (by omega) (2 * c) (by omega) rfl with h | h <;> omega
    · exact .inl rfl

theorem two_pow_lt_double {a b : Nat} (h : 2 ^ a < 2 ^ b) : 2 * 2 ^ a ≤ 2 ^ b := by
  have : a < b := (Nat.pow_lt_pow_iff_right (by omega)).1 h
  calc 2 * 2 ^ a = 2 ^ (a + 1) := by rw [Nat.pow_succ]; omega
    _ ≤ 2 ^ b := Nat.pow_le_pow_right (by omega) this

/-- The table is the same or at least twice as long. -/
def Grown (m m' : MapSt K V) (n : Nat) : Prop :=
  m'.entries.length = m.entries.length ∨
    (m.entries.length < m'.entries.length ∧ 2 * m.entries.length ≤ m'.entries.length ∧ m'.entries.length ≤ max 4 (2 * n + 1) ∧
      4 ≤ m'.entries.length)

theorem reserve_grow {H : HashEq K} {m m' : MapSt K V} {n : Nat} (S : Shape m) (e : reserve H m n = .ok m') :
    Shape m' ∧ m'.size = m.size ∧
      ((m' = m ∧ n ≤ m.entries.length) ∨ (n ≤ m'.entries.length ∧ m.entries.length < m'.entries.length ∧
        2 * m.entries.length ≤ m'.entries.length ∧ (m'.entries.length = 4 ∨ (4 < n ∧ m'.entries.length < 2 * n)) ∧
        4 ≤ m'.entries.length)) := by
  unfold reserve at e
  split at e
  · simp only [Except.ok.injEq] at e
    subst e
    exact ⟨S, rfl, .inl ⟨rfl, by omega⟩⟩
  · rename_i hn
    obtain ⟨h1, h2⟩ := rehash_len e
    obtain ⟨k, hk, hk2⟩ := growCap_pow 2 n
    have h4 := growCap_lt 4 n (by omega)
    have h5 := (growCap_four n).2.1
    have hk' : growCap 4 n = 2 ^ k := hk
    have hlen : m'.entries.length = 2 ^ (k - 2 + 2) := by rw [h1, hk', show k - 2 + 2 = k by omega]
    have hge4 : 4 ≤ m'.entries.length := by
      rw [hlen]
      exact Nat.pow_le_pow_right (n := 2) (i := 2) (by omega) (by omega)
    refine ⟨⟨by have := S.size_le; omega, .inr ⟨k - 2, hlen⟩⟩, h2, .inr ⟨by omega, by omega, ?_, by omega, hge4⟩⟩
    rcases S.len with h | ⟨j, hj⟩
    · omega
    · have hlt : 2 ^ (j + 2) < 2 ^ (k - 2 + 2) := by omega
      have := two_pow_lt_double hlt
      omega

theorem index_grow {H : HashEq K} {m m' : MapSt K V} {k : K} {v : V} {a : Nat} (S : Shape m) (e : index H m k v = .ok (m', a)) :
    Shape m' ∧ m.size ≤ m'.size ∧ Grown m m' m'.size := by
  simp only [index, R.bind_eq_ok] at e
  obtain ⟨m1, e1, i, -, l, -, e2⟩ := e
  have g1 : Shape m1 ∧ m1.size = m.size ∧ m1.size ≤ m1.entries.length ∧ 4 ≤ m1.entries.length ∧ Grown m m1 m.size := by
    unfold ensure at e1
    split at e1
    · rename_i hc
      obtain ⟨s1, z1, h⟩ := reserve_grow S e1
      rcases h with ⟨rfl, h⟩ | ⟨h1, h2, h3, h4, h5⟩
      · exfalso
        rcases hc with hc | hc
        · rw [hc] at h
          split at h <;> simp at h
        · split at h <;> omega
      · refine ⟨s1, z1, ?_, h5, .inr ⟨h2, h3, ?_, h5⟩⟩ <;> split at h1 <;> split at h4 <;> omega
    · rename_i hc
      simp only [Except.ok.injEq] at e1
      subst e1
      have hne : m.entries ≠ [] := fun h => hc (.inl h)
      have hpos := List.length_pos_iff.2 hne
      refine ⟨S, rfl, by omega, ?_, .inl rfl⟩
      rcases S.len with h | ⟨j, hj⟩
      · omega
      · rw [hj]; exact Nat.pow_le_pow_right (n := 2) (by omega) (show 2 ≤ j + 2 by omega)
  obtain ⟨S1, z1, le1, ge4, gr⟩ := g1
  have up : ∀ n, m.size ≤ n → Grown m m1 n := by
    intro n hn
    rcases gr with h | ⟨h1, h2, h3, h4⟩
    · exact .inl h
    · exact .inr ⟨h1, h2, by omega, h4⟩
  split at e2
  · simp only [R.pure_eq, Except.ok.injEq, Prod.mk.injEq] at e2
    obtain ⟨rfl, -⟩ := e2
    exact ⟨S1, by omega, up _ (by omega)⟩
  · simp only [R.pure_eq, Except.ok.injEq, Prod.mk.injEq] at e2
    obtain ⟨rfl, -⟩ := e2
    refine ⟨⟨by simp; omega, ?_⟩, by simp; omega, ?_⟩
    · right
      rcases S1.len with h | h
      · omega
      · simpa using h
    · have := up (m1.size + 1) (by omega)
      simpa [Grown] using this

theorem modifyRef_len {m m' : MapSt K V} {a : Nat} {f : V → V} (e : modifyRef m a f = .ok m') :
    m'.entries.length = m.entries.length ∧ m'.size = m.size := by
  unfold modifyRef at e
  split at e
  · simp only [Except.ok.injEq] at e
    subst e; simp
  · simp at e

theorem removeKey_len {H : HashEq K} {m m' : MapSt K V} {k : K} {b : Bool} (e : removeKey H m k = .ok (m', b)) :
    m'.entries.length = m.entries.length ∧ m'.size ≤ m.size := by
  unfold removeKey at e
  split at e
  · simp only [Except.ok.injEq, Prod.mk.injEq] at e
    obtain ⟨rfl, -⟩ := e; simp
  · simp only [R.bind_eq_ok] at e
    obtain ⟨i, -, l, -, e⟩ := e
    split at e
    · simp only [R.pure_eq, Except.ok.injEq, Prod.mk.injEq] at e
      obtain ⟨rfl, -⟩ := e; simp
    · split at e
      · simp only [R.pure_eq, Except.ok.injEq, Prod.mk.injEq] at e
        obtain ⟨rfl, -⟩ := e; simp
      · split at e <;>
        · simp only [R.pure_eq, Except.ok.injEq, Prod.mk.injEq] at e
          obtain ⟨rfl, -⟩ := e; simp

theorem Shape.keep {m m' : MapSt K V} (S : Shape m) (h1 : m'.entries.length = m.entries.length) (h2 : m'.size ≤ m.size) : Shape m' :=
  ⟨by have := S.size_le; omega, by
    rcases S.len with h | ⟨k, h⟩
    · exact .inl ⟨by omega, by omega⟩
    · exact .inr ⟨k, by omega⟩⟩

theorem step_grow {H : HashEq K} {m m' : MapSt K V} {op : Op K V} {o : Out V} (S : Shape m) (e : implStep H m op = .ok (m', o)) :
    Shape m' ∧ Grown m m' (max m'.size op.asks) := by
  have keep : ∀ {x : MapSt K V}, x.entries.length = m.entries.length → x.size ≤ m.size → Shape x ∧ Grown m x (max x.size op.asks) :=
    fun h1 h2 => ⟨S.keep h1 h2, .inl h1⟩
  cases op with
  | index k d f =>
    simp only [implStep, R.bind_eq_ok, R.pure_eq, Except.ok.injEq, Prod.mk.injEq] at e
    obtain ⟨⟨m1, a⟩, e1, m2, e2, rfl, -⟩ := e
    obtain ⟨S1, h1, h2⟩ := index_grow S e1
    obtain ⟨l2, z2⟩ := modifyRef_len e2
    simp only at l2 z2
    refine ⟨S1.keep l2 (by omega), ?_⟩
    unfold Grown at *
    simp only [Op.asks, l2, z2]
    omega
  | getOrCreate k v =>
    simp only [implStep, R.bind_eq_ok, R.pure_eq, Except.ok.injEq, Prod.mk.injEq] at e
    obtain ⟨⟨m1, a⟩, e1, r, -, rfl, -⟩ := e
    obtain ⟨S1, h1, h2⟩ := index_grow S e1
    refine ⟨S1, ?_⟩
    unfold Grown at *
    simp only [Op.asks]
    omega
  | removeKey k =>
    simp only [implStep, R.bind_eq_ok, R.pure_eq, Except.ok.injEq, Prod.mk.injEq] at e
    obtain ⟨⟨m1, b⟩, e1, rfl, -⟩ := e
    obtain ⟨h1, h2⟩ := removeKey_len e1
    exact keep h1 h2
  | reserve n =>
    simp only [implStep, R.bind_eq_ok, R.pure_eq, Except.ok.injEq, Prod.mk.injEq] at e
    obtain ⟨m1, e1, rfl, -⟩ := e
    obtain ⟨S1, z1, h⟩ := reserve_grow S e1
    refine ⟨S1, ?_⟩
    rcases h with ⟨rfl, -⟩ | ⟨h1, h2, h3, h4, h5⟩
    · exact .inl rfl
    · refine .inr ⟨h2, h3, ?_, h5⟩
      simp only [Op.asks]
      omega
  | clear =>
    simp only [implStep, Except.ok.injEq, Prod.mk.injEq] at e
    obtain ⟨rfl, -⟩ := e
    exact keep (by simp [clear]) (by simp [clear])
  | copySelf =>
    simp only [implStep, Except.ok.injEq, Prod.mk.injEq] at e
    obtain ⟨rfl, -⟩ := e
    exact keep (by simp [copy, copyEntries_length]) (by simp [copy])
  | containsKey k =>
    simp only [implStep, R.bind_eq_ok, R.pure_eq, Except.ok.injEq, Prod.mk.injEq] at e
    obtain ⟨_, -, rfl, -⟩ := e
    exact keep rfl (Nat.le_refl _)
  | getPtr k =>
    simp only [implStep, R.bind_eq_ok, R.pure_eq, Except.ok.injEq, Prod.mk.injEq] at e
    obtain ⟨_, -, rfl, -⟩ := e
    exact keep rfl (Nat.le_refl _)
  | get k =>
    simp only [implStep, R.bind_eq_ok, R.pure_eq, Except.ok.injEq, Prod.mk.injEq] at e
    obtain ⟨_, -, rfl, -⟩ := e
    exact keep rfl (Nat.le_refl _)
  | getOr k d =>
    simp only [implStep, R.bind_eq_ok, R.pure_eq, Except.ok.injEq, Prod.mk.injEq] at e
    obtain ⟨_, -, rfl, -⟩ := e
    exact keep rfl (Nat.le_refl _)
  | getTo k out =>
    simp only [implStep, R.bind_eq_ok, R.pure_eq, Except.ok.injEq, Prod.mk.injEq] at e
    obtain ⟨_, -, rfl, -⟩ := e
    exact keep rfl (Nat.le_refl _)
  | size =>
    simp only [implStep, Except.ok.injEq, Prod.mk.injEq] at e
    obtain ⟨rfl, -⟩ := e
    exact keep rfl (Nat.le_refl _)

theorem growth_bound {H : HashEq K} (ops : List (Op K V)) : ∀ {m m2 : MapSt K V} {r c p : Nat}, Shape m →
    growth H m ops = .ok (m2, r, c, p) →
    r + 2 * m.entries.length ≤ 2 * m2.entries.length ∧
      (m2.entries.length = m.entries.length ∨ m2.entries.length ≤ max 4 (2 * p + 1)) ∧
      m.entries.length * 2 ^ c ≤ m2.entries.length ∧ (c = 0 ∨ 2 ^ (c + 1) ≤ m2.entries.length) ∧ m.size ≤ p := by
  induction ops with
  | nil =>
    intro m m2 r c p _ e
    simp only [growth, Except.ok.injEq, Prod.mk.injEq] at e
    obtain ⟨rfl, rfl, rfl, rfl⟩ := e
    simp
  | cons op ops ih =>
    intro m m2 r c p S e
    simp only [growth, R.bind_eq_ok, Except.ok.injEq, Prod.mk.injEq] at e
    obtain ⟨⟨m1, o⟩, e1, ⟨m2', r', c', p'⟩, e2, rfl, rfl, rfl, rfl⟩ := e
    obtain ⟨S1, g⟩ := step_grow S e1
    obtain ⟨a1, a2, a3, a4, a5⟩ := ih S1 e2
    simp only at *
    have hr : relinked m m1 ≤ m.size := by unfold relinked; split <;> omega
    have hsz := S.size_le
    rcases g with g | ⟨g1, g2, g3, g4⟩
    · have h0 : relinked m m1 = 0 := by unfold relinked; rw [if_pos g]
      rw [if_pos g, h0, Nat.zero_add, Nat.zero_add]
      rw [g] at a1 a2 a3
      exact ⟨a1, by omega, a3, a4, by omega⟩
    · rw [if_neg (by omega)]
      have hp1 : 1 ≤ 2 ^ c' := Nat.one_le_two_pow
      refine ⟨?_, by omega, ?_, .inr ?_, by omega⟩
      · rcases S.len with h | ⟨k, h⟩
        · omega
        · have : 1 ≤ 2 ^ (k + 2) := Nat.one_le_two_pow
          omega
      · rw [Nat.pow_add]
        have : (2 * m.entries.length) * 2 ^ c' ≤ m1.entries.length * 2 ^ c' := Nat.mul_le_mul_right _ (by omega)
        have e : m.entries.length * (2 ^ 1 * 2 ^ c') = (2 * m.entries.length) * 2 ^ c' := by
          rw [Nat.pow_one, ← Nat.mul_assoc, Nat.mul_comm m.entries.length 2]
        omega
      · have : 4 * 2 ^ c' ≤ m1.entries.length * 2 ^ c' := Nat.mul_le_mul_right _ (by omega)
        have e : 2 ^ (1 + c' + 1) = 4 * 2 ^ c' := by
          rw [show 1 + c' + 1 = c' + 2 by omega, Nat.pow_add]; omega
        omega

theorem growth_run {H : HashEq K} (ops : List (Op K V)) : ∀ {m m2 : MapSt K V} {os : List (Out V)},
    implRun H m ops = .ok (m2, os) → ∃ r c p, growth H m ops = .ok (m2, r, c, p) := by
  induction ops with
  | nil =>
    intro m m2 os e
    simp only [implRun, Except.ok.injEq, Prod.mk.injEq] at e
    exact ⟨0, 0, _, by rw [growth, e.1]⟩
  | cons op ops ih =>
    intro m m2 os e
    simp only [implRun, R.bind_eq_ok, R.pure_eq, Except.ok.injEq, Prod.mk.injEq] at e
    obtain ⟨⟨m1, o⟩, e1, ⟨m2', os'⟩, e2, rfl, rfl⟩ := e
    obtain ⟨r, c, p, e3⟩ := ih e2
    simp only at e3
    exact ⟨_, _, _, by rw [growth, e1]; simp only [R.ok_bind]; rw [e3]; rfl⟩

end Verif.Map
