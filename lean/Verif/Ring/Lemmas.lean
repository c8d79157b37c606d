import Verif.Ring.Spec

/-! Helper lemmas for ringbuffer. -/
namespace Verif.Ring
open Verif.Mem

variable {α : Type}

theorem mod_wrap {x N : Nat} (h : x < 2 * N) : x % N = if x < N then x else x - N := by
  split
  · exact Nat.mod_eq_of_lt (by assumption)
  · rw [Nat.mod_eq_sub_mod (by omega)]
    exact Nat.mod_eq_of_lt (by omega)

theorem and_mask {k : Nat} (hk : k ≤ 64) (x : Nat) : (x % 2 ^ 64) &&& (2 ^ k - 1) = x % 2 ^ k := by
  rw [Nat.and_two_pow_sub_one_eq_mod, Nat.mod_mod_of_dvd _ (Nat.pow_dvd_pow 2 hk)]

theorem addMask_eq {k : Nat} (hk : k ≤ 64) (a b : Nat) : addMask a b (2 ^ k - 1) = (a + b) % 2 ^ k := and_mask hk _

theorem subMask_eq {k : Nat} (hk : k ≤ 64) {a b : Nat} (hb : b ≤ 2 ^ k) :
    subMask a b (2 ^ k - 1) = (a + 2 ^ k - b) % 2 ^ k := by
  unfold subMask
  rw [and_mask hk]
  have h64 : (2 : Nat) ^ 64 = 2 ^ k * 2 ^ (64 - k) := by rw [← Nat.pow_add]; congr 1; omega
  obtain ⟨m, hm⟩ : ∃ m, 2 ^ (64 - k) = m + 1 := ⟨2 ^ (64 - k) - 1, by have := Nat.two_pow_pos (64 - k); omega⟩
  rw [h64, hm, Nat.mul_add, Nat.mul_one]
  have : a + (2 ^ k * m + 2 ^ k - b) = (a + 2 ^ k - b) + 2 ^ k * m := by omega
  rw [this, Nat.add_mul_mod_self_left]

/-- Logical position of physical slot `j`. -/
def pos (N b j : Nat) : Nat := (j + N - b) % N

theorem pos_eq {N b j : Nat} (hb : b < N) (hj : j < N) : pos N b j = if b ≤ j then j - b else j + N - b := by
  unfold pos
  rw [mod_wrap (by omega)]
  split <;> split <;> omega

theorem phys_eq {N b i : Nat} (hb : b < N) (hi : i < N) : (b + i) % N = if b + i < N then b + i else b + i - N :=
  mod_wrap (by omega)

theorem pos_phys {N b i : Nat} (hb : b < N) (hi : i < N) : pos N b ((b + i) % N) = i := by
  rw [phys_eq hb hi]
  split
  · rw [pos_eq hb (by omega), if_pos (by omega)]; omega
  · rw [pos_eq hb (by omega), if_neg (by omega)]; omega

theorem phys_pos {N b j : Nat} (hb : b < N) (hj : j < N) : (b + pos N b j) % N = j := by
  rw [pos_eq hb hj]
  split
  · rw [phys_eq hb (by omega), if_pos (by omega)]; omega
  · rw [phys_eq hb (by omega), if_neg (by omega)]; omega

theorem pos_lt {N b j : Nat} (hb : b < N) : pos N b j < N := Nat.mod_lt _ (by omega)

/-- What a slot must look like if the element stored there is `o`. -/
def SlotOK (triv : Bool) (x : Slot α) : Option α → Prop
  | some a => x = .live a
  | none => x = .raw ∨ triv = true

/-- The first `i` elements of `l` are already gone. -/
def Holds (triv : Bool) (N b : Nat) (l : List α) (i : Nat) (buf : Buf α) : Prop :=
  buf.length = N ∧ ∀ j, (hj : j < buf.length) →
    if pos N b j < i then buf[j] = .raw ∨ triv = true else SlotOK triv buf[j] l[pos N b j]?

theorem Holds.read {triv : Bool} {N b i : Nat} {l : List α} {buf : Buf α} (h : Holds triv N b l i buf) (hb : b < N)
    (hN : l.length ≤ N) {t : Nat} (ht : t < l.length) (hi : i ≤ t) : buf[(b + t) % N]? = some (.live l[t]) := by
  have hlt : (b + t) % N < buf.length := by rw [h.1]; exact Nat.mod_lt _ (by omega)
  rw [List.getElem?_eq_getElem hlt]
  have := h.2 _ hlt
  rw [pos_phys hb (by omega), if_neg (by omega), List.getElem?_eq_getElem ht] at this
  rw [this]

theorem Holds.step {triv : Bool} {N b i : Nat} {l : List α} {buf : Buf α} (h : Holds triv N b l i buf) (hb : b < N)
    (hi : i < N) : Holds triv N b l (i + 1) (buf.set ((b + i) % N) .raw) := by
  refine ⟨by simpa using h.1, ?_⟩
  intro j hj
  simp only [List.length_set] at hj
  have hjN : j < N := by rw [← h.1]; exact hj
  have hx := h.2 j hj
  rw [List.getElem_set]
  by_cases hji : (b + i) % N = j
  · rw [if_pos hji, ← hji, pos_phys hb hi, if_pos (by omega)]
    exact Or.inl rfl
  · rw [if_neg hji]
    have hne : pos N b j ≠ i := by
      intro e
      apply hji
      rw [← e, phys_pos hb hjN]
    by_cases h1 : pos N b j < i
    · rw [if_pos (by omega)]; rw [if_pos h1] at hx; exact hx
    · rw [if_neg (by omega)]; rw [if_neg h1] at hx; exact hx

/-- Overwriting a slot before it is emptied changes nothing. -/
theorem set_moved_raw (triv : Bool) (buf : Buf α) (p : Nat) :
    (if triv then buf else buf.set p .moved).set p .raw = buf.set p .raw := by
  cases triv <;> simp

theorem moved_alive {triv : Bool} {buf : Buf α} {p : Nat} {a : α} (h : buf[p]? = some (.live a)) :
    ∃ x, (if triv then buf else buf.set p .moved)[p]? = some x ∧ x.alive = true := by
  cases triv with
  | true => exact ⟨_, h, rfl⟩
  | false =>
    have : p < buf.length := by
      rcases Nat.lt_or_ge p buf.length with h1 | h1
      · exact h1
      · rw [List.getElem?_eq_none h1] at h; simp at h
    refine ⟨.moved, ?_, rfl⟩
    simp [this]

theorem destroyLoop_ok {triv : Bool} {k : Nat} (hk : k ≤ 64) {r : Ring α} (hm : r.mask = 2 ^ k - 1) {l : List α}
    (hb : r.begin_ < 2 ^ k) (hN : l.length ≤ 2 ^ k) (n : Nat) : ∀ {i : Nat} {buf : Buf α},
    Holds triv (2 ^ k) r.begin_ l i buf → i + n = l.length →
    ∃ buf', destroyLoop r i buf n = .ok buf' ∧ Holds triv (2 ^ k) r.begin_ l l.length buf' := by
  induction n with
  | zero =>
    intro i buf h hi
    have : i = l.length := by omega
    subst this
    exact ⟨buf, rfl, h⟩
  | succ n ih =>
    intro i buf h hi
    simp only [destroyLoop]
    rw [hm, addMask_eq hk, Buf.destroy_ok (h.read hb hN (t := i) (by omega) (Nat.le_refl _)) rfl]
    simp only [R.ok_bind]
    exact ih (h.step hb (by omega)) (by omega)

/-- The new buffer during a move: `a` at `np`, elements `0 .. i` of `l` at `off`, ... -/
def NewOK (l : List α) (a : α) (np off i N : Nat) (new : Buf α) : Prop :=
  new.length = N ∧ ∀ j, (hj : j < new.length) →
    (j = np → new[j] = .live a) ∧ (∀ t, (ht : t < l.length) → t < i → j = t + off → new[j] = .live l[t]) ∧
    (j ≠ np → (∀ t, t < i → j ≠ t + off) → new[j] = .raw)

theorem moveLoop_ok {triv : Bool} {k : Nat} (hk : k ≤ 64) {r : Ring α} (hm : r.mask = 2 ^ k - 1) {l : List α}
    (hb : r.begin_ < 2 ^ k) (hN : l.length ≤ 2 ^ k) {a : α} {np off N' : Nat} (hN' : l.length + off ≤ N')
    (hnp : ∀ t, t < l.length → t + off ≠ np) (n : Nat) : ∀ {i : Nat} {old new : Buf α},
    Holds triv (2 ^ k) r.begin_ l i old → NewOK l a np off i N' new → i + n = l.length →
    ∃ old' new', moveLoop triv r off i old new n = .ok (old', new') ∧ Holds triv (2 ^ k) r.begin_ l l.length old' ∧
      NewOK l a np off l.length N' new' := by
  induction n with
  | zero =>
    intro i old new h h' hi
    have : i = l.length := by omega
    subst this
    exact ⟨old, new, rfl, h, h'⟩
  | succ n ih =>
    intro i old new h h' hi
    simp only [moveLoop]
    have hil : i < l.length := by omega
    have hrd := h.read hb hN (t := i) hil (Nat.le_refl _)
    rw [hm, addMask_eq hk, Buf.take_ok hrd]
    simp only [R.ok_bind]
    have hlt : i + off < new.length := by rw [h'.1]; omega
    have hraw : new[i + off] = .raw := (h'.2 (i + off) hlt).2.2 (hnp i hil) (by intro t ht; omega)
    rw [Buf.construct_ok (List.getElem?_eq_getElem hlt) (Or.inl hraw)]
    simp only [R.ok_bind]
    obtain ⟨x, hx, hxa⟩ := moved_alive (triv := triv) hrd
    rw [Buf.destroy_ok hx hxa, set_moved_raw]
    simp only [R.ok_bind]
    refine ih (h.step hb (by omega)) ⟨by simpa using h'.1, ?_⟩ (by omega)
    intro j hj
    simp only [List.length_set] at hj
    obtain ⟨h1, h2, h3⟩ := h'.2 j hj
    have hnpi := hnp i hil
    simp only [List.getElem_set]
    refine ⟨?_, ?_, ?_⟩
    · intro hjn
      rw [if_neg (by omega)]; exact h1 hjn
    · intro t ht hti hjt
      by_cases hc : t = i
      · subst hc
        rw [if_pos (by omega)]
      · rw [if_neg (by omega)]; exact h2 t ht (by omega) hjt
    · intro hjn hall
      have := hall i (by omega)
      rw [if_neg (by omega)]
      exact h3 hjn (fun t ht => hall t (by omega))

theorem Holds.leak {triv : Bool} {N b : Nat} {l : List α} {buf : Buf α} (h : Holds triv N b l l.length buf) :
    buf.leak triv = 0 := by
  unfold Buf.leak
  split
  · rfl
  · rename_i ht
    rw [List.countP_eq_zero]
    intro x hx
    obtain ⟨j, hj, rfl⟩ := List.getElem_of_mem hx
    have := h.2 j hj
    have hraw : buf[j] = .raw := by
      split at this
      · rcases this with h1 | h1
        · exact h1
        · exact absurd h1 ht
      · rename_i hp
        rw [List.getElem?_eq_none (by omega)] at this
        rcases this with h1 | h1
        · exact h1
        · exact absurd h1 ht
    rw [hraw]; simp [Slot.alive]

/-- The ringbuffer `r` holds the abstract state `q`. -/
structure Rel (triv : Bool) (r : Ring α) (q : Spec.Q α) : Prop where
  ex : ∃ k, k ≤ 63 ∧ q.cap = 2 ^ k - 1 ∧ r.mask = 2 ^ k - 1 ∧ r.begin_ < 2 ^ k ∧
    r.end_ = (r.begin_ + q.elems.length) % 2 ^ k ∧ q.elems.length < 2 ^ k ∧
    ((r.data = none ∧ k = 0) ∨ ∃ buf, r.data = some buf ∧ Holds triv (2 ^ k) r.begin_ q.elems 0 buf)

theorem Rel.empty (triv : Bool) : Rel triv (Ring.empty : Ring α) ⟨[], 0⟩ where
  ex := ⟨0, by omega, rfl, rfl, by simp [Ring.empty], by simp [Ring.empty], by simp, Or.inl ⟨rfl, rfl⟩⟩

theorem size_ok {triv : Bool} {r : Ring α} {q : Spec.Q α} (h : Rel triv r q) : size r = q.elems.length := by
  obtain ⟨k, hk, -, hm, hb, he, hl, -⟩ := h.ex
  unfold size
  rw [hm, subMask_eq (by omega) (by omega), he]
  have := pos_phys (N := 2 ^ k) hb hl
  exact this

theorem isEmpty_ok {triv : Bool} {r : Ring α} {q : Spec.Q α} (h : Rel triv r q) : isEmpty r = q.elems.isEmpty := by
  obtain ⟨k, hk, -, hm, hb, he, hl, -⟩ := h.ex
  unfold isEmpty
  rw [he, phys_eq hb hl]
  cases hq : q.elems with
  | nil => simp; omega
  | cons a l =>
    rw [hq] at hl
    simp only [List.length_cons] at hl ⊢
    simp only [List.isEmpty_cons, beq_eq_false_iff_ne]
    split <;> omega

theorem atCapacity_ok {triv : Bool} {r : Ring α} {q : Spec.Q α} (h : Rel triv r q) :
    atCapacity r = decide (q.elems.length = q.cap) := by
  obtain ⟨k, hk, hc, hm, hb, he, hl, -⟩ := h.ex
  unfold atCapacity
  rw [hm, and_mask (by omega), he, hc]
  have h64 : (2 : Nat) ^ 64 = 2 ^ k * 2 ^ (64 - k) := by rw [← Nat.pow_add]; congr 1; omega
  obtain ⟨m, hm⟩ : ∃ m, 2 ^ (64 - k) = m + 1 := ⟨2 ^ (64 - k) - 1, by have := Nat.two_pow_pos (64 - k); omega⟩
  rw [h64, hm, Nat.mul_add, Nat.mul_one]
  have e1 : (r.begin_ + q.elems.length) % 2 ^ k + (2 ^ k * m + 2 ^ k - r.begin_) + 1 =
      ((r.begin_ + q.elems.length) % 2 ^ k + 2 ^ k - r.begin_ + 1) + 2 ^ k * m := by omega
  rw [e1, Nat.add_mul_mod_self_left]
  have e2 : ((r.begin_ + q.elems.length) % 2 ^ k + 2 ^ k - r.begin_ + 1) % 2 ^ k = (q.elems.length + 1) % 2 ^ k := by
    have := pos_phys (N := 2 ^ k) hb hl
    unfold pos at this
    rw [Nat.add_mod, this, Nat.add_mod_mod]
  rw [e2]
  by_cases hf : q.elems.length = 2 ^ k - 1
  · have : q.elems.length + 1 = 2 ^ k := by omega
    rw [this, Nat.mod_self]; simp [hf]
  · rw [Nat.mod_eq_of_lt (by omega)]; simp [hf]

/-- The storage of a non-empty ringbuffer. -/
theorem Rel.buf {triv : Bool} {r : Ring α} {q : Spec.Q α} (h : Rel triv r q) (hc : 0 < q.cap) :
    ∃ k buf, k ≤ 63 ∧ 0 < k ∧ q.cap = 2 ^ k - 1 ∧ r.mask = 2 ^ k - 1 ∧ r.begin_ < 2 ^ k ∧
      r.end_ = (r.begin_ + q.elems.length) % 2 ^ k ∧ q.elems.length < 2 ^ k ∧ r.data = some buf ∧
      Ring.buf r = .ok buf ∧ Holds triv (2 ^ k) r.begin_ q.elems 0 buf := by
  obtain ⟨k, hk, hcap, hm, hb, he, hl, ⟨hd, h0⟩ | ⟨buf, hd, hh⟩⟩ := h.ex
  · subst h0; simp at hcap; omega
  · refine ⟨k, buf, hk, ?_, hcap, hm, hb, he, hl, hd, by unfold Ring.buf; rw [hd], hh⟩
    rcases Nat.eq_zero_or_pos k with h0 | h0
    · subst h0; simp at hcap; omega
    · exact h0

theorem Rel.cap_pos {triv : Bool} {r : Ring α} {q : Spec.Q α} (h : Rel triv r q) (hl : q.elems ≠ []) : 0 < q.cap := by
  obtain ⟨k, hk, hc, hm, hb, he, hl', -⟩ := h.ex
  have : 0 < q.elems.length := by
    cases hq : q.elems with
    | nil => exact absurd hq hl
    | cons => simp
  omega

theorem Rel.len_le {triv : Bool} {r : Ring α} {q : Spec.Q α} (h : Rel triv r q) : q.elems.length ≤ q.cap := by
  obtain ⟨k, hk, hc, hm, hb, he, hl', -⟩ := h.ex
  omega

theorem get_ok {triv : Bool} {r : Ring α} {q : Spec.Q α} (h : Rel triv r q) {i : Nat} (hi : i < q.elems.length) :
    get r i = .ok q.elems[i] := by
  obtain ⟨k, buf, hk, hk0, hcap, hm, hb, he, hl, hd, hbuf, hh⟩ := h.buf (by have := h.len_le; omega)
  unfold get
  rw [size_ok h, ccAssert_true (by simpa using hi), hbuf, hm, addMask_eq (by omega)]
  exact Buf.read_ok (hh.read hb (by omega) hi (by omega))

theorem get_bad {triv : Bool} {r : Ring α} {q : Spec.Q α} (h : Rel triv r q) {i : Nat} (hi : ¬ i < q.elems.length) :
    get r i = .error .assert := by
  unfold get
  rw [size_ok h, ccAssert_false (by simpa using hi)]; rfl

theorem front_ok {triv : Bool} {r : Ring α} {q : Spec.Q α} (h : Rel triv r q) (hl : 0 < q.elems.length) :
    front r = .ok q.elems[0] := by
  obtain ⟨k, buf, hk, hk0, hcap, hm, hb, he, hl', hd, hbuf, hh⟩ := h.buf (by have := h.len_le; omega)
  unfold front
  rw [isEmpty_ok h, ccAssert_true (by cases hq : q.elems <;> simp_all), hbuf]
  have := hh.read hb (by omega) hl (by omega)
  rw [Nat.add_zero, Nat.mod_eq_of_lt hb] at this
  exact Buf.read_ok this

theorem back_phys {N b n : Nat} (hb : b < N) (hn : n < N) (h0 : 0 < n) : ((b + n) % N + N - 1) % N = (b + (n - 1)) % N := by
  rw [phys_eq hb hn, phys_eq hb (i := n - 1) (by omega)]
  split
  · rw [if_pos (by omega), mod_wrap (by omega), if_neg (by omega)]; omega
  · split
    · rw [Nat.mod_eq_of_lt (by omega)]; omega
    · rw [mod_wrap (by omega), if_neg (by omega)]; omega

theorem back_ok {triv : Bool} {r : Ring α} {q : Spec.Q α} (h : Rel triv r q) (hl : 0 < q.elems.length) :
    back r = .ok (q.elems[q.elems.length - 1]'(by omega)) := by
  obtain ⟨k, buf, hk, hk0, hcap, hm, hb, he, hl', hd, hbuf, hh⟩ := h.buf (by have := h.len_le; omega)
  unfold back
  rw [isEmpty_ok h, ccAssert_true (by cases hq : q.elems <;> simp_all), hbuf, hm,
    subMask_eq (by omega) (Nat.one_le_two_pow), he, back_phys hb hl' hl]
  exact Buf.read_ok (hh.read hb (by omega) (t := q.elems.length - 1) (by omega) (by omega))

theorem empty_bad {triv : Bool} {r : Ring α} {q : Spec.Q α} (h : Rel triv r q) (hl : q.elems = []) :
    front r = .error .assert ∧ back r = .error .assert ∧ popBack triv r = .error .assert ∧
      popFront triv r = .error .assert := by
  have he : isEmpty r = true := by rw [isEmpty_ok h, hl]; rfl
  unfold front back popBack popFront
  rw [he]
  exact ⟨rfl, rfl, rfl, rfl⟩

/-- Rebuild the relation after the storage changed. -/
theorem Rel.mk' {triv : Bool} {k : Nat} (hk : k ≤ 63) {b e m : Nat} {buf : Buf α} {l : List α} {c : Nat}
    (hc : c = 2 ^ k - 1) (hm : m = 2 ^ k - 1) (hb : b < 2 ^ k) (he : e = (b + l.length) % 2 ^ k) (hl : l.length < 2 ^ k)
    (hh : Holds triv (2 ^ k) b l 0 buf) :
    Rel triv { begin_ := b, end_ := e, mask := m, data := some buf } ⟨l, c⟩ where
  ex := ⟨k, hk, hc, hm, hb, he, hl, Or.inr ⟨buf, rfl, hh⟩⟩

theorem set_ok {triv : Bool} {r : Ring α} {q : Spec.Q α} (h : Rel triv r q) {i : Nat} {a : α} (hi : i < q.elems.length) :
    ∃ r', set r i a = .ok r' ∧ Rel triv r' ⟨q.elems.set i a, q.cap⟩ := by
  obtain ⟨k, buf, hk, hk0, hcap, hm, hb, he, hl, hd, hbuf, hh⟩ := h.buf (by have := h.len_le; omega)
  unfold set
  rw [size_ok h, ccAssert_true (by simpa using hi), hbuf, hm, addMask_eq (by omega)]
  simp only [R.ok_bind]
  rw [Buf.assign_ok (hh.read hb (by omega) hi (by omega)) rfl]
  refine ⟨_, rfl, Rel.mk' hk hcap rfl hb (by simpa using he) (by simpa using hl) ⟨by simpa using hh.1, ?_⟩⟩
  intro j hj
  simp only [List.length_set] at hj
  have hx := hh.2 j hj
  have hjN : j < 2 ^ k := by rw [← hh.1]; exact hj
  rw [if_neg (by omega)] at hx ⊢
  rw [List.getElem_set, List.getElem?_set]
  by_cases hji : (r.begin_ + i) % 2 ^ k = j
  · rw [if_pos hji, ← hji, pos_phys hb (by omega), if_pos rfl, if_pos hi]
    rfl
  · have : i ≠ pos (2 ^ k) r.begin_ j := by
      intro e; apply hji; rw [e, phys_pos hb hjN]
    rw [if_neg hji, if_neg this]
    exact hx

/-- The argument of a push call is available as long as the old storage is intact. -/
theorem pushArg_ok {triv : Bool} {r : Ring α} {q : Spec.Q α} (h : Rel triv r q) (p : PushArg α) :
    match Spec.argVal q.elems p with
    | some a => ∃ arg, pushArg r p = .ok arg ∧ evalArg r.data arg = .ok a
    | none => pushArg r p = .error .assert := by
  cases p with
  | val a => exact ⟨_, rfl, rfl⟩
  | elem i =>
    simp only [Spec.argVal, pushArg]
    by_cases hi : i < q.elems.length
    · obtain ⟨k, buf, hk, hk0, hcap, hm, hb, he, hl, hd, hbuf, hh⟩ := h.buf (by have := h.len_le; omega)
      rw [List.getElem?_eq_getElem hi, size_ok h, ccAssert_true (by simpa using hi)]
      refine ⟨_, rfl, ?_⟩
      rw [hd, hm, addMask_eq (by omega)]
      exact Buf.read_ok (hh.read hb (by omega) hi (by omega))
    · rw [List.getElem?_eq_none (by omega), size_ok h, ccAssert_false (by simpa using hi)]
      rfl

theorem Holds.pushBack {triv : Bool} {N b : Nat} {l : List α} {buf : Buf α} {a : α} (h : Holds triv N b l 0 buf) (hb : b < N)
    (hl : l.length + 1 < N) : Holds triv N b (l ++ [a]) 0 (buf.set ((b + l.length) % N) (.live a)) := by
  refine ⟨by simpa using h.1, ?_⟩
  intro j hj
  simp only [List.length_set] at hj
  have hx := h.2 j hj
  have hjN : j < N := by rw [← h.1]; exact hj
  rw [if_neg (by omega)] at hx ⊢
  rw [List.getElem_set]
  by_cases hji : (b + l.length) % N = j
  · rw [if_pos hji, ← hji, pos_phys hb (by omega)]
    simp [SlotOK]
  · have hne : pos N b j ≠ l.length := by
      intro e; apply hji; rw [← e, phys_pos hb hjN]
    rw [if_neg hji]
    by_cases hlt : pos N b j < l.length
    · rw [List.getElem?_append_left hlt]; exact hx
    · rw [List.getElem?_eq_none (by omega)] at hx
      rw [List.getElem?_eq_none (by simp; omega)]
      exact hx

theorem Holds.free {triv : Bool} {N b : Nat} {l : List α} {buf : Buf α} (h : Holds triv N b l 0 buf) (hb : b < N) {t : Nat}
    (ht : l.length ≤ t) (htN : t < N) : ∃ x, buf[(b + t) % N]? = some x ∧ (x = .raw ∨ triv = true) := by
  have hlt : (b + t) % N < buf.length := by rw [h.1]; exact Nat.mod_lt _ (by omega)
  refine ⟨_, List.getElem?_eq_getElem hlt, ?_⟩
  have := h.2 _ hlt
  rw [pos_phys hb htN, if_neg (by omega), List.getElem?_eq_none ht] at this
  exact this

theorem prev_phys {N b : Nat} (hb : b < N) (h1 : 1 < N) : (b + N - 1) % N = (b + (N - 1)) % N ∧ (b + N - 1) % N < N := by
  refine ⟨by congr 1; omega, Nat.mod_lt _ (by omega)⟩

/-- Logical positions after moving the start back by one. -/
theorem pos_prev {N b j : Nat} (hb : b < N) (hj : j < N) (h1 : 1 < N) :
    pos N ((b + N - 1) % N) j = if pos N b j = N - 1 then 0 else pos N b j + 1 := by
  have hb' : (b + N - 1) % N = if b = 0 then N - 1 else b - 1 := by
    rw [mod_wrap (by omega)]; split <;> split <;> omega
  rw [pos_eq (prev_phys hb h1).2 hj, pos_eq hb hj, hb']
  split <;> split <;> split <;> split <;> omega

/-- Logical positions after moving the start forward by one. -/
theorem pos_next {N b j : Nat} (hb : b < N) (hj : j < N) (h1 : 1 < N) :
    pos N ((b + 1) % N) j = if pos N b j = 0 then N - 1 else pos N b j - 1 := by
  have hb' : (b + 1) % N = if b + 1 = N then 0 else b + 1 := by
    rw [mod_wrap (by omega)]; split <;> split <;> omega
  rw [pos_eq (Nat.mod_lt _ (by omega)) hj, pos_eq hb hj, hb']
  split <;> split <;> split <;> split <;> omega

theorem Holds.pushFront {triv : Bool} {N b : Nat} {l : List α} {buf : Buf α} {a : α} (h : Holds triv N b l 0 buf) (hb : b < N)
    (hl : l.length + 1 < N) : Holds triv N ((b + N - 1) % N) (a :: l) 0 (buf.set ((b + N - 1) % N) (.live a)) := by
  refine ⟨by simpa using h.1, ?_⟩
  intro j hj
  simp only [List.length_set] at hj
  have hx := h.2 j hj
  have hjN : j < N := by rw [← h.1]; exact hj
  rw [if_neg (by omega)] at hx ⊢
  rw [List.getElem_set, pos_prev hb hjN (by omega)]
  have hpl := pos_lt (j := j) hb
  by_cases hji : (b + N - 1) % N = j
  · have : pos N b j = N - 1 := by rw [← hji, (prev_phys hb (by omega)).1, pos_phys hb (by omega)]
    rw [if_pos hji, if_pos this]
    simp [SlotOK]
  · have hne : pos N b j ≠ N - 1 := by
      intro e; apply hji; rw [(prev_phys hb (by omega)).1, ← e, phys_pos hb hjN]
    rw [if_neg hji, if_neg hne, List.getElem?_cons_succ]
    exact hx

theorem Holds.popFront {triv : Bool} {N b : Nat} {l : List α} {a : α} {buf : Buf α} (h : Holds triv N b (a :: l) 0 buf)
    (hb : b < N) (hl : l.length + 1 < N) : Holds triv N ((b + 1) % N) l 0 (buf.set b .raw) := by
  refine ⟨by simpa using h.1, ?_⟩
  intro j hj
  simp only [List.length_set] at hj
  have hx := h.2 j hj
  have hjN : j < N := by rw [← h.1]; exact hj
  rw [if_neg (by omega)] at hx ⊢
  rw [List.getElem_set, pos_next hb hjN (by omega)]
  by_cases hji : b = j
  · have : pos N b j = 0 := by rw [← hji, pos_eq hb hb, if_pos (by omega)]; omega
    rw [if_pos hji, if_pos this, List.getElem?_eq_none (by omega)]
    exact Or.inl rfl
  · have hne : pos N b j ≠ 0 := by
      intro e
      apply hji
      have := phys_pos hb hjN
      rw [e, Nat.add_zero, Nat.mod_eq_of_lt hb] at this
      exact this
    rw [if_neg hji, if_neg hne]
    obtain ⟨m, hm⟩ : ∃ m, pos N b j = m + 1 := ⟨pos N b j - 1, by omega⟩
    rw [hm, List.getElem?_cons_succ] at hx
    rw [hm]
    exact hx

theorem Holds.popBack {triv : Bool} {N b : Nat} {l : List α} {buf : Buf α} (h : Holds triv N b l 0 buf)
    (hb : b < N) (hl : l.length < N) (h0 : 0 < l.length) :
    Holds triv N b l.dropLast 0 (buf.set ((b + (l.length - 1)) % N) .raw) := by
  refine ⟨by simpa using h.1, ?_⟩
  intro j hj
  simp only [List.length_set] at hj
  have hx := h.2 j hj
  have hjN : j < N := by rw [← h.1]; exact hj
  rw [if_neg (by omega)] at hx ⊢
  rw [List.getElem_set, List.getElem?_dropLast]
  by_cases hji : (b + (l.length - 1)) % N = j
  · rw [if_pos hji, ← hji, pos_phys hb (by omega), if_neg (by omega)]
    exact Or.inl rfl
  · have hne : pos N b j ≠ l.length - 1 := by
      intro e; apply hji; rw [← e, phys_pos hb hjN]
    rw [if_neg hji]
    split
    · exact hx
    · rw [List.getElem?_eq_none (by omega)] at hx
      exact hx

/-- A linear buffer. -/
theorem holds_linear {triv : Bool} {N : Nat} {l : List α} {buf : Buf α} (hlen : buf.length = N)
    (h : ∀ j, (hj : j < buf.length) → SlotOK triv buf[j] l[j]?) : Holds triv N 0 l 0 buf := by
  refine ⟨hlen, ?_⟩
  intro j hj
  have : pos N 0 j = j := by
    rw [pos_eq (by omega) (by omega), if_pos (by omega)]; omega
  rw [if_neg (by omega), this]
  exact h j hj

theorem grownMask_eq {k : Nat} (hk : k ≤ 62) : grownMask (2 ^ k - 1) = if k = 0 then 3 else 2 ^ (k + 1) - 1 := by
  unfold grownMask
  rcases Nat.eq_zero_or_pos k with h0 | h0
  · subst h0; rfl
  · have h2 : 2 ≤ 2 ^ k := by
      calc 2 = 2 ^ 1 := rfl
        _ ≤ 2 ^ k := Nat.pow_le_pow_right (by omega) h0
    have h3 : 2 ^ k ≤ 2 ^ 62 := Nat.pow_le_pow_right (by omega) hk
    have h4 : 2 ^ (k + 1) = 2 * 2 ^ k := by rw [Nat.pow_succ]; omega
    rw [if_neg (by omega), if_neg (by omega), h4, Nat.mod_eq_of_lt (by omega), Nat.mod_eq_of_lt (by omega)]
    omega

theorem grow_ok {triv : Bool} {r : Ring α} {q : Spec.Q α} (h : Rel triv r q) (hfull : q.elems.length = q.cap)
    (hcap : q.cap < 2 ^ 62) {arg : Arg α} {a : α} (ha : evalArg r.data arg = .ok a) {np off : Nat} {L : List α}
    (hL : L.length = q.elems.length + 1) (hoff : off ≤ 1) (hnp : np < L.length) (hLn : L[np]? = some a)
    (hLo : ∀ t, (ht : t < q.elems.length) → t + off ≠ np ∧ L[t + off]? = some q.elems[t])
    (hcov : ∀ j, j < L.length → j = np ∨ ∃ t, t < q.elems.length ∧ j = t + off) :
    ∃ r', grow triv r np off arg = .ok (r', 0) ∧ Rel triv r' ⟨L, Spec.capAfterPush q⟩ := by
  obtain ⟨k, hk, hc, hm, hb, he, hl, hdat⟩ := h.ex
  have hk62 : k ≤ 62 := by
    rcases Nat.lt_or_ge 62 k with h1 | h1
    · have : 2 ^ 63 ≤ 2 ^ k := Nat.pow_le_pow_right (by omega) (by omega)
      omega
    · exact h1
  obtain ⟨k', hk', hk1, hgm, hgc⟩ : ∃ k', k' ≤ 63 ∧ q.elems.length + 1 < 2 ^ k' ∧ grownMask r.mask = 2 ^ k' - 1 ∧
      Spec.capAfterPush q = 2 ^ k' - 1 := by
    rw [hm, grownMask_eq hk62]
    have hcp : Spec.capAfterPush q = if q.cap = 0 then 3 else 2 * q.cap + 1 := by
      unfold Spec.capAfterPush
      rw [if_neg (by omega)]
    rw [hcp]
    rcases Nat.eq_zero_or_pos k with h0 | h0
    · subst h0
      have hc0 : q.cap = 0 := by simpa using hc
      exact ⟨2, by omega, by rw [hfull, hc0]; decide, rfl, by rw [hc0]; rfl⟩
    · have h2 : 2 ≤ 2 ^ k := by
        calc 2 = 2 ^ 1 := rfl
          _ ≤ 2 ^ k := Nat.pow_le_pow_right (by omega) h0
      have h4 : 2 ^ (k + 1) = 2 * 2 ^ k := by rw [Nat.pow_succ]; omega
      exact ⟨k + 1, by omega, by omega, by rw [if_neg (show ¬ k = 0 by omega)], by rw [if_neg (show ¬ q.cap = 0 by omega)]; omega⟩
  have hN1 : 1 ≤ 2 ^ k' := Nat.one_le_two_pow
  unfold grow
  rw [atCapacity_ok h, ccAssert_true (by simpa using hfull), ha, size_ok h, hgm]
  simp only [R.ok_bind]
  have hsub : 2 ^ k' - 1 + 1 = 2 ^ k' := by omega
  rw [hsub]
  have hmk : ∀ j, j < 2 ^ k' → (Buf.mk (α := α) (2 ^ k'))[j]? = some .raw := by
    intro j hj; simp [Buf.mk, hj]
  rw [Buf.construct_ok (hmk np (by omega)) (Or.inl rfl)]
  simp only [R.ok_bind]
  have hnew : NewOK q.elems a np off 0 (2 ^ k') ((Buf.mk (2 ^ k')).set np (.live a)) := by
    refine ⟨by simp [Buf.mk], ?_⟩
    intro j hj
    rw [List.getElem_set]
    refine ⟨?_, ?_, ?_⟩
    · intro hjn; rw [if_pos hjn.symm]
    · intro t ht h0; omega
    · intro hjn _; rw [if_neg (Ne.symm hjn)]; simp [Buf.mk]
  have hmove : ∃ old' new', moveLoop triv r off 0 (r.data.getD []) ((Buf.mk (2 ^ k')).set np (.live a)) q.elems.length =
      .ok (old', new') ∧ old'.leak triv = 0 ∧ NewOK q.elems a np off q.elems.length (2 ^ k') new' := by
    rcases hdat with ⟨hd, h0⟩ | ⟨buf, hd, hh⟩
    · have : q.elems.length = 0 := by subst h0; simp at hl; simp [hl]
      rw [this, hd]
      refine ⟨[], _, rfl, ?_, by simpa [this] using hnew⟩
      unfold Buf.leak; cases triv <;> simp
    · rw [hd]
      obtain ⟨old', new', e, hh', hn'⟩ := moveLoop_ok (by omega) hm hb (by omega) (N' := 2 ^ k') (np := np) (off := off)
        (a := a) (by omega) (fun t ht => (hLo t ht).1) q.elems.length hh hnew (by omega)
      exact ⟨old', new', e, hh'.leak, hn'⟩
  obtain ⟨old', new', e, hlk, hn'⟩ := hmove
  rw [e]
  simp only [R.ok_bind, hlk]
  refine ⟨_, rfl, Rel.mk' hk' hgc rfl (by omega) ?_ (by omega) ?_⟩
  · rw [Nat.zero_add, hL, Nat.mod_eq_of_lt hk1]
  · refine holds_linear hn'.1 ?_
    intro j hj
    obtain ⟨h1, h2, h3⟩ := hn'.2 j hj
    by_cases hjL : j < L.length
    · rcases hcov j hjL with hc | ⟨t, ht, hc⟩
      · rw [h1 hc, hc, hLn]; rfl
      · rw [h2 t ht ht hc, hc, (hLo t ht).2]; rfl
    · rw [List.getElem?_eq_none (by omega)]
      left
      refine h3 (by omega) ?_
      intro t ht; omega

/-- A push that appends `a`. -/
theorem emplaceBack_ok {triv : Bool} {r : Ring α} {q : Spec.Q α} (h : Rel triv r q) (hcap : q.cap < 2 ^ 62) {arg : Arg α}
    {a : α} (ha : evalArg r.data arg = .ok a) :
    ∃ r', emplaceBack triv r arg = .ok (r', 0) ∧ Rel triv r' ⟨q.elems ++ [a], Spec.capAfterPush q⟩ := by
  have hlec := h.len_le
  by_cases hfull : q.elems.length = q.cap
  · have hne : addMask r.end_ 1 r.mask = r.begin_ := by
      obtain ⟨k, hk, hc, hm, hb, he, hl, hdat⟩ := h.ex
      rw [hm, addMask_eq (by omega), he, phys_eq hb hl]
      split
      · rw [mod_wrap (by omega)]; split <;> omega
      · rw [mod_wrap (by omega)]; split <;> omega
    unfold emplaceBack
    simp only
    rw [if_neg (by simpa using hne), size_ok h]
    exact grow_ok h hfull hcap ha (by simp) (by omega) (by simp) (by simp)
      (by intro t ht; exact ⟨by omega, by rw [Nat.add_zero, List.getElem?_append_left ht, List.getElem?_eq_getElem ht]⟩) (by
        intro j hj
        simp at hj
        by_cases hj' : j = q.elems.length
        · exact Or.inl hj'
        · exact Or.inr ⟨j, by omega, rfl⟩)
  · obtain ⟨k, buf, hk, hk0, hc, hm, hb, he, hl, hd, hbuf, hh⟩ := h.buf (by omega)
    have hne : addMask r.end_ 1 r.mask ≠ r.begin_ ∧ addMask r.end_ 1 r.mask = (r.begin_ + (q.elems.length + 1)) % 2 ^ k := by
      rw [hm, addMask_eq (by omega), he]
      have : ((r.begin_ + q.elems.length) % 2 ^ k + 1) % 2 ^ k = (r.begin_ + (q.elems.length + 1)) % 2 ^ k := by
        rw [Nat.add_mod, Nat.mod_mod, ← Nat.add_mod]; rfl
      rw [this]
      refine ⟨?_, rfl⟩
      rw [phys_eq hb (by omega)]
      split <;> omega
    unfold emplaceBack
    simp only
    rw [if_pos hne.1, hbuf, ha]
    simp only [R.ok_bind]
    obtain ⟨x, hx, hxr⟩ := hh.free hb (t := q.elems.length) (Nat.le_refl _) hl
    rw [← he] at hx
    rw [Buf.construct_ok hx hxr, hne.2]
    refine ⟨_, rfl, ?_⟩
    unfold Spec.capAfterPush
    rw [if_pos (by omega), he]
    exact Rel.mk' hk hc hm hb (by simp) (by simp; omega) (hh.pushBack hb (by omega))

theorem emplaceBackStable_ok {triv : Bool} {r : Ring α} {q : Spec.Q α} (h : Rel triv r q) (hlt : q.elems.length < q.cap)
    {arg : Arg α} {a : α} (ha : evalArg r.data arg = .ok a) :
    ∃ r', emplaceBackStable triv r arg = .ok (r', 0) ∧ Rel triv r' ⟨q.elems ++ [a], q.cap⟩ := by
  obtain ⟨k, buf, hk, hk0, hc, hm, hb, he, hl, hd, hbuf, hh⟩ := h.buf (by omega)
  unfold emplaceBackStable
  rw [atCapacity_ok h, ccAssert_true (by simp; omega), hbuf, ha]
  simp only [R.ok_bind]
  obtain ⟨x, hx, hxr⟩ := hh.free hb (t := q.elems.length) (Nat.le_refl _) hl
  rw [← he] at hx
  rw [Buf.construct_ok hx hxr]
  refine ⟨_, rfl, ?_⟩
  rw [hm, addMask_eq (by omega)]
  have : ((r.begin_ + q.elems.length) % 2 ^ k + 1) % 2 ^ k = (r.begin_ + (q.elems.length + 1)) % 2 ^ k := by
    rw [Nat.add_mod, Nat.mod_mod, ← Nat.add_mod]; rfl
  rw [he, this]
  exact Rel.mk' hk hc rfl hb (by simp) (by simp; omega) (hh.pushBack hb (by omega))

theorem front_free {triv : Bool} {k : Nat} {b : Nat} {l : List α} {buf : Buf α} (hh : Holds triv (2 ^ k) b l 0 buf)
    (hb : b < 2 ^ k) (hl : l.length + 1 < 2 ^ k) : ∃ x, buf[(b + 2 ^ k - 1) % 2 ^ k]? = some x ∧ (x = .raw ∨ triv = true) := by
  have := hh.free hb (t := 2 ^ k - 1) (by omega) (by omega)
  rw [← (prev_phys hb (by omega)).1] at this
  exact this

theorem front_end {N b n : Nat} (hb : b < N) (hn : n + 1 < N) :
    (b + n) % N = ((b + N - 1) % N + (n + 1)) % N := by
  rw [Nat.add_mod (_ % N), Nat.mod_mod, ← Nat.add_mod]
  have : b + N - 1 + (n + 1) = b + n + N := by omega
  rw [this, Nat.add_mod_right]

theorem emplaceFront_ok {triv : Bool} {r : Ring α} {q : Spec.Q α} (h : Rel triv r q) (hcap : q.cap < 2 ^ 62) {arg : Arg α}
    {a : α} (ha : evalArg r.data arg = .ok a) :
    ∃ r', emplaceFront triv r arg = .ok (r', 0) ∧ Rel triv r' ⟨a :: q.elems, Spec.capAfterPush q⟩ := by
  have hlec := h.len_le
  by_cases hfull : q.elems.length = q.cap
  · have hne : subMask r.begin_ 1 r.mask = r.end_ := by
      obtain ⟨k, hk, hc, hm, hb, he, hl, hdat⟩ := h.ex
      rw [hm, subMask_eq (by omega) Nat.one_le_two_pow, he]
      congr 1; omega
    unfold emplaceFront
    simp only
    rw [if_neg (by simpa using hne)]
    exact grow_ok h hfull hcap ha (by simp) (by omega) (by simp) (by simp)
      (by intro t ht; exact ⟨by omega, by simp [ht]⟩) (by
        intro j hj
        simp at hj
        by_cases hj' : j = 0
        · exact Or.inl hj'
        · exact Or.inr ⟨j - 1, by omega, by omega⟩)
  · obtain ⟨k, buf, hk, hk0, hc, hm, hb, he, hl, hd, hbuf, hh⟩ := h.buf (by omega)
    have hsub : subMask r.begin_ 1 r.mask = (r.begin_ + 2 ^ k - 1) % 2 ^ k := by
      rw [hm, subMask_eq (by omega) Nat.one_le_two_pow]
    have hne : (r.begin_ + 2 ^ k - 1) % 2 ^ k ≠ r.end_ := by
      rw [he, (prev_phys hb (by omega)).1, phys_eq hb (by omega), phys_eq hb hl]
      split <;> split <;> omega
    unfold emplaceFront
    simp only
    rw [hsub, if_pos hne, hbuf, ha]
    simp only [R.ok_bind]
    obtain ⟨x, hx, hxr⟩ := front_free hh hb (by omega)
    rw [Buf.construct_ok hx hxr]
    refine ⟨_, rfl, ?_⟩
    unfold Spec.capAfterPush
    rw [if_pos (by omega)]
    refine Rel.mk' hk hc hm (prev_phys hb (by omega)).2 ?_ (by simp; omega) (hh.pushFront hb (by omega))
    rw [he]
    exact front_end hb (by omega)

theorem emplaceFrontStable_ok {triv : Bool} {r : Ring α} {q : Spec.Q α} (h : Rel triv r q) (hlt : q.elems.length < q.cap)
    {arg : Arg α} {a : α} (ha : evalArg r.data arg = .ok a) :
    ∃ r', emplaceFrontStable triv r arg = .ok (r', 0) ∧ Rel triv r' ⟨a :: q.elems, q.cap⟩ := by
  obtain ⟨k, buf, hk, hk0, hc, hm, hb, he, hl, hd, hbuf, hh⟩ := h.buf (by omega)
  have hsub : subMask r.begin_ 1 r.mask = (r.begin_ + 2 ^ k - 1) % 2 ^ k := by
    rw [hm, subMask_eq (by omega) Nat.one_le_two_pow]
  unfold emplaceFrontStable
  rw [atCapacity_ok h, ccAssert_true (by simp; omega), hbuf, ha]
  simp only [R.ok_bind]
  rw [hsub]
  obtain ⟨x, hx, hxr⟩ := front_free hh hb (by omega)
  rw [Buf.construct_ok hx hxr]
  refine ⟨_, rfl, ?_⟩
  refine Rel.mk' hk hc hm (prev_phys hb (by omega)).2 ?_ (by simp; omega) (hh.pushFront hb (by omega))
  rw [he]
  exact front_end hb (by omega)

theorem stable_bad {triv : Bool} {r : Ring α} {q : Spec.Q α} (h : Rel triv r q) (hlt : ¬ q.elems.length < q.cap)
    (arg : Arg α) : emplaceBackStable triv r arg = .error .assert ∧ emplaceFrontStable triv r arg = .error .assert := by
  have := h.len_le
  unfold emplaceBackStable emplaceFrontStable
  rw [atCapacity_ok h, ccAssert_false (by simp; omega)]
  exact ⟨rfl, rfl⟩

theorem popBack_ok {triv : Bool} {r : Ring α} {q : Spec.Q α} (h : Rel triv r q) (hl0 : q.elems ≠ []) :
    ∃ r', popBack triv r = .ok (q.elems.getLast hl0, r') ∧ Rel triv r' ⟨q.elems.dropLast, q.cap⟩ := by
  obtain ⟨k, buf, hk, hk0, hc, hm, hb, he, hl, hd, hbuf, hh⟩ := h.buf (h.cap_pos hl0)
  have hpos : 0 < q.elems.length := List.length_pos_iff.2 hl0
  have hie : isEmpty r = false := by rw [isEmpty_ok h]; simpa using hl0
  unfold popBack
  rw [hie, ccAssert_true (c := !false) rfl, hbuf, hm, subMask_eq (by omega) Nat.one_le_two_pow, he, back_phys hb hl hpos]
  simp only [R.ok_bind]
  have hrd := hh.read hb (by omega) (t := q.elems.length - 1) (by omega) (by omega)
  rw [Buf.take_ok hrd]
  simp only [R.ok_bind]
  obtain ⟨x, hx, hxa⟩ := moved_alive (triv := triv) hrd
  rw [Buf.destroy_ok hx hxa, set_moved_raw]
  rw [List.getLast_eq_getElem]
  refine ⟨_, rfl, Rel.mk' hk hc rfl hb (by simp) (by simp; omega) (hh.popBack hb hl hpos)⟩

theorem popFront_ok {triv : Bool} {r : Ring α} {q : Spec.Q α} (h : Rel triv r q) {a : α} {l : List α} (hl0 : q.elems = a :: l) :
    ∃ r', popFront triv r = .ok (a, r') ∧ Rel triv r' ⟨l, q.cap⟩ := by
  obtain ⟨k, buf, hk, hk0, hc, hm, hb, he, hl, hd, hbuf, hh⟩ := h.buf (h.cap_pos (by simp [hl0]))
  have hie : isEmpty r = false := by rw [isEmpty_ok h, hl0]; rfl
  rw [hl0] at hh hl he
  simp only [List.length_cons] at hl he
  unfold popFront
  rw [hie, ccAssert_true (c := !false) rfl, hbuf, hm, addMask_eq (by omega)]
  simp only [R.ok_bind]
  have hrd := hh.read hb (by simp; omega) (t := 0) (by simp) (by omega)
  rw [Nat.add_zero, Nat.mod_eq_of_lt hb] at hrd
  rw [Buf.take_ok hrd]
  simp only [R.ok_bind]
  obtain ⟨x, hx, hxa⟩ := moved_alive (triv := triv) hrd
  rw [Buf.destroy_ok hx hxa, set_moved_raw]
  refine ⟨_, rfl, Rel.mk' hk hc rfl (Nat.mod_lt _ (by omega)) ?_ (by omega) (hh.popFront hb (by omega))⟩
  rw [he, Nat.add_mod ((r.begin_ + 1) % _), Nat.mod_mod, ← Nat.add_mod]
  congr 1; omega

theorem destroyAll_ok {triv : Bool} {r : Ring α} {q : Spec.Q α} (h : Rel triv r q) :
    ∃ d, destroyAll triv r = .ok d ∧ (match d with | some b => b.leak triv | none => 0) = 0 ∧
      ∀ k, r.mask = 2 ^ k - 1 → k ≤ 63 →
        ((d = none ∧ k = 0) ∨ ∃ b, d = some b ∧ Holds triv (2 ^ k) 0 [] 0 b) := by
  obtain ⟨k, hk, hc, hm, hb, he, hl, hdat⟩ := h.ex
  have hinj : ∀ k', r.mask = 2 ^ k' - 1 → k' = k := by
    intro k' hk'
    have h1 : (2 : Nat) ^ k' = 2 ^ k := by
      have := Nat.two_pow_pos k'; have := Nat.two_pow_pos k; omega
    exact Nat.pow_right_inj (by omega : 1 < 2) |>.1 h1
  unfold destroyAll
  by_cases ht : triv = true
  · rw [if_pos ht]
    refine ⟨_, rfl, ?_, ?_⟩
    · cases r.data <;> simp [Buf.leak, ht]
    · intro k' hk' _
      have := hinj k' hk'
      subst this
      rcases hdat with ⟨hd, h0⟩ | ⟨buf, hd, hh⟩
      · exact Or.inl ⟨hd, h0⟩
      · exact Or.inr ⟨buf, hd, holds_linear hh.1 (by intro j hj; exact Or.inr ht)⟩
  · rw [if_neg ht]
    rcases hdat with ⟨hd, h0⟩ | ⟨buf, hd, hh⟩
    · rw [hd]
      have : size r = 0 := by rw [size_ok h]; subst h0; simp at hl; simp [hl]
      simp only
      rw [if_pos this]
      refine ⟨_, rfl, rfl, ?_⟩
      intro k' hk' _
      have := hinj k' hk'
      subst this
      exact Or.inl ⟨rfl, h0⟩
    · rw [hd]
      simp only
      rw [size_ok h]
      obtain ⟨buf', e, hh'⟩ := destroyLoop_ok (by omega) hm hb (by omega) q.elems.length hh (by omega)
      rw [e]
      refine ⟨_, rfl, hh'.leak, ?_⟩
      intro k' hk' _
      have := hinj k' hk'
      subst this
      refine Or.inr ⟨buf', rfl, holds_linear hh'.1 ?_⟩
      intro j hj
      have := hh'.2 j hj
      simp only [List.getElem?_nil]
      split at this
      · exact this
      · rw [List.getElem?_eq_none (by omega)] at this
        exact this

theorem clear_ok {triv : Bool} {r : Ring α} {q : Spec.Q α} (h : Rel triv r q) :
    ∃ r', clear triv r = .ok r' ∧ Rel triv r' ⟨[], q.cap⟩ := by
  obtain ⟨d, e, -, hd⟩ := destroyAll_ok h
  obtain ⟨k, hk, hc, hm, hb, he, hl, -⟩ := h.ex
  unfold clear
  rw [e]
  refine ⟨_, rfl, ⟨k, hk, hc, hm, by simp; omega, by simp, by simp; omega, ?_⟩⟩
  rcases hd k hm hk with h1 | h1
  · exact Or.inl h1
  · exact Or.inr h1

theorem dtor_ok {triv : Bool} {r : Ring α} {q : Spec.Q α} (h : Rel triv r q) : dtor triv r = .ok 0 := by
  obtain ⟨d, e, hlk, -⟩ := destroyAll_ok h
  unfold dtor
  rw [e]
  simp only [R.ok_bind]
  cases d with
  | none => rfl
  | some b => simp only at hlk ⊢; rw [hlk]

theorem copyLoop_ok {triv : Bool} {r : Ring α} {q : Spec.Q α} (h : Rel triv r q) (n : Nat) : ∀ {i : Nat} {new : Buf α},
    (∀ j, (hj : j < new.length) → SlotOK triv new[j] (q.elems.take i)[j]?) → q.elems.length ≤ new.length →
    i + n = q.elems.length →
    ∃ new', copyLoop triv r i new n = .ok new' ∧ new'.length = new.length ∧
      ∀ j, (hj : j < new'.length) → SlotOK triv new'[j] q.elems[j]? := by
  induction n with
  | zero =>
    intro i new hn _ hi
    refine ⟨new, rfl, rfl, ?_⟩
    rw [List.take_of_length_le (by omega)] at hn
    exact hn
  | succ n ih =>
    intro i new hn hlen hi
    have hil : i < q.elems.length := by omega
    obtain ⟨k, buf, hk, hk0, hc, hm, hb, he, hl, hd, hbuf, hh⟩ := h.buf (by have := h.len_le; omega)
    simp only [copyLoop]
    rw [hbuf, hm, addMask_eq (by omega)]
    simp only [R.ok_bind]
    rw [Buf.read_ok (hh.read hb (by omega) hil (by omega))]
    simp only [R.ok_bind]
    have hlt : i < new.length := by omega
    have hraw := hn i hlt
    rw [List.getElem?_eq_none (by simp; omega)] at hraw
    rw [Buf.construct_ok (List.getElem?_eq_getElem hlt) hraw]
    simp only [R.ok_bind]
    obtain ⟨new', e, hl', hn'⟩ := ih (i := i + 1) (new := new.set i (.live q.elems[i])) (by
      intro j hj
      simp only [List.length_set] at hj
      have hx := hn j hj
      rw [List.getElem_set]
      by_cases hji : i = j
      · subst hji
        rw [if_pos rfl, List.getElem?_take_of_lt (by omega), List.getElem?_eq_getElem hil]
        rfl
      · rw [if_neg hji]
        rcases Nat.lt_or_ge j i with h1 | h1
        · rw [List.getElem?_take_of_lt (by omega)] at hx ⊢
          exact hx
        · rw [List.getElem?_eq_none (by simp; omega)] at hx ⊢
          exact hx) (by simpa using hlen) (by omega)
    exact ⟨new', e, by simpa using hl', hn'⟩

theorem copy_ok {triv : Bool} {r : Ring α} {q : Spec.Q α} (h : Rel triv r q) :
    ∃ r', copy triv r = .ok r' ∧ Rel triv r' q := by
  obtain ⟨k, hk, hc, hm, hb, he, hl, -⟩ := h.ex
  have hsz := size_ok h
  unfold copy
  have h1 : (1 : Nat) ≤ 2 ^ k := Nat.one_le_two_pow
  have hs2 : size ({ begin_ := 0, end_ := size r, mask := r.mask, data := none } : Ring α) = q.elems.length := by
    unfold size
    simp only
    rw [hm, subMask_eq (by omega) (by omega)]
    have := pos_phys (N := 2 ^ k) (b := 0) (by omega) hl
    rw [Nat.zero_add, Nat.mod_eq_of_lt hl] at this
    unfold pos at this
    have hsz2 := hsz
    unfold size at hsz2
    rw [hm, subMask_eq (by omega) (by omega)] at hsz2
    have hsz3 := hsz
    unfold size at hsz3
    rw [hm] at hsz3
    rw [hsz3]; exact this
  simp only
  rw [hs2]
  have hsub : r.mask + 1 = 2 ^ k := by omega
  obtain ⟨new', e, hlen, hn⟩ := copyLoop_ok h q.elems.length (i := 0) (new := Buf.mk (r.mask + 1)) (by
    intro j hj
    simp [SlotOK, Buf.mk]) (by simp [Buf.mk]; omega) (by omega)
  rw [e]
  simp only [R.ok_bind, hsz]
  refine ⟨_, rfl, ⟨k, hk, hc, hm, by simp; omega, ?_, hl, Or.inr ⟨new', rfl, holds_linear ?_ hn⟩⟩⟩
  · simp only [Nat.zero_add]; rw [Nat.mod_eq_of_lt hl]
  · rw [hlen]; simp [Buf.mk]; omega

end Verif.Ring
