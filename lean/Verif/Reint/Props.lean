import Verif.Reint.Spec
/-!
# Properties of other views of the same elements (C113)
-/
namespace Verif.Reint

variable {m : Memory} {T U : Ty} {v : View}

theorem length_bytes (m : Memory) (a n : Nat) : (m.bytes a n).length = n := by simp [Memory.bytes]

theorem getD_bytes (m : Memory) (a n i : Nat) (h : i < n) : (m.bytes a n).getD i 0 = m.byte (a + i) := by
  simp [Memory.bytes, List.getD_eq_getElem?_getD, h]

theorem mul_le_of_lt {i n s : Nat} (h : i < n) : i * s + s ≤ n * s := by
  have := Nat.mul_le_mul_right s (show i + 1 ≤ n from h)
  rw [Nat.succ_mul] at this; exact this

theorem get_ok (hT : T.Ok) (h : Valid m T v) {i : Nat} (hi : i < v.n) : get m T v i = .ok (m.bytes (v.addr + i * T.size) T.size) := by
  have h1 := mul_le_of_lt (s := T.size) hi
  have h2 := h.lo
  have h3 := h.hi
  have h4 : (v.addr + i * T.size) % T.align = 0 := by
    rw [Nat.add_mod, h.aligned, Nat.mul_mod, hT.mult]; simp
  unfold get load
  rw [if_pos ⟨h4, by omega, by omega⟩]
  simp [hi]

theorem set_ok (hT : T.Ok) (h : Valid m T v) {i : Nat} (hi : i < v.n) (x : List Byte) : set m T v i x =
    .ok { m with byte := fun y => if v.addr + i * T.size ≤ y ∧ y < v.addr + i * T.size + T.size then x.getD (y - (v.addr + i * T.size)) 0 else m.byte y } := by
  have h1 := mul_le_of_lt (s := T.size) hi
  have h2 := h.lo
  have h3 := h.hi
  have h4 : (v.addr + i * T.size) % T.align = 0 := by
    rw [Nat.add_mod, h.aligned, Nat.mul_mod, hT.mult]; simp
  unfold set store
  rw [if_pos ⟨h4, by omega, by omega⟩]
  simp [hi]

theorem holds_bytes (hT : T.Ok) (h : Valid m T v) : Holds m T v fun i => m.bytes (v.addr + i * T.size) T.size :=
  fun _ hi => ⟨get_ok hT h hi, length_bytes _ _ _⟩

theorem holds_eq (hT : T.Ok) (h : Valid m T v) {e : Nat → List Byte} (he : Holds m T v e) {i : Nat} (hi : i < v.n) :
    e i = m.bytes (v.addr + i * T.size) T.size := by
  have := (he i hi).1
  rw [get_ok hT h hi] at this
  simpa using this.symm

theorem bytes_add (m : Memory) (a n k : Nat) : m.bytes a (n + k) = m.bytes a n ++ m.bytes (a + n) k := by
  unfold Memory.bytes
  rw [List.range_add]
  simp [Nat.add_assoc]

theorem concat_bytes (m : Memory) (a s : Nat) : ∀ n, concat n (fun i => m.bytes (a + i * s) s) = m.bytes a (n * s)
  | 0 => by simp [concat, Memory.bytes]
  | n + 1 => by
    have ih := concat_bytes m a s n
    unfold concat at ih ⊢
    rw [List.range_succ, List.flatMap_append, ih, Nat.succ_mul, bytes_add]
    simp

theorem concat_congr {n : Nat} {e f : Nat → List Byte} (h : ∀ i, i < n → e i = f i) : concat n e = concat n f := by
  unfold concat
  have : (List.range n).map e = (List.range n).map f := List.map_congr_left fun i hi => h i (List.mem_range.1 hi)
  simp only [List.flatMap, this]

theorem byte_ok : byteTy.Ok := ⟨by decide, by decide, by decide⟩

theorem valid_small (h : Valid m T v) : v.n * T.size < 2 ^ 64 := by
  have := h.hi; have := h.bound; omega

/-- C113: `as_bytes` and `as_writable_bytes` give exactly the bytes of the elements: byte `k` is byte `k % sizeof(T)` of element `k / sizeof(T)`. -/
theorem C113_as_bytes (hT : T.Ok) (h : Valid m T v) {e : Nat → List Byte} (he : Holds m T v e) :
    Valid m byteTy (asBytes T v) ∧ (asBytes T v).n = v.n * T.size ∧
    (∀ k, k < v.n * T.size → get m byteTy (asBytes T v) k = .ok [(e (k / T.size)).getD (k % T.size) 0]) ∧
    ∀ k, v.n * T.size ≤ k → get m byteTy (asBytes T v) k = .error .assert := by
  have hs := valid_small h
  have hn : (asBytes T v).n = v.n * T.size := by unfold asBytes; exact Nat.mod_eq_of_lt hs
  have hv : Valid m byteTy (asBytes T v) := by
    refine ⟨h.lo, ?_, h.bound, ?_⟩
    · rw [hn]; simpa [byteTy, asBytes] using h.hi
    · simp [byteTy, Nat.mod_one]
  refine ⟨hv, hn, fun k hk => ?_, fun k hk => ?_⟩
  · rw [get_ok byte_ok hv (by rw [hn]; exact hk)]
    have hq : k / T.size < v.n := Nat.div_lt_of_lt_mul (by rw [Nat.mul_comm]; exact hk)
    have hr := Nat.mod_lt k hT.pos
    rw [holds_eq hT h he hq, getD_bytes _ _ _ _ hr]
    have hd := Nat.div_add_mod k T.size
    have e1 : v.addr + k / T.size * T.size + k % T.size = v.addr + k := by rw [Nat.mul_comm (k / T.size)]; omega
    rw [e1]
    simp [byteTy, Memory.bytes, asBytes, List.range_succ]
  · unfold get
    rw [hn]
    have : decide (k < v.n * T.size) = false := by simpa using hk
    rw [this]; rfl

/-- C113: writing byte `k` through `as_writable_bytes` changes byte `k % sizeof(T)` of element `k / sizeof(T)`, and nothing else. -/
theorem C113_write_bytes (hT : T.Ok) (h : Valid m T v) {e : Nat → List Byte} (he : Holds m T v e) {k : Nat} (hk : k < v.n * T.size) (b : Byte) :
    ∃ m', set m byteTy (asBytes T v) k [b] = .ok m' ∧ Valid m' T v ∧ (∀ x, x ≠ v.addr + k → m'.byte x = m.byte x) ∧
      Holds m' T v fun i => if i = k / T.size then (e i).set (k % T.size) b else e i := by
  obtain ⟨hv, hn, _⟩ := C113_as_bytes hT h he
  refine ⟨_, set_ok byte_ok hv (by rw [hn]; exact hk) [b], ⟨h.lo, h.hi, h.bound, h.aligned⟩, fun x hx => ?_, ?_⟩
  · have e1 : (asBytes T v).addr = v.addr := rfl
    have : ¬ ((asBytes T v).addr + k * byteTy.size ≤ x ∧ x < (asBytes T v).addr + k * byteTy.size + byteTy.size) := by
      rw [e1]; simp only [byteTy]; omega
    simp only [if_neg this]
  · intro i hi
    have hv' : Valid { m with byte := fun y => if (asBytes T v).addr + k * byteTy.size ≤ y ∧ y < (asBytes T v).addr + k * byteTy.size + byteTy.size then
        ([b].getD (y - ((asBytes T v).addr + k * byteTy.size)) 0) else m.byte y } T v := ⟨h.lo, h.hi, h.bound, h.aligned⟩
    have hr := Nat.mod_lt k hT.pos
    have hd := Nat.div_add_mod k T.size
    have hl : (e i).length = T.size := (he i hi).2
    constructor
    · rw [get_ok hT hv' hi]
      congr 1
      apply List.ext_getElem
      · rw [length_bytes]; dsimp only; split <;> simp [hl]
      · intro j h1 h2
        rw [length_bytes] at h1
        have e2 := holds_eq hT h he hi
        simp only [Memory.bytes, List.getElem_map, List.getElem_range]
        by_cases hik : i = k / T.size
        · have hj : (if i = k / T.size then (e i).set (k % T.size) b else e i) = (e i).set (k % T.size) b := if_pos hik
          simp only [hj, List.getElem_set]
          have hm : i * T.size = T.size * (k / T.size) := by rw [hik, Nat.mul_comm]
          by_cases hjk : k % T.size = j
          · rw [if_pos hjk, if_pos (by show v.addr + k * 1 ≤ _ ∧ _ < v.addr + k * 1 + 1; omega)]
            have : v.addr + i * T.size + j - ((asBytes T v).addr + k * byteTy.size) = 0 := by
              show _ - (v.addr + k * 1) = 0; omega
            rw [this]; rfl
          · rw [if_neg hjk, if_neg (by show ¬ (v.addr + k * 1 ≤ _ ∧ _ < v.addr + k * 1 + 1); omega)]
            simp [e2, Memory.bytes]
        · have hj : (if i = k / T.size then (e i).set (k % T.size) b else e i) = e i := if_neg hik
          simp only [hj]
          have : ¬ ((asBytes T v).addr + k * byteTy.size ≤ v.addr + i * T.size + j ∧ v.addr + i * T.size + j < (asBytes T v).addr + k * byteTy.size + byteTy.size) := by
            show ¬ (v.addr + k * 1 ≤ _ ∧ _ < v.addr + k * 1 + 1)
            intro hc
            have hkk : k = i * T.size + j := by omega
            apply hik
            rw [hkk, Nat.mul_comm, Nat.mul_add_div hT.pos, Nat.div_eq_of_lt h1, Nat.add_zero]
          rw [if_neg this]
          simp [e2, Memory.bytes]
    · dsimp only; split <;> simp [hl]

/-- Same block, other type. -/
theorem reinterpret_core (h : Valid m T v) (hd : v.n * T.size % U.size = 0) (ha : v.addr % U.align = 0) :
    Valid m U { addr := v.addr, n := v.n * T.size / U.size } ∧ v.n * T.size / U.size * U.size = v.n * T.size := by
  have hm : v.n * T.size / U.size * U.size = v.n * T.size := Nat.div_mul_cancel (Nat.dvd_of_mod_eq_zero hd)
  exact ⟨⟨h.lo, by show v.addr + v.n * T.size / U.size * U.size ≤ m.hi; rw [hm]; exact h.hi, h.bound, ha⟩, hm⟩

/-- C113: `reinterpret_as` gives a span over the same bytes in the same order if the bytes make up whole elements of the new type; otherwise a contract fails.
Missing: nothing checks that the address suits the new type (`C113_misaligned`). -/
theorem C113_reinterpret_partial (hT : T.Ok) (hU : U.Ok) (h : Valid m T v) (tT : T.triv = true) (tU : U.triv = true) (ha : v.addr % U.align = 0)
    {e : Nat → List Byte} (he : Holds m T v e) :
    (v.n * T.size % U.size = 0 → ∃ r, reinterpretAs T U v = some (.ok r) ∧ Valid m U r ∧ ∃ f, Holds m U r f ∧ concat r.n f = concat v.n e) ∧
    (v.n * T.size % U.size ≠ 0 → reinterpretAs T U v = some (.error .assert)) := by
  have hs := valid_small h
  constructor
  · intro hd
    obtain ⟨h1, hm⟩ := reinterpret_core h hd ha
    refine ⟨_, ?_, h1, _, holds_bytes hU h1, ?_⟩
    · unfold reinterpretAs sizeBytes
      rw [Nat.mod_eq_of_lt hs]
      simp [tT, tU, hd]
    · rw [concat_congr fun i hi => holds_eq hT h he hi, concat_bytes, concat_bytes]
      exact congrArg _ hm
  · intro hd
    unfold reinterpretAs sizeBytes
    rw [Nat.mod_eq_of_lt hs]
    simp [tT, tU, hd]

/-- C113: seen as another type and back is the original span. -/
theorem C113_round_trip (hT : T.Ok) (h : Valid m T v) (tT : T.triv = true) (tU : U.triv = true) {r : View}
    (hr : reinterpretAs T U v = some (.ok r)) : reinterpretAs U T r = some (.ok v) := by
  have hs := valid_small h
  unfold reinterpretAs sizeBytes at hr ⊢
  rw [Nat.mod_eq_of_lt hs] at hr
  simp only [tT, tU, Bool.and_self, if_true, Option.some.injEq] at hr ⊢
  by_cases hd : v.n * T.size % U.size = 0
  · simp only [hd, decide_true, ccAssert_true, R.ok_bind, Except.ok.injEq] at hr
    subst hr
    dsimp only
    rw [Nat.div_mul_cancel (Nat.dvd_of_mod_eq_zero hd), Nat.mod_eq_of_lt hs, Nat.mul_mod_left, Nat.mul_div_cancel _ hT.pos]
    simp
  · simp [hd] at hr

/-- C113, the negation: if the address does not suit the new type the conversion is accepted all the same, and every access to the result is undefined. -/
theorem C113_misaligned (hU : U.Ok) (h : Valid m T v) (tT : T.triv = true) (tU : U.triv = true) (hd : v.n * T.size % U.size = 0) (ha : v.addr % U.align ≠ 0) :
    ∃ r, reinterpretAs T U v = some (.ok r) ∧ r.n = v.n * T.size / U.size ∧ ∀ i, i < r.n → get m U r i = .error .ub := by
  have hs := valid_small h
  refine ⟨{ addr := v.addr, n := v.n * T.size / U.size }, ?_, rfl, fun i hi => ?_⟩
  · unfold reinterpretAs sizeBytes
    rw [Nat.mod_eq_of_lt hs]
    simp [tT, tU, hd]
  · have : (v.addr + i * U.size) % U.align ≠ 0 := by
      rw [Nat.add_mod, Nat.mul_mod, hU.mult]; simpa using ha
    unfold get load
    have hi' : decide (i < v.n * T.size / U.size) = true := by simpa using hi
    simp [hi', this]

/-- The elements that `as_byte_span` is called with, as a span. -/
def Source.view : Source → View × Ty
  | .array a n T => ({ addr := a, n := n }, T)
  | .range a n T => ({ addr := a, n := n }, T)
  | .single a T => ({ addr := a, n := 1 }, T)

/-- C113: `as_byte_span` of an array, of a range and of a single object gives all their bytes. -/
theorem C113_as_byte_span (s : Source) (hT : s.view.2.Ok) (h : Valid m s.view.2 s.view.1) (tT : s.view.2.triv = true) {e : Nat → List Byte}
    (he : Holds m s.view.2 s.view.1 e) :
    ∃ r, asByteSpan s = some (.ok r) ∧ r.addr = s.view.1.addr ∧ Valid m byteTy r ∧ ∃ f, Holds m byteTy r f ∧ concat r.n f = concat s.view.1.n e := by
  have hs := valid_small h
  have key : ∃ r, asByteSpan s = some (.ok r) ∧ r.addr = s.view.1.addr ∧ r.n = s.view.1.n * s.view.2.size := by
    cases s with
    | array a n T =>
      have hs : n * T.size < 2 ^ 64 := hs
      have tT : T.triv = true := tT
      refine ⟨⟨a, n * T.size⟩, ?_, rfl, rfl⟩
      simp [asByteSpan, reinterpretAs, sizeBytes, byteTy, tT, Nat.mod_one, Nat.mod_eq_of_lt hs]
    | range a n T =>
      have hs : n * T.size < 2 ^ 64 := hs
      have tT : T.triv = true := tT
      refine ⟨⟨a, n * T.size⟩, ?_, rfl, rfl⟩
      simp [asByteSpan, tT, Nat.mul_comm T.size, Nat.mod_eq_of_lt hs]
    | single a T =>
      have tT : T.triv = true := tT
      refine ⟨⟨a, T.size⟩, ?_, rfl, ?_⟩
      · simp [asByteSpan, tT]
      · simp [Source.view]
  obtain ⟨r, h1, h2, h3⟩ := key
  have hv : Valid m byteTy r := by
    refine ⟨by rw [h2]; exact h.lo, ?_, h.bound, by simp [byteTy, Nat.mod_one]⟩
    rw [h2, h3]; simpa [byteTy] using h.hi
  refine ⟨r, h1, h2, hv, _, holds_bytes byte_ok hv, ?_⟩
  rw [concat_congr fun i hi => holds_eq hT h he hi, concat_bytes, concat_bytes, h2, h3]
  simp [byteTy]

/-- C113: a part of the bytes: bytes `offset` to `offset + count`, or a contract fails. -/
theorem C113_as_byte_span_part (s : Source) {r : View} (hr : asByteSpan s = some (.ok r)) (hv : Valid m byteTy r) {f : Nat → List Byte} (hf : Holds m byteTy r f)
    {offset count : Nat} (hw : offset + count < 2 ^ 64) :
    (offset + count ≤ r.n → ∃ p, asByteSpanSub s offset count = some (.ok p) ∧ p.n = count ∧ Holds m byteTy p fun i => f (offset + i)) ∧
    (r.n < offset + count → asByteSpanSub s offset count = some (.error .assert)) := by
  constructor
  · intro hc
    refine ⟨{ addr := r.addr + offset, n := count }, ?_, rfl, ?_⟩
    · have h1 : offset ≤ r.n := by omega
      simp [asByteSpanSub, hr, h1, Nat.mod_eq_of_lt hw, hc]
    · intro i hi
      have hi : i < count := hi
      have hp : Valid m byteTy { addr := r.addr + offset, n := count } := by
        have := hv.lo; have := hv.hi
        simp only [byteTy] at *
        exact ⟨by show m.lo ≤ r.addr + offset; omega, by show r.addr + offset + count * 1 ≤ m.hi; omega, hv.bound, Nat.mod_one _⟩
      have e1 := holds_eq byte_ok hv hf (i := offset + i) (by omega)
      refine ⟨?_, (hf _ (by omega)).2⟩
      rw [get_ok byte_ok hp hi]
      refine congrArg Except.ok (Eq.trans ?_ e1.symm)
      simp only [byteTy]
      congr 1; omega
  · intro hc
    have h1 : ¬ (offset ≤ r.n ∧ offset + count ≤ r.n) := by omega
    simp only [asByteSpanSub, hr, Option.map_some, Nat.mod_eq_of_lt hw, R.ok_bind]
    simp [h1]

/-- C113: `from_byte_span` of exactly `sizeof(T)` bytes refers to the object they make up; with any other number of bytes the assertion fails.
Missing: nothing checks that the address suits the type (`C113_from_bytes_misaligned`). -/
theorem C113_from_bytes_partial (tT : T.triv = true) (h : Valid m byteTy v) (ha : v.addr % T.align = 0) {f : Nat → List Byte} (hf : Holds m byteTy v f) :
    (v.n = T.size → ∃ a, fromByteSpan T v = some (.ok a) ∧ load m T a = .ok (concat v.n f)) ∧
    (v.n ≠ T.size → fromByteSpan T v = some (.error .assert)) := by
  constructor
  · intro hn
    refine ⟨v.addr, by simp [fromByteSpan, tT, hn], ?_⟩
    have h1 := h.lo
    have h2 := h.hi
    simp only [byteTy, Nat.mul_one] at h2
    unfold load
    rw [if_pos ⟨ha, h1, by rw [← hn]; exact h2⟩]
    have := concat_bytes m v.addr 1 v.n
    rw [concat_congr fun i hi => holds_eq byte_ok h hf hi]
    simp only [byteTy]
    rw [this, hn]; simp
  · intro hn
    simp [fromByteSpan, tT, hn]

/-- C113, the negation: bytes at an address that does not suit the type are accepted, and reading the object is undefined. -/
theorem C113_from_bytes_misaligned (tT : T.triv = true) (hn : v.n = T.size) (ha : v.addr % T.align ≠ 0) :
    ∃ a, fromByteSpan T v = some (.ok a) ∧ load m T a = .error .ub :=
  ⟨v.addr, by simp [fromByteSpan, tT, hn], by simp [load, ha]⟩

theorem pow_dvd (hT : T.Pow) (hU : U.Pow) (h : U.align ≤ T.align) : U.align ∣ T.align := by
  obtain ⟨a, ha⟩ := hT
  obtain ⟨b, hb⟩ := hU
  rw [ha, hb] at h ⊢
  exact Nat.pow_dvd_pow 2 ((Nat.pow_le_pow_iff_right (by decide)).1 h)

/-- C113: `reinterpret_as` of a vector gives a vector that owns the same block and whose elements have the same bytes, in order; the old vector is empty.
It is rejected unless both types are trivially copyable and the new one needs no stronger alignment and fits evenly into the old one. -/
theorem C113_vector (hT : T.Ok) (hU : U.Ok) (pT : T.Pow) (pU : U.Pow) {v : Vec} (h : VecOk m T v) {e : Nat → List Byte} (he : Holds m T v.view e) {r : Vec × Vec}
    (hr : vecReinterpret T U v = some r) : VecOk m U r.1 ∧ r.2 = { data := 0, size := 0, cap := 0 } ∧ r.1.size * U.size = v.size * T.size ∧
    ∃ f, Holds m U r.1.view f ∧ concat r.1.size f = concat v.size e := by
  unfold vecReinterpret at hr
  split at hr
  · rename_i hc
    simp only [Bool.and_eq_true, decide_eq_true_eq] at hc
    obtain ⟨⟨⟨tT, tU⟩, hal⟩, hdv⟩ := hc
    simp only [Option.some.injEq] at hr
    have hq : T.size / U.size * U.size = T.size := Nat.div_mul_cancel (Nat.dvd_of_mod_eq_zero hdv)
    have hmul : ∀ n, n * (T.size / U.size) * U.size = n * T.size := fun n => by rw [Nat.mul_assoc, hq]
    have hle : ∀ n, n * (T.size / U.size) ≤ n * T.size := fun n => by
      rw [← hmul n]; exact Nat.le_mul_of_pos_right _ hU.pos
    have hb := h.bound
    have hhi := h.hi
    have hcs : v.size * T.size ≤ v.cap * T.size := Nat.mul_le_mul_right _ h.cap
    have s1 : v.cap * (T.size / U.size) < 2 ^ 64 := by have := hle v.cap; omega
    have s2 : v.size * (T.size / U.size) < 2 ^ 64 := by have := hle v.size; omega
    rw [Nat.mod_eq_of_lt s1, Nat.mod_eq_of_lt s2] at hr
    subst hr
    dsimp only
    have hau : v.data % U.align = 0 := by
      apply Nat.mod_eq_zero_of_dvd
      exact Nat.dvd_trans (pow_dvd pT pU hal) (Nat.dvd_of_mod_eq_zero h.aligned)
    have hvT : Valid m T v.view := ⟨by show m.lo ≤ v.data; rw [h.lo]; exact Nat.le_refl _, by show v.data + v.size * T.size ≤ m.hi; omega, hb, h.aligned⟩
    have hvU : Valid m U { addr := v.data, n := v.size * (T.size / U.size) } :=
      ⟨by show m.lo ≤ v.data; rw [h.lo]; exact Nat.le_refl _, by show v.data + v.size * (T.size / U.size) * U.size ≤ m.hi; rw [hmul]; omega, hb, hau⟩
    refine ⟨⟨Nat.mul_le_mul_right _ h.cap, h.lo, by show v.data + v.cap * (T.size / U.size) * U.size = m.hi; rw [hmul]; exact hhi, hb, hau⟩, rfl, hmul _, _,
      holds_bytes hU hvU, ?_⟩
    rw [concat_congr (n := v.size) fun i hi => holds_eq hT hvT he hi]
    have c1 := concat_bytes m v.data U.size (v.size * (T.size / U.size))
    have c2 := concat_bytes m v.data T.size v.size
    rw [hmul] at c1
    exact c1.trans c2.symm
  · cases hr

/-- C113: which conversions of vectors are accepted. -/
theorem C113_vector_accepted (v : Vec) : (vecReinterpret T U v).isSome = true ↔ T.triv = true ∧ U.triv = true ∧ U.align ≤ T.align ∧ T.size % U.size = 0 := by
  unfold vecReinterpret
  split
  · rename_i hc; simp only [Bool.and_eq_true, decide_eq_true_eq] at hc; simp [hc]
  · rename_i hc; simp only [Bool.and_eq_true, decide_eq_true_eq] at hc; simp; intro a b c d; exact hc ⟨⟨⟨a, b⟩, c⟩, d⟩

theorem memcpy_length (src : List Byte) : ∀ n dst, (memcpyLoop src n dst).length = dst.length
  | 0, _ => rfl
  | n + 1, dst => by unfold memcpyLoop; rw [memcpy_length src n]; simp

theorem memcpy_get (src : List Byte) : ∀ n dst i, (memcpyLoop src n dst)[i]? = if i < n ∧ i < dst.length then some (src.getD i 0) else dst[i]?
  | 0, _, _ => by simp [memcpyLoop]
  | n + 1, dst, i => by
    unfold memcpyLoop
    rw [memcpy_get src n, List.length_set, List.getElem?_set]
    by_cases h1 : i < n ∧ i < dst.length
    · rw [if_pos h1, if_pos ⟨by omega, h1.2⟩]
    · rw [if_neg h1]
      by_cases h2 : n = i
      · subst h2
        by_cases h3 : n < dst.length
        · simp [h3]
        · simp [h3]
      · rw [if_neg h2, if_neg (by omega)]

/-- C113: `bit_cast` gives the value with the same bytes, whatever the uninitialised result held. -/
theorem C113_bit_cast {To From : Ty} {junk src : List Byte} (h1 : src.length = From.size) (h2 : junk.length = To.size) {r : List Byte}
    (hr : bitCast To From junk src = some r) : r = src := by
  unfold bitCast at hr
  split at hr
  · rename_i hc
    simp only [Bool.and_eq_true, decide_eq_true_eq] at hc
    simp only [Option.some.injEq] at hr
    subst hr
    apply List.ext_getElem?
    intro i
    rw [memcpy_get]
    by_cases hi : i < To.size
    · have hs : i < src.length := by omega
      rw [if_pos ⟨hi, by omega⟩]
      simp [hs]
    · rw [if_neg (by omega), List.getElem?_eq_none (by omega), List.getElem?_eq_none (by omega)]
  · cases hr

/-! ### concrete cases -/

/-- `uint32_t`. -/
def u32 : Ty := { size := 4, align := 4, triv := true }

/-- Three floats. -/
def pos3 : Ty := { size := 12, align := 4, triv := true }

/-- A block of 48 bytes with its offsets as content. -/
def block : Memory := { byte := fun a => BitVec.ofNat 8 (a - 64), lo := 64, hi := 112 }

theorem u32_ok : u32.Ok := ⟨by decide, by decide, by decide⟩
theorem pos3_ok : pos3.Ok := ⟨by decide, by decide, by decide⟩

theorem block_valid : Valid block pos3 ⟨64, 4⟩ := ⟨by decide, by decide, by decide, by decide⟩

example : Valid block pos3 ⟨64, 4⟩ ∧ ∃ e, Holds block pos3 ⟨64, 4⟩ e := ⟨block_valid, _, holds_bytes pos3_ok block_valid⟩

example : get block u32 ⟨64, 12⟩ 2 = .ok [8, 9, 10, 11] := by decide +kernel

example : reinterpretAs pos3 u32 ⟨64, 4⟩ = some (.ok ⟨64, 12⟩) := by decide +kernel

example : reinterpretAs u32 pos3 ⟨64, 4⟩ = some (.error .assert) := by decide +kernel

/-- The bytes from an odd address on as a number. -/
example : Valid block byteTy ⟨65, 8⟩ ∧ reinterpretAs byteTy u32 ⟨65, 8⟩ = some (.ok ⟨65, 2⟩) ∧ get block u32 ⟨65, 2⟩ 0 = .error .ub :=
  ⟨⟨by decide, by decide, by decide, by decide⟩, by decide +kernel, by decide +kernel⟩

example : (fromByteSpan u32 ⟨68, 4⟩ = some (.ok 68)) ∧ load block u32 68 = .ok [4, 5, 6, 7] ∧ (fromByteSpan u32 ⟨70, 4⟩ = some (.ok 70)) ∧
    load block u32 70 = .error .ub := by decide +kernel

example : VecOk block pos3 ⟨64, 2, 4⟩ ∧ vecReinterpret pos3 u32 ⟨64, 2, 4⟩ = some (⟨64, 6, 12⟩, ⟨0, 0, 0⟩) :=
  ⟨⟨by decide, by decide, by decide, by decide, by decide⟩, by decide +kernel⟩

example : u32.Pow ∧ pos3.Pow := ⟨⟨2, rfl⟩, ⟨2, rfl⟩⟩

example : asByteSpanSub (.single 64 u32) 1 2 = some (.ok ⟨65, 2⟩) := by decide +kernel

example : bitCast u32 u32 [0, 0, 0, 0] [1, 2, 3, 4] = some [1, 2, 3, 4] := by decide +kernel

end Verif.Reint
