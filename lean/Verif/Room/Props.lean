import Verif.Room.Lemmas

/-! C123: a container of `n` elements has memory for `n` elements, or is not made. -/
namespace Verif.Room
open Spec

def u64 : Elem := { size := 8, trivial := true, realloc := true }
def obj : Elem := { size := 24, trivial := false, realloc := false }

/-- C123 in full: whatever the size, and whatever the C library grants, making a container and using an element is never undefined. -/
def NeverUndefined : Prop := ∀ k g T how n i, 0 < T.size → n < 2 ^ 64 → makeAndUse k g T how n i ≠ .error .ub

theorem use_gen {k : Kind} {g : Lib} {T : Elem} {how : How} {n : Nat} {a : M Ptr} {f : Ptr → M Unit} (h : make k g T how n = gen a f n) (i : Nat) :
    makeAndUse k g T how n i = genUse a f T n i := by
  unfold makeAndUse genUse
  rw [h]

theorem filled_bad (g : Lib) (ch : Bool) (T : Elem) {n : Nat} (hs : 0 < T.size) :
    (∃ i, (vector g ch T .filled n >>= fun c => at' T c i) = .error .ub) ↔
      n ≤ 2 ^ 48 ∧ ∃ i, genUse (vecAlloc g ch T n) (fun p => construct p T.size 0 n) T n i = .error .ub := by
  by_cases h48 : n ≤ 2 ^ 48
  · rcases Nat.eq_zero_or_pos n with h0 | h0
    · subst h0
      constructor
      · rintro ⟨i, hi⟩
        rw [filled_zero, ok_bind, use_out (by simp)] at hi
        cases hi
      · rintro ⟨-, i, hi⟩
        exfalso
        have hm : ¬ TooMany T 0 := fun h => absurd (tooMany_pos h) (by decide)
        cases ch with
        | true => rw [vecAlloc_true] at hi; exact hm ((gen_alloc (fill_construct T 0) hs).1 ⟨i, hi⟩).1
        | false => rw [vecAlloc_false] at hi; exact absurd ((gen_malloc (fill_construct T 0)).1 ⟨i, hi⟩).1 (by decide)
    · rw [filled_eq g ch T h0 h48]
      rcases filled_alloc g ch T n with e | ⟨hz, e⟩
      · rw [e]
        exact ⟨fun h => ⟨h48, h⟩, fun h => h.2⟩
      · rw [e]
        have hm := zero_tooMany hs h0 hz
        refine ⟨fun _ => ⟨h48, ?_⟩, fun _ => ⟨n - 1, gen_null (fill_construct T n) h0⟩⟩
        cases ch with
        | true => exact (gen_alloc (fill_construct T n) hs).2 ⟨hm, Or.inr hz⟩
        | false => exact (gen_malloc (fill_construct T n)).2 ⟨h0, Or.inl hm⟩
  · rw [filled_many g ch T h48]
    exact ⟨fun ⟨_, hi⟩ => (by cases hi), fun h => absurd h.1 h48⟩

/-- C123. Exactly when something undefined happens, for each container. -/
theorem C123_exact_partial (k : Kind) (g : Lib) (T : Elem) (how : How) (n : Nat) (hs : 0 < T.size) : (∃ i, makeAndUse k g T how n i = .error .ub) ↔ Bad k g T how n := by
  cases k with
  | array =>
    obtain ⟨f, hf, e⟩ := array_gen g T how n
    simp only [use_gen (k := .array) e]
    exact gen_alloc hf hs
  | allocArray =>
    obtain ⟨f, hf, e⟩ := allocArray_gen g T how n
    simp only [use_gen (k := .allocArray) e]
    exact gen_alloc hf hs
  | vector =>
    cases how with
    | defaulted =>
      have e : make .vector g T .defaulted n = gen (vecAlloc g false T n) (fun p => defaultConstruct p T n) n := rfl
      simp only [use_gen e, vecAlloc_false]
      exact (gen_malloc (fill_default T n)).trans ⟨fun h => ⟨h.1, (by intro x; cases x), h.2⟩, fun h => ⟨h.1, h.2.2⟩⟩
    | uninitialized =>
      have e : make .vector g T .uninitialized n = gen (vecAlloc g false T n) (fun _ => .ok ()) n := rfl
      simp only [use_gen e, vecAlloc_false]
      exact (gen_malloc (fill_nothing T n)).trans ⟨fun h => ⟨h.1, (by intro x; cases x), h.2⟩, fun h => ⟨h.1, h.2.2⟩⟩
    | filled =>
      refine (filled_bad g false T hs).trans ?_
      rw [vecAlloc_false, gen_malloc (fill_construct T n)]
      exact ⟨fun h => ⟨h.2.1, fun _ => h.1, h.2.2⟩, fun h => ⟨h.2.1 rfl, h.1, h.2.2⟩⟩
  | allocVector =>
    cases how with
    | defaulted =>
      have e : make .allocVector g T .defaulted n = gen (vecAlloc g true T n) (fun p => defaultConstruct p T n) n := rfl
      simp only [use_gen e, vecAlloc_true]
      exact (gen_alloc (fill_default T n) hs).trans ⟨fun h => ⟨(by intro x; cases x), h⟩, fun h => h.2⟩
    | uninitialized =>
      have e : make .allocVector g T .uninitialized n = gen (vecAlloc g true T n) (fun _ => .ok ()) n := rfl
      simp only [use_gen e, vecAlloc_true]
      exact (gen_alloc (fill_nothing T n) hs).trans ⟨fun h => ⟨(by intro x; cases x), h⟩, fun h => h.2⟩
    | filled =>
      refine (filled_bad g true T hs).trans ?_
      rw [vecAlloc_true, gen_alloc (fill_construct T n) hs]
      exact ⟨fun h => ⟨fun _ => h.1, h.2⟩, fun h => ⟨h.1 rfl, h.2⟩⟩
  | fwdArray =>
    refine ⟨fun ⟨i, hi⟩ => ?_, fun h => h.elim⟩
    rw [use_gen (k := .fwdArray) (fwd_eq g T n)] at hi
    unfold cxxNewArray at hi
    by_cases h : n * T.size < 2 ^ 64
    · rw [if_pos h] at hi
      cases hg : g (n * T.size) with
      | true => rw [new_ok hg] at hi; exact absurd hi (genUse_fits (fill_construct T n) (Nat.le_refl _) i)
      | false => rw [new_fail hg] at hi; cases hi
    · rw [if_neg h] at hi; cases hi
  | chunk =>
    rcases Nat.eq_zero_or_pos n with h0 | h0
    · subst h0
      exact ⟨fun ⟨_, hi⟩ => (by cases hi), fun h => absurd (tooMany_pos h.1) (by decide)⟩
    · simp only [use_gen (k := .chunk) (chunk_eq g T h0)]
      cases hg : g (asked T n) with
      | true =>
        rw [new_ok hg]
        by_cases hm : TooMany T n
        · exact ⟨fun _ => ⟨hm, hg⟩, fun _ => ⟨n - 1, gen_small (fill_construct T n) (asked_small hm)⟩⟩
        · exact ⟨fun ⟨i, hi⟩ => absurd hi (genUse_fits (fill_construct T n) (by rw [asked_eq hm]; omega) i), fun h => absurd h.1 hm⟩
      | false =>
        rw [new_fail hg]
        refine ⟨fun ⟨_, hi⟩ => (by cases hi), fun h => ?_⟩
        rw [Bad] at h
        rw [hg] at h
        exact absurd h.2 (by decide)

example : ¬ Bad .array (fun b => b ≤ 1000) u64 .defaulted 100 ∧ Bad .vector (fun b => b ≤ 1000) u64 .defaulted 200 := by
  refine ⟨fun h => absurd h.1 (by unfold TooMany; decide), by decide, (fun h => by cases h), Or.inr (by decide)⟩

/-- C123. What is asked for fits into a `size_t` and is granted: the container is made, and all its elements are there. -/
theorem C123_fits (k : Kind) (g : Lib) (T : Elem) (how : How) (n : Nat) (hs : 0 < T.size) (h0 : 0 < n) (hm : ¬ TooMany T n) (hg : g (n * T.size) = true) (h48 : n ≤ 2 ^ 48) :
    ∃ c, make k g T how n = .ok c ∧ c.size = n ∧ c.data = some (n * T.size) ∧ ∀ i, at' T c i = if i < n then .ok () else .error .assert := by
  have ha := asked_eq hm
  have key : ∀ f, Fill T n f → ∃ c, gen (.ok (some (n * T.size))) f n = .ok c ∧ c.size = n ∧ c.data = some (n * T.size) ∧ ∀ i, at' T c i = if i < n then .ok () else .error .assert := by
    intro f hf
    refine ⟨_, gen_fits hf (Nat.le_refl _), rfl, rfl, fun i => ?_⟩
    by_cases hi : i < n
    · rw [if_pos hi]; exact use_ok rfl rfl hi (Nat.le_refl _)
    · rw [if_neg hi]; exact use_out hi
  have hal : allocatorAlloc g (asked T n) = .ok (some (n * T.size)) := by rw [ha]; exact alloc_ok hg
  have hva : ∀ ch, vecAlloc g ch T n = .ok (some (n * T.size)) := by
    intro ch
    cases ch with
    | true => rw [vecAlloc_true]; exact hal
    | false => rw [vecAlloc_false, ha, malloc_ok hg]
  have hvec : ∀ ch, ∃ f, Fill T n f ∧ vector g ch T how n = gen (.ok (some (n * T.size))) f n := by
    intro ch
    cases how with
    | defaulted => exact ⟨_, fill_default T n, by rw [← hva ch]; rfl⟩
    | uninitialized => exact ⟨_, fill_nothing T n, by rw [← hva ch]; rfl⟩
    | filled =>
      refine ⟨_, fill_construct T n, ?_⟩
      rw [filled_eq g ch T h0 h48]
      rcases filled_alloc g ch T n with e | ⟨hz, e⟩
      · rw [e, hva]
      · exact absurd (zero_tooMany hs h0 hz) hm
  cases k with
  | array => obtain ⟨f, hf, e⟩ := array_gen g T how n; show ∃ c, array g T how n = _ ∧ _; rw [e, hal]; exact key f hf
  | allocArray => obtain ⟨f, hf, e⟩ := allocArray_gen g T how n; show ∃ c, allocArray g T how n = _ ∧ _; rw [e, hal]; exact key f hf
  | vector => obtain ⟨f, hf, e⟩ := hvec false; show ∃ c, vector g false T how n = _ ∧ _; rw [e]; exact key f hf
  | allocVector => obtain ⟨f, hf, e⟩ := hvec true; show ∃ c, vector g true T how n = _ ∧ _; rw [e]; exact key f hf
  | fwdArray =>
    show ∃ c, fwdArray g T n = _ ∧ _
    rw [fwd_eq]
    unfold cxxNewArray
    rw [if_pos (by unfold TooMany at hm; omega), new_ok hg]
    exact key _ (fill_construct T n)
  | chunk =>
    show ∃ c, chunk g T n = _ ∧ _
    rw [chunk_eq g T h0, ha, new_ok hg]
    exact key _ (fill_construct T n)

example : ∃ c, make .vector (fun b => b ≤ 1000) u64 .filled 100 = .ok c ∧ c.size = 100 ∧ c.data = some 800 := ⟨{ size := 100, cap := 100, data := some 800 }, by decide +kernel, rfl, rfl⟩

/-- C123. What is asked for fits into a `size_t` and is refused: the containers stop in a defined way, except `vector`, which goes on with a null pointer. -/
theorem C123_refused (g : Lib) (T : Elem) (how : How) (n : Nat) (hs : 0 < T.size) (h0 : 0 < n) (hm : ¬ TooMany T n) (hg : g (n * T.size) = false) :
    make .array g T how n = .error .assert ∧ make .allocArray g T how n = .error .assert ∧ make .allocVector g T how n = .error .assert ∧
    make .fwdArray g T how n = .error .throws ∧ make .chunk g T how n = .error .throws ∧
    ((how = .filled → n ≤ 2 ^ 48) → makeAndUse .vector g T how n 0 = .error .ub) := by
  have ha := asked_eq hm
  have hpos := Nat.mul_pos h0 hs
  have hal : allocatorAlloc g (asked T n) = .error .assert := by rw [ha]; exact alloc_fail hg (by omega)
  refine ⟨?_, ?_, ?_, ?_, ?_, ?_⟩
  · obtain ⟨f, _, e⟩ := array_gen g T how n
    show array g T how n = _
    rw [e, hal]; rfl
  · obtain ⟨f, _, e⟩ := allocArray_gen g T how n
    show allocArray g T how n = _
    rw [e, hal]; rfl
  · show vector g true T how n = _
    cases how with
    | defaulted => unfold vector; rw [vecAlloc_true, hal]; rfl
    | uninitialized => unfold vector; rw [vecAlloc_true, hal]; rfl
    | filled =>
      by_cases h48 : n ≤ 2 ^ 48
      · rw [filled_eq g true T h0 h48]
        rcases filled_alloc g true T n with e | ⟨hz, _⟩
        · rw [e, vecAlloc_true, hal]; rfl
        · exact absurd (zero_tooMany hs h0 hz) hm
      · exact filled_many g true T h48
  · show fwdArray g T n = _
    rw [fwd_eq]
    unfold cxxNewArray
    rw [if_pos (by unfold TooMany at hm; omega), new_fail hg]; rfl
  · show chunk g T n = _
    rw [chunk_eq g T h0, ha, new_fail hg]; rfl
  · intro h48
    have hnull : ∀ f, Fill T n f → genUse (.ok none) f T n 0 = .error .ub := by
      intro f hf
      unfold genUse gen
      rcases hf.null with e | ⟨e, _⟩
      · rw [ok_bind, e, ok_bind, ok_bind]
        unfold at'
        rw [if_pos h0]; rfl
      · rw [ok_bind, e, err_bind, err_bind]
    have hva : vecAlloc g false T n = .ok none := by rw [vecAlloc_false, ha, malloc_fail hg]
    cases how with
    | defaulted =>
      have e : make .vector g T .defaulted n = gen (vecAlloc g false T n) (fun p => defaultConstruct p T n) n := rfl
      rw [use_gen e, hva]; exact hnull _ (fill_default T n)
    | uninitialized =>
      have e : make .vector g T .uninitialized n = gen (vecAlloc g false T n) (fun _ => .ok ()) n := rfl
      rw [use_gen e, hva]; exact hnull _ (fill_nothing T n)
    | filled =>
      rw [use_gen (k := .vector) (how := .filled) (filled_eq g false T h0 (h48 rfl))]
      rcases filled_alloc g false T n with e | ⟨_, e⟩
      · rw [e, hva]; exact hnull _ (fill_construct T n)
      · rw [e]; exact hnull _ (fill_construct T n)

example : make .array (fun b => b ≤ 1000) u64 .defaulted 200 = .error .assert ∧ makeAndUse .vector (fun b => b ≤ 1000) u64 .uninitialized 200 7 = .error .ub := by decide +kernel

/-- C123. `array<uint64_t>(1 << 61)` asks for no memory at all, is made, and has 2^61 elements, none of which exists. -/
theorem C123_no_memory (g : Lib) (i : Nat) (hi : i < 2 ^ 61) : (∃ c, make .array g u64 .defaulted (2 ^ 61) = .ok c ∧ c.size = 2 ^ 61) ∧ makeAndUse .array g u64 .defaulted (2 ^ 61) i = .error .ub := by
  have e : make .array g u64 .defaulted (2 ^ 61) = gen (allocatorAlloc g 0) (fun p => fillBytes p 0) (2 ^ 61) := rfl
  cases hg : g 0 with
  | true =>
    have e : make .array g u64 .defaulted (2 ^ 61) = .ok { size := 2 ^ 61, cap := 2 ^ 61, data := some 0 } := by rw [e, alloc_ok hg]; rfl
    refine ⟨⟨_, e, rfl⟩, ?_⟩
    unfold makeAndUse
    rw [e, ok_bind]
    unfold at'
    rw [if_pos hi]
    exact elem_ub (by show 0 < (i + 1) * 8; omega)
  | false =>
    have e : make .array g u64 .defaulted (2 ^ 61) = .ok { size := 2 ^ 61, cap := 2 ^ 61, data := none } := by rw [e, alloc_zero hg]; rfl
    refine ⟨⟨_, e, rfl⟩, ?_⟩
    unfold makeAndUse
    rw [e, ok_bind]
    unfold at'
    rw [if_pos hi]
    rfl

/-- C123. The property in full does not hold. -/
theorem C123_full_fails : ¬ NeverUndefined := fun h => h .array (fun _ => true) u64 .defaulted (2 ^ 61) 0 (by decide) (by decide) (C123_no_memory _ 0 (by decide)).2

/-- C123. The limit in `reserve` keeps filled vectors of elements of less than 64 KiB from asking for too little; `vector(size)` has no limit. -/
theorem C123_limit (ch : Bool) (g : Lib) (T : Elem) (n : Nat) (hs : T.size < 2 ^ 16) : (2 ^ 48 < n → vector g ch T .filled n = .error .assert) ∧ (n ≤ 2 ^ 48 → ¬ TooMany T n) := by
  refine ⟨fun h => filled_many g ch T (by omega), fun h => ?_⟩
  have : n * T.size ≤ 2 ^ 48 * (2 ^ 16 - 1) := Nat.mul_le_mul h (by omega)
  unfold TooMany
  omega

example : vector (fun _ => true) false u64 .filled (2 ^ 61) = .error .assert := (C123_limit false _ u64 _ (by decide)).1 (by decide)

/-- C123. `emplace_back` into a vector without room left. It succeeds if the memory for twice the elements is granted, and fits into a `size_t`. -/
theorem C123_push (ch : Bool) (g : Lib) (T : Elem) (n : Nat) (hs : 0 < T.size) (hm : ¬ TooMany T (next n)) (hg : g (next n * T.size) = true) :
    ∃ c, push g ch T (full T n) = .ok c ∧ c.size = n + 1 ∧ c.cap = next n ∧ c.data = some (next n * T.size) ∧ ∀ i, i ≤ n → at' T c i = .ok () := by
  have ha := asked_eq hm
  have hn : n + 1 ≤ next n := by unfold next; split <;> omega
  have hle : (n + 1) * T.size ≤ next n * T.size := Nat.mul_le_mul_right _ hn
  have hlt : next n * T.size < 2 ^ 64 := by unfold TooMany at hm; omega
  have hn64 : next n < 2 ^ 64 := Nat.lt_of_le_of_lt (Nat.le_mul_of_pos_right _ hs) hlt
  have hcap : (if n = 0 then 1 else mul n 2) = next n := by
    unfold next
    unfold next at hn64
    by_cases h : n = 0
    · rw [if_pos h, if_pos h]
    · rw [if_neg h, if_neg h]
      rw [if_neg h] at hn64
      unfold mul
      omega
  have hpos : 0 < next n * T.size := Nat.mul_pos (by omega) hs
  have hva : vecAlloc g ch T (next n) = .ok (some (next n * T.size)) := by
    cases ch with
    | true => rw [vecAlloc_true, ha]; exact alloc_ok hg
    | false => rw [vecAlloc_false, ha, malloc_ok hg]
  have hvr : vecRealloc g ch T (full T n).data (next n) = .ok (some (next n * T.size)) := by
    have e : systemRealloc g (full T n).data (mul (next n) T.size) = .ok (some (next n * T.size)) := by
      unfold systemRealloc
      rw [mul_asked, ha, if_pos hpos, malloc_ok hg]
      cases (full T n).data with
      | none => rfl
      | some o =>
        dsimp only
        rw [fill_ok (Nat.min_le_right _ _), ok_bind]
    cases ch with
    | false => exact e
    | true =>
      show allocatorRealloc g (full T n).data (mul (next n) T.size) = _
      unfold allocatorRealloc
      rw [e, ok_bind]
      exact if_pos (Or.inl (by simp))
  have use : ∀ c : Cont, c.size = n + 1 → c.data = some (next n * T.size) → ∀ i, i ≤ n → at' T c i = .ok () := by
    intro c h1 h2 i hi
    exact use_ok h1 h2 (by omega) hle
  rw [push_full g ch T hcap]
  by_cases hr : T.realloc = true ∧ T.size ≤ 512
  · rw [if_pos hr, hvr, ok_bind]
    refine ⟨{ size := n + 1, cap := next n, data := some (next n * T.size) }, ?_, rfl, rfl, rfl, use _ rfl rfl⟩
    show (elem (some (next n * T.size)) T.size n >>= _) = _
    rw [elem_ok hle (by omega), ok_bind]
  · rw [if_neg hr, hva, ok_bind]
    refine ⟨{ size := n + 1, cap := next n, data := some (next n * T.size) }, ?_, rfl, rfl, rfl, use _ rfl rfl⟩
    show (elem (some (next n * T.size)) T.size n >>= fun _ => construct (some (next n * T.size)) T.size 0 n >>= _) = _
    rw [elem_ok hle (by omega), ok_bind, construct_ok hle n 0 (by omega), ok_bind]

example : push (fun b => b ≤ 1000) false obj (full obj 4) = .ok { size := 5, cap := 8, data := some 192 } := by decide +kernel
example : push (fun b => b ≤ 1000) true u64 (full u64 0) = .ok { size := 1, cap := 1, data := some 8 } := by decide +kernel

/-- C123. If the memory is refused, `emplace_back` of `vector` is undefined; that of `alloc_vector` stops with an assertion, but only for elements which it does not move with
`realloc`: the system allocator copies the old elements to the null pointer before it looks at it. -/
theorem C123_push_refused (g : Lib) (T : Elem) (n : Nat) (hs : 0 < T.size) (hm : ¬ TooMany T (next n)) (hg : g (next n * T.size) = false) :
    push g false T (full T n) = .error .ub ∧
    push g true T (full T n) = if T.realloc ∧ T.size ≤ 512 ∧ 0 < n then .error .ub else .error .assert := by
  have ha := asked_eq hm
  have hn : n + 1 ≤ next n := by unfold next; split <;> omega
  have hlt : next n * T.size < 2 ^ 64 := by unfold TooMany at hm; omega
  have hn64 : next n < 2 ^ 64 := Nat.lt_of_le_of_lt (Nat.le_mul_of_pos_right _ hs) hlt
  have hcap : (if n = 0 then 1 else mul n 2) = next n := by
    unfold next
    unfold next at hn64
    by_cases h : n = 0
    · rw [if_pos h, if_pos h]
    · rw [if_neg h, if_neg h]
      rw [if_neg h] at hn64
      unfold mul
      omega
  have hpos : 0 < next n * T.size := Nat.mul_pos (by omega) hs
  have hsys : systemRealloc g (full T n).data (next n * T.size) = if 0 < n then .error .ub else .ok none := by
    unfold systemRealloc
    rw [if_pos hpos, malloc_fail hg]
    show (match (if n = 0 then none else some (n * T.size)) with | none => _ | some o => _) = _
    by_cases h : n = 0
    · rw [if_pos h, if_neg (by omega)]
    · rw [if_neg h, if_pos (by omega)]
      have := Nat.mul_pos (Nat.pos_of_ne_zero h) hs
      dsimp only
      rw [fill_null (by omega), err_bind]
  constructor
  · rw [push_full g _ T hcap]
    by_cases hr : T.realloc = true ∧ T.size ≤ 512
    · rw [if_pos hr]
      show (systemRealloc g (full T n).data (mul (next n) T.size) >>= _) = _
      rw [mul_asked, ha, hsys]
      by_cases h : 0 < n
      · rw [if_pos h]; rfl
      · rw [if_neg h]; rfl
    · rw [if_neg hr, vecAlloc_false, ha, malloc_fail hg]; rfl
  · rw [push_full g _ T hcap]
    by_cases hr : T.realloc = true ∧ T.size ≤ 512
    · rw [if_pos hr]
      show ((systemRealloc g (full T n).data (mul (next n) T.size) >>= _) >>= _) = _
      rw [mul_asked, ha, hsys]
      by_cases h : 0 < n
      · rw [if_pos h, if_pos ⟨hr.1, hr.2, h⟩]; rfl
      · rw [if_neg h, if_neg (fun x => h x.2.2), ok_bind]
        rw [if_neg (by intro x; rcases x with x | x; exact x rfl; omega)]; rfl
    · rw [if_neg hr, if_neg (fun x => hr ⟨x.1, x.2.1⟩), vecAlloc_true, ha, alloc_fail hg (by omega)]; rfl

example : push (fun b => b ≤ 1000) true u64 (full u64 100) = .error .ub ∧ push (fun b => b ≤ 1000) true obj (full obj 40) = .error .assert := by decide +kernel

/-- C123. Strings: undefined for the largest size only, when one character more wraps to nothing. -/
theorem C123_string (g : Lib) (sbo : Nat) (fill : Bool) (n : Nat) (hn : n < 2 ^ 64) (hsbo : sbo + 1 < 2 ^ 64) :
    (n ≤ sbo → ∃ c, string g sbo fill n = .ok c ∧ c.size = n ∧ c.data = some (sbo + 1)) ∧
    (sbo < n → n + 1 < 2 ^ 64 → string g sbo fill n = if g (n + 1) then .ok { size := n, cap := n, data := some (n + 1) } else .error .throws) ∧
    (n + 1 = 2 ^ 64 → string g sbo fill n = if g 0 then .error .ub else .error .throws) := by
  have tail : ∀ (c : Cont) m, c.data = some m → n + 1 ≤ m → (do
      if fill ∧ 0 < n then fillBytes c.data n
      elem c.data 1 n
      .ok { c with size := n } : M Cont) = .ok { c with size := n } := by
    intro c m hc hm
    have hel : elem c.data 1 n = .ok () := by rw [hc]; exact elem_ok (n := n + 1) (by omega) (by omega)
    have hfl : fillBytes c.data n = .ok () := by rw [hc]; exact fill_ok (by omega)
    rw [hel, hfl]
    by_cases h : fill = true ∧ 0 < n
    · rw [if_pos h]; rfl
    · rw [if_neg h]; rfl
  refine ⟨fun h => ?_, fun h h1 => ?_, fun h => ?_⟩
  · refine ⟨{ size := n, cap := sbo, data := some (sbo + 1) }, ?_, rfl, rfl⟩
    unfold string
    rw [if_pos h]
    exact tail { size := 0, cap := sbo, data := some (sbo + 1) } _ rfl (by omega)
  · unfold string
    rw [if_neg (by omega)]
    have ea : add n 1 = n + 1 := Nat.mod_eq_of_lt h1
    rw [ea]
    cases hg : g (n + 1) with
    | true =>
      rw [new_ok hg, if_pos rfl]
      have hf1 : fillBytes (some (n + 1)) 1 = .ok () := fill_ok (by omega)
      rw [ok_bind, hf1, ok_bind]
      exact tail { size := 0, cap := n, data := some (n + 1) } _ rfl (Nat.le_refl _)
    | false => rw [new_fail hg, if_neg (by decide)]; rfl
  · unfold string
    rw [if_neg (by omega)]
    have ea : add n 1 = 0 := by unfold add; omega
    rw [ea]
    cases hg : g 0 with
    | true => rw [new_ok hg, if_pos rfl]; rfl
    | false => rw [new_fail hg, if_neg (by decide)]; rfl

example : string (fun b => b ≤ 1000) 15 true 100 = .ok { size := 100, cap := 100, data := some 101 } ∧ string (fun b => b ≤ 1000) 15 true (2 ^ 64 - 1) = .error .ub := by decide +kernel

end Verif.Room
