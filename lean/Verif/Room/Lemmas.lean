import Verif.Room.Spec

namespace Verif.Room
open Spec

theorem ok_bind {α β : Type} (a : α) (f : α → M β) : ((.ok a : M α) >>= f) = f a := rfl
theorem err_bind {α β : Type} (e : Stop) (f : α → M β) : ((.error e : M α) >>= f) = .error e := rfl

theorem elem_ok {m s i n : Nat} (h : n * s ≤ m) (hi : i < n) : elem (some m) s i = .ok () := by
  unfold elem
  have : (i + 1) * s ≤ n * s := Nat.mul_le_mul_right s hi
  dsimp only
  exact if_pos (by omega)

theorem elem_ub {m s i : Nat} (h : m < (i + 1) * s) : elem (some m) s i = .error .ub := by
  unfold elem
  dsimp only
  exact if_neg (by omega)

theorem construct_ok {m s n : Nat} (h : n * s ≤ m) : ∀ k i, i + k ≤ n → construct (some m) s i k = .ok ()
  | 0, _, _ => rfl
  | k + 1, i, hk => by
    rw [construct, elem_ok h (by omega), ok_bind]
    exact construct_ok h k (i + 1) (by omega)

theorem construct_ub {m s : Nat} : ∀ k i, 0 < k → m < (i + k) * s → construct (some m) s i k = .error .ub
  | 0, _, h, _ => by omega
  | k + 1, i, _, hk => by
    rw [construct]
    by_cases h1 : m < (i + 1) * s
    · rw [elem_ub h1, err_bind]
    · have e : elem (some m) s i = .ok () := by
        unfold elem
        dsimp only
        exact if_pos (by omega)
      rw [e, ok_bind]
      by_cases hk0 : k = 0
      · subst hk0; exact absurd hk h1
      · exact construct_ub k (i + 1) (by omega) (by rw [Nat.add_assoc, Nat.add_comm 1 k]; exact hk)

theorem construct_null {s : Nat} : ∀ k i, 0 < k → construct none s i k = .error .ub
  | 0, _, h => by omega
  | _ + 1, _, _ => rfl

theorem fill_ok {m b : Nat} (h : b ≤ m) : fillBytes (some m) b = .ok () := by
  unfold fillBytes
  by_cases h0 : b = 0
  · exact if_pos h0
  · rw [if_neg h0]; exact if_pos h

theorem fill_null {b : Nat} (h : b ≠ 0) : fillBytes none b = .error .ub := by
  unfold fillBytes
  exact if_neg h

theorem fill_zero (p : Ptr) : fillBytes p 0 = .ok () := if_pos rfl

/-- Everything about the request in one place. -/
theorem asked_lt (T : Elem) (n : Nat) : asked T n < 2 ^ 64 := Nat.mod_lt _ (by decide)

theorem asked_eq {T : Elem} {n : Nat} (h : ¬ TooMany T n) : asked T n = n * T.size := Nat.mod_eq_of_lt (by unfold TooMany at h; omega)

theorem asked_small {T : Elem} {n : Nat} (h : TooMany T n) : asked T n < n * T.size := by
  have := asked_lt T n
  unfold TooMany at h
  omega

theorem tooMany_pos {T : Elem} {n : Nat} (h : TooMany T n) : 0 < n := by
  rcases Nat.eq_zero_or_pos n with h0 | h0
  · subst h0; unfold TooMany at h; omega
  · exact h0

theorem last {n : Nat} (h : 0 < n) (s : Nat) : (n - 1 + 1) * s = n * s := by rw [Nat.sub_add_cancel h]

/-- A container whose `n` elements do not have room. -/
theorem use_ub {T : Elem} {n b : Nat} {c : Cont} (hs : c.size = n) (hd : c.data = some b) (h0 : 0 < n) (h : b < n * T.size) : at' T c (n - 1) = .error .ub := by
  unfold at'
  rw [if_pos (by omega), hd]
  exact elem_ub (by rw [last h0]; exact h)

theorem use_null {T : Elem} {n : Nat} {c : Cont} (hs : c.size = n) (hd : c.data = none) (h0 : 0 < n) : at' T c (n - 1) = .error .ub := by
  unfold at'
  rw [if_pos (by omega), hd]
  rfl

theorem use_ok {T : Elem} {n b i : Nat} {c : Cont} (hs : c.size = n) (hd : c.data = some b) (hi : i < n) (h : n * T.size ≤ b) : at' T c i = .ok () := by
  unfold at'
  rw [if_pos (by omega), hd]
  exact elem_ok h hi

theorem use_out {T : Elem} {i : Nat} {c : Cont} (hi : ¬ i < c.size) : at' T c i = .error .assert := if_neg hi

theorem malloc_ok {g : Lib} {b : Nat} (h : g b = true) : systemMalloc g b = some b := if_pos h
theorem malloc_fail {g : Lib} {b : Nat} (h : g b = false) : systemMalloc g b = none := if_neg (by rw [h]; decide)

theorem alloc_ok {g : Lib} {b : Nat} (h : g b = true) : allocatorAlloc g b = .ok (some b) := by
  unfold allocatorAlloc systemMalloc
  rw [if_pos h]
  exact if_pos (Or.inl (by simp))

theorem alloc_zero {g : Lib} (h : g 0 = false) : allocatorAlloc g 0 = .ok none := by
  unfold allocatorAlloc
  rw [malloc_fail h]
  exact if_pos (Or.inr rfl)

theorem alloc_fail {g : Lib} {b : Nat} (h : g b = false) (hb : b ≠ 0) : allocatorAlloc g b = .error .assert := by
  unfold allocatorAlloc
  rw [malloc_fail h]
  exact if_neg (by simp [hb])


/-- What a way of making `n` elements at `p` does, for all the containers. -/
structure Fill (T : Elem) (n : Nat) (f : Ptr → M Unit) : Prop where
  fits : ∀ m, n * T.size ≤ m → f (some m) = .ok ()
  small : ∀ m, f (some m) = .ok () ∨ (f (some m) = .error .ub ∧ m < n * T.size)
  null : f none = .ok () ∨ (f none = .error .ub ∧ 0 < n)

theorem fill_construct (T : Elem) (n : Nat) : Fill T n (fun p => construct p T.size 0 n) where
  fits m h := construct_ok h n 0 (by omega)
  small m := by
    by_cases h : n * T.size ≤ m
    · exact Or.inl (construct_ok h n 0 (by omega))
    · have : 0 < n := by
        rcases Nat.eq_zero_or_pos n with h0 | h0
        · subst h0; omega
        · exact h0
      exact Or.inr ⟨construct_ub n 0 this (by rw [Nat.zero_add]; omega), by omega⟩
  null := by
    rcases Nat.eq_zero_or_pos n with h0 | h0
    · subst h0; exact Or.inl rfl
    · exact Or.inr ⟨construct_null n 0 h0, h0⟩

theorem fill_nothing (T : Elem) (n : Nat) : Fill T n (fun _ => .ok ()) := ⟨fun _ _ => rfl, fun _ => Or.inl rfl, Or.inl rfl⟩

theorem asked_le (T : Elem) (n : Nat) : asked T n ≤ n * T.size := Nat.mod_le _ _

theorem fill_default (T : Elem) (n : Nat) : Fill T n (fun p => defaultConstruct p T n) := by
  unfold defaultConstruct
  cases T.trivial with
  | false => exact fill_construct T n
  | true =>
    have hle : mul n T.size ≤ n * T.size := Nat.mod_le _ _
    refine ⟨fun m h => fill_ok (by omega), fun m => ?_, ?_⟩
    · by_cases h : mul n T.size ≤ m
      · exact Or.inl (fill_ok h)
      · refine Or.inr ⟨?_, by omega⟩
        show fillBytes (some m) (mul n T.size) = _
        unfold fillBytes
        rw [if_neg (by omega)]
        exact if_neg h
    · by_cases h : mul n T.size = 0
      · exact Or.inl (if_pos h)
      · refine Or.inr ⟨fill_null h, ?_⟩
        rcases Nat.eq_zero_or_pos n with h0 | h0
        · subst h0; simp [mul] at h
        · exact h0

/-- Ask for memory, put `n` elements there. -/
def gen (a : M Ptr) (f : Ptr → M Unit) (n : Nat) : M Cont := do
  let p ← a
  f p
  .ok { size := n, cap := n, data := p }

def genUse (a : M Ptr) (f : Ptr → M Unit) (T : Elem) (n i : Nat) : M Unit := do
  let c ← gen a f n
  at' T c i

theorem gen_fits {T : Elem} {n : Nat} {f : Ptr → M Unit} (hf : Fill T n f) {m : Nat} (h : n * T.size ≤ m) : gen (.ok (some m)) f n = .ok { size := n, cap := n, data := some m } := by
  unfold gen
  rw [ok_bind, hf.fits m h, ok_bind]

theorem gen_small {T : Elem} {n : Nat} {f : Ptr → M Unit} (hf : Fill T n f) {m : Nat} (h : m < n * T.size) : genUse (.ok (some m)) f T n (n - 1) = .error .ub := by
  have h0 : 0 < n := by
    rcases Nat.eq_zero_or_pos n with h0 | h0
    · subst h0; omega
    · exact h0
  unfold genUse gen
  rcases hf.small m with e | ⟨e, _⟩
  · rw [ok_bind, e, ok_bind, ok_bind]; exact use_ub rfl rfl h0 h
  · rw [ok_bind, e, err_bind, err_bind]

theorem gen_null {T : Elem} {n : Nat} {f : Ptr → M Unit} (hf : Fill T n f) (h0 : 0 < n) : genUse (.ok none) f T n (n - 1) = .error .ub := by
  unfold genUse gen
  rcases hf.null with e | ⟨e, _⟩
  · rw [ok_bind, e, ok_bind, ok_bind]; exact use_null rfl rfl h0
  · rw [ok_bind, e, err_bind, err_bind]

theorem genUse_fits {T : Elem} {n : Nat} {f : Ptr → M Unit} (hf : Fill T n f) {m : Nat} (h : n * T.size ≤ m) (i : Nat) : genUse (.ok (some m)) f T n i ≠ .error .ub := by
  unfold genUse
  rw [gen_fits hf h, ok_bind]
  by_cases hi : i < n
  · rw [use_ok (n := n) rfl rfl hi h]; simp
  · rw [use_out hi]; simp

theorem genUse_null_zero {T : Elem} {f : Ptr → M Unit} (hf : Fill T 0 f) (i : Nat) : genUse (.ok none) f T 0 i ≠ .error .ub := by
  unfold genUse gen
  rcases hf.null with e | ⟨_, e⟩
  · rw [ok_bind, e, ok_bind, ok_bind, use_out (by simp)]; simp
  · omega

/-- Containers that ask through `system_allocator->alloc`. -/
theorem gen_alloc {T : Elem} {n : Nat} {g : Lib} {f : Ptr → M Unit} (hf : Fill T n f) (hs : 0 < T.size) :
    (∃ i, genUse (allocatorAlloc g (asked T n)) f T n i = .error .ub) ↔ TooMany T n ∧ (g (asked T n) ∨ asked T n = 0) := by
  by_cases hm : TooMany T n
  · have h0 := tooMany_pos hm
    constructor
    · rintro ⟨i, hi⟩
      refine ⟨hm, ?_⟩
      cases hg : g (asked T n) with
      | true => exact Or.inl rfl
      | false =>
        by_cases hz : asked T n = 0
        · exact Or.inr hz
        · rw [alloc_fail hg hz] at hi
          cases hi
    · rintro ⟨-, h⟩
      refine ⟨n - 1, ?_⟩
      cases hg : g (asked T n) with
      | true => rw [alloc_ok hg]; exact gen_small hf (asked_small hm)
      | false =>
        have hz : asked T n = 0 := h.resolve_left (by rw [hg]; decide)
        rw [hz] at hg ⊢
        rw [alloc_zero hg]
        exact gen_null hf h0
  · refine ⟨fun ⟨i, hi⟩ => ?_, fun h => absurd h.1 hm⟩
    have ha := asked_eq hm
    exfalso
    cases hg : g (asked T n) with
    | true =>
      rw [alloc_ok hg] at hi
      exact genUse_fits hf (by omega) i hi
    | false =>
      by_cases hz : asked T n = 0
      · have hn : n = 0 := by
          rcases Nat.eq_zero_or_pos n with h0 | h0
          · exact h0
          · have := Nat.mul_pos h0 hs; omega
        subst hn
        rw [hz] at hg hi
        rw [alloc_zero hg] at hi
        exact genUse_null_zero hf i hi
      · rw [alloc_fail hg hz] at hi
        cases hi

/-- Containers that do not look at the result of `system_malloc`. -/
theorem gen_malloc {T : Elem} {n : Nat} {g : Lib} {f : Ptr → M Unit} (hf : Fill T n f) :
    (∃ i, genUse (.ok (systemMalloc g (asked T n))) f T n i = .error .ub) ↔ 0 < n ∧ (TooMany T n ∨ ¬ g (asked T n)) := by
  cases hg : g (asked T n) with
  | true =>
    rw [malloc_ok hg]
    by_cases hm : TooMany T n
    · exact ⟨fun _ => ⟨tooMany_pos hm, Or.inl hm⟩, fun _ => ⟨n - 1, gen_small hf (asked_small hm)⟩⟩
    · refine ⟨fun ⟨i, hi⟩ => ?_, fun h => ?_⟩
      · exact absurd hi (genUse_fits hf (by rw [asked_eq hm]; omega) i)
      · rcases h.2 with h | h
        · exact absurd h hm
        · exact absurd rfl h
  | false =>
    rw [malloc_fail hg]
    refine ⟨fun ⟨i, hi⟩ => ⟨?_, Or.inr (by decide)⟩, fun h => ⟨n - 1, gen_null hf h.1⟩⟩
    rcases Nat.eq_zero_or_pos n with h0 | h0
    · subst h0; exact absurd hi (genUse_null_zero hf i)
    · exact h0

theorem array_gen (g : Lib) (T : Elem) (how : How) (n : Nat) : ∃ f, Fill T n f ∧ array g T how n = gen (allocatorAlloc g (asked T n)) f n := by
  cases how with
  | defaulted => exact ⟨_, fill_default T n, rfl⟩
  | uninitialized => exact ⟨_, fill_nothing T n, rfl⟩
  | filled => exact ⟨_, fill_construct T n, rfl⟩

theorem allocArray_gen (g : Lib) (T : Elem) (how : How) (n : Nat) : ∃ f, Fill T n f ∧ allocArray g T how n = gen (allocatorAlloc g (asked T n)) f n := by
  cases how with
  | defaulted =>
    cases ht : T.trivial with
    | true => refine ⟨_, fill_nothing T n, ?_⟩; unfold allocArray gen; simp only [ht]; rfl
    | false => refine ⟨_, fill_construct T n, ?_⟩; unfold allocArray gen; simp only [ht]; rfl
  | uninitialized => exact ⟨_, fill_nothing T n, rfl⟩
  | filled => exact ⟨_, fill_construct T n, rfl⟩

theorem mul_asked (T : Elem) (n : Nat) : mul n T.size = asked T n := rfl

theorem vecAlloc_true (g : Lib) (T : Elem) (n : Nat) : vecAlloc g true T n = allocatorAlloc g (asked T n) := rfl
theorem vecAlloc_false (g : Lib) (T : Elem) (n : Nat) : vecAlloc g false T n = .ok (systemMalloc g (asked T n)) := rfl

theorem sysRealloc_zero (g : Lib) (p : Ptr) : systemRealloc g p 0 = .ok none := rfl

theorem vecRealloc_null (g : Lib) (ch : Bool) (T : Elem) (n : Nat) (h : asked T n ≠ 0) : vecRealloc g ch T none n = vecAlloc g ch T n := by
  have e : systemRealloc g none (mul n T.size) = .ok (systemMalloc g (mul n T.size)) := by
    unfold systemRealloc
    rw [if_pos (by rw [mul_asked]; omega)]
  cases ch with
  | false => show systemRealloc g none (mul n T.size) = _; rw [e]; rfl
  | true =>
    show allocatorRealloc g none (mul n T.size) = _
    unfold allocatorRealloc
    rw [e, ok_bind]
    rfl

theorem vecRealloc_zero (g : Lib) (ch : Bool) (T : Elem) (p : Ptr) (n : Nat) (h : asked T n = 0) : vecRealloc g ch T p n = .ok none := by
  cases ch with
  | false => show systemRealloc g p (mul n T.size) = _; rw [mul_asked, h]; rfl
  | true => show allocatorRealloc g p (mul n T.size) = _; rw [mul_asked, h]; rfl

/-- A filled vector, from nothing. -/
theorem filled_eq (g : Lib) (ch : Bool) (T : Elem) {n : Nat} (h0 : 0 < n) (h48 : n ≤ 2 ^ 48) :
    vector g ch T .filled n = gen (if T.realloc then vecRealloc g ch T none n else vecAlloc g ch T n) (fun p => construct p T.size 0 n) n := by
  show grow g ch T { size := 0, cap := 0, data := none } n = _
  unfold grow
  dsimp only
  rw [if_pos h0]
  unfold reserve
  rw [if_neg (by omega), if_neg (by dsimp only; omega)]
  have e : (if mul 0 2 < n then n else mul 0 2) = n := if_pos (by simpa [mul] using h0)
  dsimp only
  rw [e]
  cases T.realloc with
  | true =>
    rw [if_pos rfl, if_pos rfl]
    unfold gen
    cases vecRealloc g ch T none n with
    | error e => rfl
    | ok p => rfl
  | false =>
    rw [if_neg (by decide), if_neg (by decide)]
    unfold gen
    cases vecAlloc g ch T n with
    | error e => rfl
    | ok p => rfl

theorem filled_zero (g : Lib) (ch : Bool) (T : Elem) : vector g ch T .filled 0 = .ok { size := 0, cap := 0, data := none } := rfl

theorem filled_many (g : Lib) (ch : Bool) (T : Elem) {n : Nat} (h : ¬ n ≤ 2 ^ 48) : vector g ch T .filled n = .error .assert := by
  show grow g ch T { size := 0, cap := 0, data := none } n = _
  unfold grow
  dsimp only
  rw [if_pos (by omega)]
  unfold reserve
  rw [if_pos h]
  rfl

theorem filled_alloc (g : Lib) (ch : Bool) (T : Elem) (n : Nat) :
    (if T.realloc then vecRealloc g ch T none n else vecAlloc g ch T n) = vecAlloc g ch T n ∨
    (asked T n = 0 ∧ (if T.realloc then vecRealloc g ch T none n else vecAlloc g ch T n) = .ok none) := by
  cases T.realloc with
  | false => exact Or.inl (if_neg (by decide))
  | true =>
    rw [if_pos rfl]
    by_cases h : asked T n = 0
    · exact Or.inr ⟨h, vecRealloc_zero g ch T none n h⟩
    · exact Or.inl (vecRealloc_null g ch T n h)

theorem zero_tooMany {T : Elem} {n : Nat} (hs : 0 < T.size) (h0 : 0 < n) (hz : asked T n = 0) : TooMany T n := by
  refine Classical.byContradiction fun hm => ?_
  have := asked_eq hm
  have := Nat.mul_pos h0 hs
  omega

theorem new_ok {g : Lib} {b : Nat} (h : g b = true) : cxxNew g b = .ok (some b) := if_pos h
theorem new_fail {g : Lib} {b : Nat} (h : g b = false) : cxxNew g b = .error .throws := if_neg (by rw [h]; decide)

theorem chunk_eq (g : Lib) (T : Elem) {n : Nat} (h : 0 < n) : chunk g T n = gen (cxxNew g (asked T n)) (fun p => construct p T.size 0 n) n := by
  unfold chunk
  rw [if_neg (by omega)]
  rfl

theorem push_full (g : Lib) (ch : Bool) (T : Elem) {n m : Nat} (hcap : (if n = 0 then 1 else mul n 2) = m) : push g ch T (full T n) =
    if T.realloc = true ∧ T.size ≤ 512 then
      vecRealloc g ch T (full T n).data m >>= fun p => elem p T.size n >>= fun _ => .ok { size := n + 1, cap := m, data := p }
    else
      vecAlloc g ch T m >>= fun p => elem p T.size n >>= fun _ => construct p T.size 0 n >>= fun _ => .ok { size := n + 1, cap := m, data := p } := by
  subst hcap
  exact if_pos rfl

theorem fwd_eq (g : Lib) (T : Elem) (n : Nat) : fwdArray g T n = gen (cxxNewArray g T.size n) (fun p => construct p T.size 0 n) n := rfl

end Verif.Room
