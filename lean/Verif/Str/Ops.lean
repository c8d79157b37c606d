import Verif.Str.Lemmas
/-! Each operation on a string does what it should (helper lemmas for the history theorem). -/
namespace Verif.Str
open Verif.StrView (Chr View)

/-- Number of blocks a string owns. -/
def Str.heaps (s : Str) : Int :=
  match s.data with
  | .heap _ => 1
  | _ => 0

/-- The string `s` holds the characters `l`; if `t` is set, a zero follows them. -/
structure Good (C : Nat) (s : Str) (l : List Chr) (t : Bool) (k : Int) : Prop where
  ex : ∃ r, s.buf = .ok (l ++ r) ∧ l.length + r.length = s.capacity C + 1 ∧ (t = true → r.head? = some 0#8)
  un : s.un.length = C + 1
  size : s.size = l.length
  fits : l.length ≤ s.capacity C
  lo : C ≤ s.capacity C
  hi : s.capacity C < 2 ^ 62
  bal : s.bal = s.heaps + k

/-! ### Fields under changes -/

theorem buf_setBuf {s : Str} {b b' : List Chr} (h : s.buf = .ok b) : (s.setBuf b').buf = .ok b' := by
  unfold Str.buf Str.setBuf at *
  cases e : s.data <;> simp_all

theorem isShort_setBuf (s : Str) (b : List Chr) : (s.setBuf b).isShort = s.isShort := by
  unfold Str.setBuf Str.isShort
  cases e : s.data <;> simp_all

theorem heaps_setBuf (s : Str) (b : List Chr) : (s.setBuf b).heaps = s.heaps := by
  unfold Str.setBuf Str.heaps
  cases e : s.data <;> simp_all

theorem bal_setBuf (s : Str) (b : List Chr) : (s.setBuf b).bal = s.bal := by
  unfold Str.setBuf
  cases e : s.data <;> rfl

theorem size_setBuf (s : Str) (b : List Chr) : (s.setBuf b).size = s.size := by
  unfold Str.setBuf
  cases e : s.data <;> rfl

theorem un_setBuf_short {s : Str} (b : List Chr) (h : s.isShort = true) : (s.setBuf b).un = b := by
  unfold Str.setBuf
  unfold Str.isShort at h
  cases e : s.data <;> simp_all

theorem un_setBuf_long {s : Str} (b : List Chr) (h : s.isShort = false) : (s.setBuf b).un = s.un := by
  unfold Str.setBuf
  unfold Str.isShort at h
  cases e : s.data <;> simp_all

theorem buf_short {s : Str} (h : s.isShort = true) : s.buf = .ok s.un := by
  unfold Str.buf
  unfold Str.isShort at h
  cases e : s.data <;> simp_all

theorem heaps_short {s : Str} (h : s.isShort = true) : s.heaps = 0 := by
  unfold Str.heaps
  unfold Str.isShort at h
  cases e : s.data <;> simp_all

theorem heaps_long {s : Str} {b : List Chr} (h : s.isShort = false) (hb : s.buf = .ok b) : s.heaps = 1 := by
  unfold Str.heaps
  unfold Str.isShort at h
  unfold Str.buf at hb
  cases e : s.data <;> simp_all

theorem data_long {s : Str} {b : List Chr} (h : s.isShort = false) (hb : s.buf = .ok b) : s.data = .heap b := by
  unfold Str.isShort at h
  unfold Str.buf at hb
  cases e : s.data <;> simp_all

theorem data_short {s : Str} (h : s.isShort = true) : s.data = .sbo := by
  unfold Str.isShort at h
  cases e : s.data <;> simp_all

theorem release_un (s : Str) : s.release.un = s.un := by
  unfold Str.release
  cases e : s.data <;> rfl

theorem release_size (s : Str) : s.release.size = s.size := by
  unfold Str.release
  cases e : s.data <;> rfl

theorem release_bal (s : Str) : s.release.bal = s.bal - s.heaps := by
  unfold Str.release Str.heaps
  cases e : s.data <;> simp

/-! ### Two ways to build a good string -/

/-- New bytes in the same buffer. -/
theorem good_set {C : Nat} {s : Str} {l : List Chr} {t : Bool} {k : Int} (h : Good C s l t k) (l' r' : List Chr) (t' : Bool)
    {b : List Chr} (hb : b = l' ++ r') {n : Nat} (hn : n = l'.length)
    (hlen : l'.length + r'.length = s.capacity C + 1) (hfit : l'.length ≤ s.capacity C)
    (ht : t' = true → r'.head? = some 0#8) : Good C { s.setBuf b with size := n } l' t' k := by
  subst hb hn
  obtain ⟨r, hr, _, _⟩ := h.ex
  have hcap : ({ s.setBuf (l' ++ r') with size := l'.length } : Str).capacity C = s.capacity C := by
    change (s.setBuf (l' ++ r')).capacity C = s.capacity C
    unfold Str.capacity
    rw [isShort_setBuf]
    cases e : s.isShort with
    | true => rfl
    | false => rw [un_setBuf_long _ e]
  refine ⟨⟨r', buf_setBuf hr, hlen.trans (by rw [hcap]), ht⟩, ?_, rfl, by rw [hcap]; exact hfit,
    by rw [hcap]; exact h.lo, by rw [hcap]; exact h.hi, ?_⟩
  · change (s.setBuf (l' ++ r')).un.length = C + 1
    cases e : s.isShort with
    | true =>
      rw [un_setBuf_short _ e, List.length_append, hlen]
      unfold Str.capacity
      rw [e]; rfl
    | false => rw [un_setBuf_long _ e]; exact h.un
  · change (s.setBuf (l' ++ r')).bal = (s.setBuf (l' ++ r')).heaps + k
    rw [bal_setBuf, heaps_setBuf]; exact h.bal

theorem good_set' {C : Nat} {s : Str} {l : List Chr} {t : Bool} {k : Int} (h : Good C s l t k) (l' r' : List Chr) (t' : Bool)
    {b : List Chr} (hb : b = l' ++ r') (hn : s.size = l'.length)
    (hlen : l'.length + r'.length = s.capacity C + 1) (hfit : l'.length ≤ s.capacity C)
    (ht : t' = true → r'.head? = some 0#8) : Good C (s.setBuf b) l' t' k := by
  have := good_set h l' r' t' hb hn hlen hfit ht
  have e : ({ s.setBuf b with size := s.size } : Str) = s.setBuf b := by
    rw [← size_setBuf s b]
  rwa [e] at this

theorem cap_adopt {C : Nat} {s : Str} {b : List Chr} {cap n : Nat} (hc : cap < 2 ^ 62) :
    ({ s.adopt b cap with size := n } : Str).capacity C = cap := by
  change (s.adopt b cap).capacity C = cap
  unfold Str.capacity
  have e : (s.adopt b cap).isShort = false := rfl
  rw [e, if_neg (by simp)]
  change leVal ((leBytes 8 cap ++ _).take 8) = cap
  rw [List.take_left' (leBytes_length 8 cap), leVal_leBytes, Nat.mod_eq_of_lt (by omega)]

/-- A new block. -/
theorem good_adopt {C : Nat} (hC : 7 ≤ C) {s : Str} {k : Int} (hu : s.un.length = C + 1) (hbal : s.bal = s.heaps + k)
    (l' r' : List Chr) (t' : Bool) {b : List Chr} (hb : b = l' ++ r') {n : Nat} (hn : n = l'.length) {cap : Nat}
    (hlo : C ≤ cap) (hhi : cap < 2 ^ 62) (hlen : l'.length + r'.length = cap + 1) (hfit : l'.length ≤ cap)
    (ht : t' = true → r'.head? = some 0#8) : Good C { s.adopt b cap with size := n } l' t' k := by
  subst hb hn
  have hcap : ({ s.adopt (l' ++ r') cap with size := l'.length } : Str).capacity C = cap := cap_adopt hhi
  refine ⟨⟨r', rfl, by rw [hcap]; exact hlen, ht⟩, ?_, rfl, by rw [hcap]; exact hfit, by rw [hcap]; exact hlo,
    by rw [hcap]; exact hhi, ?_⟩
  · change (leBytes 8 cap ++ s.release.un.drop 8).length = C + 1
    rw [List.length_append, leBytes_length, List.length_drop, release_un, hu]; omega
  · change s.release.bal + 1 = 1 + k
    rw [release_bal, hbal]; omega

theorem good_adopt' {C : Nat} (hC : 7 ≤ C) {s : Str} {k : Int} (hu : s.un.length = C + 1) (hbal : s.bal = s.heaps + k)
    (l' r' : List Chr) (t' : Bool) {b : List Chr} (hb : b = l' ++ r') (hn : s.size = l'.length) {cap : Nat}
    (hlo : C ≤ cap) (hhi : cap < 2 ^ 62) (hlen : l'.length + r'.length = cap + 1) (hfit : l'.length ≤ cap)
    (ht : t' = true → r'.head? = some 0#8) : Good C (s.adopt b cap) l' t' k := by
  have := good_adopt hC hu hbal l' r' t' hb hn hlo hhi hlen hfit ht
  have e : ({ s.adopt b cap with size := s.size } : Str) = s.adopt b cap := by
    have : (s.adopt b cap).size = s.size := release_size s
    rw [← this]
  rwa [e] at this

theorem good_weaken {C : Nat} {s : Str} {l : List Chr} {t : Bool} {k : Int} (h : Good C s l t k) : Good C s l false k :=
  ⟨by
    obtain ⟨r, h1, h2, _⟩ := h.ex
    exact ⟨r, h1, h2, (fun e => nomatch e)⟩, h.un, h.size, h.fits, h.lo, h.hi, h.bal⟩

/-- The bytes of a good string: the characters, one byte (zero if `t` is set) and the rest. -/
theorem good_buf {C : Nat} {s : Str} {l : List Chr} {t : Bool} {k : Int} (h : Good C s l t k) :
    ∃ c r, s.buf = .ok (l ++ c :: r) ∧ l.length + r.length = s.capacity C ∧ (t = true → c = 0#8) := by
  obtain ⟨r, h1, h2, h3⟩ := h.ex
  cases r with
  | nil =>
    have := h.fits
    rw [List.length_nil] at h2
    omega
  | cons c r =>
    refine ⟨c, r, h1, by rw [List.length_cons] at h2; omega, fun e => ?_⟩
    exact Option.some.inj (h3 e)

theorem cap_short {C : Nat} {s : Str} (h : s.isShort = true) : s.capacity C = C := by
  unfold Str.capacity; rw [h]; rfl

/-! ### Construction -/

theorem empty_good (C : Nat) (hC : C < 2 ^ 61) : Good C (Str.empty C) [] true 0 := by
  refine ⟨⟨List.replicate (C + 1) 0#8, rfl, ?_, fun _ => rfl⟩, List.length_replicate, rfl, Nat.zero_le _, Nat.le_refl _, ?_, rfl⟩
  · rw [List.length_replicate]; change 0 + (C + 1) = C + 1; omega
  · change C < 2 ^ 62; omega

theorem empty_cap (C : Nat) : (Str.empty C).capacity C = C := rfl

theorem fromView_ok {C : Nat} (h7 : 7 ≤ C) (hC : C < 2 ^ 61) (junk : Nat → Chr) (l : List Chr) (hl : l.length < 2 ^ 61) :
    ∃ s, fromView C junk l = .ok s ∧ Good C s l true 0 := by
  -- whatever the buffer is, the two stores put the characters and the zero there
  have core : ∀ (s : Str) (l0 : List Chr), s.size = l.length → Good C { s with size := l0.length } l0 true 0 →
      l.length ≤ s.capacity C →
      ∃ s', (do
        let b ← s.buf
        let b ← (if l.length > 0 then memcpy b 0 l else pure b : R (List Chr))
        let b ← wr b l.length 0#8
        pure (s.setBuf b)) = .ok s' ∧ Good C s' l true 0 := by
    intro s l0 hs h hcap
    obtain ⟨r0, hr0, hlen, _⟩ := h.ex
    have hr0 : s.buf = .ok (l0 ++ r0) := hr0
    have hlen : l0.length + r0.length = s.capacity C + 1 := hlen
    obtain ⟨a, c, b, e, ha⟩ := cut_cons (l := l0 ++ r0) l.length (by rw [List.length_append]; omega)
    rw [hr0, R.ok_bind, e]
    have h1 : (if l.length > 0 then memcpy (a ++ c :: b) 0 l else pure (a ++ c :: b)) = .ok (l ++ c :: b) := by
      by_cases e0 : l.length > 0
      · rw [if_pos e0]; exact memcpy_pre ha.symm
      · rw [if_neg e0]
        have : l = [] := List.eq_nil_of_length_eq_zero (by omega)
        subst this
        have : a = [] := List.eq_nil_of_length_eq_zero ha
        subst this
        rfl
    rw [h1, R.ok_bind, wr_app rfl, R.ok_bind]
    refine ⟨_, rfl, ?_⟩
    have hab : a.length + (b.length + 1) = s.capacity C + 1 := by
      rw [← hlen, ← List.length_append, e, List.length_append, List.length_cons]
    have := good_set h l (0#8 :: b) true (b := l ++ 0#8 :: b) rfl (n := l.length) rfl
      (by rw [List.length_cons, ← ha]; exact hab) hcap (fun _ => rfl)
    have e2 : ({ ({ s with size := l0.length } : Str).setBuf (l ++ 0#8 :: b) with size := l.length } : Str) = s.setBuf (l ++ 0#8 :: b) := by
      obtain ⟨d, sz, u, bl⟩ := s
      have hs : sz = l.length := hs
      subst hs
      cases d <;> rfl
    rwa [e2] at this
  unfold fromView
  by_cases c : l.length ≤ C
  · simp only [if_pos c]
    exact core { Str.empty C with size := l.length } [] rfl (empty_good C hC) c
  · simp only [if_neg c]
    have hcap : (({ Str.empty C with size := l.length } : Str).adopt (newChars junk (l.length + 1)) l.length).capacity C = l.length :=
      cap_adopt (s := { Str.empty C with size := l.length }) (n := l.length) (by omega)
    have hnl : (newChars junk (l.length + 1)).length = l.length + 1 := newChars_length junk (by omega)
    cases hn : newChars junk (l.length + 1) with
    | nil => rw [hn] at hnl; simp at hnl
    | cons x t =>
      rw [hn] at hnl
      rw [hn] at hcap
      -- temporarily regard the new block as an empty terminated string
      obtain ⟨s', h1, h2⟩ : ∃ s', (do
        let b ← (({ Str.empty C with size := l.length } : Str).adopt (x :: t) l.length).buf
        let b ← (if l.length > 0 then memcpy b 0 l else pure b : R (List Chr))
        let b ← wr b l.length 0#8
        pure ((({ Str.empty C with size := l.length } : Str).adopt (x :: t) l.length).setBuf b)) = .ok s' ∧ Good C s' l true 0 := by
        obtain ⟨a, c0, b, e, ha⟩ := cut_cons (l := x :: t) l.length (by omega)
        have hbuf : (({ Str.empty C with size := l.length } : Str).adopt (x :: t) l.length).buf = .ok (x :: t) := rfl
        rw [hbuf, R.ok_bind, e, if_pos (by omega), memcpy_pre ha.symm, R.ok_bind, wr_app rfl, R.ok_bind]
        refine ⟨_, rfl, ?_⟩
        have hab : a.length + (b.length + 1) = l.length + 1 := by
          rw [← hnl, e, List.length_append, List.length_cons]
        exact good_adopt (s := { Str.empty C with size := l.length }) h7 List.length_replicate rfl l (0#8 :: b) true rfl
          (n := l.length) rfl (by omega) (by omega) (by rw [List.length_cons, ← ha]; omega) (Nat.le_refl _) (fun _ => rfl)
      exact ⟨s', h1, h2⟩

theorem reserveForce_ok {C : Nat} (h7 : 7 ≤ C) {junk : Nat → Chr} {s : Str} {l : List Chr} {t : Bool} {k : Int} (h : Good C s l t k)
    {n : Nat} (hn : s.capacity C ≤ n) (hi : n < 2 ^ 62) :
    ∃ s', s.reserveForce junk n = .ok s' ∧ Good C s' l t k ∧ s'.capacity C = n ∧ s'.size = s.size := by
  obtain ⟨c, r, hb, hlen, hc⟩ := good_buf h
  have hfit := h.fits
  have hlo := h.lo
  obtain ⟨a, z, e, ha⟩ := cut (l := newChars junk (n + 1)) (l.length + 1) (by rw [newChars_length junk (by omega)]; omega)
  unfold Str.reserveForce
  have hs : slice (l ++ c :: r) 0 (s.size + 1) = .ok (l ++ [c]) := by
    have : l ++ c :: r = (l ++ [c]) ++ r := by simp
    rw [this]
    exact slice_pre (by rw [h.size, List.length_append]; rfl)
  rw [hb, R.ok_bind, hs, R.ok_bind, e, memcpy_pre (by rw [List.length_append, ha]; rfl), R.ok_bind]
  have haz : l.length + 1 + z.length = n + 1 := by
    have := newChars_length junk (show n + 1 < 2 ^ 64 by omega)
    rw [e, List.length_append, ha] at this
    exact this
  refine ⟨_, rfl, good_adopt' h7 h.un h.bal l (c :: z) t (by simp) h.size (by omega) hi
    (by rw [List.length_cons]; omega) (by omega) (fun e => by rw [hc e]; rfl), ?_, release_size s⟩
  exact cap_adopt (n := (s.adopt (l ++ [c] ++ z) n).size) hi

theorem reserve_ok {C : Nat} (h7 : 7 ≤ C) {junk : Nat → Chr} {s : Str} {l : List Chr} {t : Bool} {k : Int} (h : Good C s l t k)
    {n : Nat} (hi : n < 2 ^ 61) :
    ∃ s', s.reserve C junk n = .ok s' ∧ Good C s' l t k ∧ n ≤ s'.capacity C ∧ s'.size = s.size := by
  unfold Str.reserve
  by_cases c : n ≤ s.capacity C
  · rw [if_pos c]
    exact ⟨s, rfl, h, c, rfl⟩
  · rw [if_neg c]
    obtain ⟨s', h1, h2, h3, h4⟩ := reserveForce_ok h7 (junk := junk) h (n := n) (by omega) (by omega)
    exact ⟨s', h1, h2, by omega, h4⟩

/-- Any number of characters, with a zero behind them; what the characters are is not specified. -/
theorem uninitialized_ok {C : Nat} (h7 : 7 ≤ C) (hC : C < 2 ^ 61) (junk : Nat → Chr) (n : Nat) (hn : n < 2 ^ 61) :
    ∃ s l, uninitialized C junk n = .ok s ∧ l.length = n ∧ Good C s l true 0 := by
  unfold uninitialized
  obtain ⟨s, h1, h2, h3, h4⟩ := reserve_ok h7 (junk := junk) (empty_good C hC) hn
  rw [h1, R.ok_bind]
  obtain ⟨r, hr, hlen, _⟩ := h2.ex
  obtain ⟨a, c, b, e, ha⟩ := cut_cons (l := [] ++ r) n (by rw [List.length_append]; omega)
  rw [hr, R.ok_bind, e, wr_app ha.symm, R.ok_bind]
  refine ⟨_, a, rfl, ha, ?_⟩
  have hab : a.length + (b.length + 1) = s.capacity C + 1 := by
    rw [← hlen, ← List.length_append, e, List.length_append, List.length_cons]
  exact good_set h2 a (0#8 :: b) true rfl ha.symm hab (by omega) (fun _ => rfl)

theorem resize_ok {C : Nat} (h7 : 7 ≤ C) {junk : Nat → Chr} {s : Str} {l : List Chr} {t : Bool} {k : Int} (h : Good C s l t k)
    {n : Nat} (hn : n < 2 ^ 61) (c : Chr) :
    ∃ s', s.resize C junk n c = .ok s' ∧ Good C s' (l.take n ++ List.replicate (n - l.length) c) true k := by
  unfold Str.resize
  obtain ⟨s', h1, h2, h3, h4⟩ := reserve_ok h7 (junk := junk) h hn
  rw [h1, R.ok_bind]
  obtain ⟨r, hr, hlen, _⟩ := h2.ex
  rw [hr, R.ok_bind]
  have hsz := h2.size
  by_cases g : n > s'.size
  · rw [if_pos g]
    obtain ⟨a, d, b, e, ha⟩ := cut_cons (l := r) (n - l.length) (by omega)
    rw [e, memcpy_app hsz (by rw [List.length_replicate, ha, hsz]), R.ok_bind]
    have e2 : l ++ (List.replicate (n - s'.size) c ++ d :: b) = (l ++ List.replicate (n - l.length) c) ++ d :: b := by
      rw [List.append_assoc, hsz]
    have hll : (l ++ List.replicate (n - l.length) c).length = n := by
      rw [List.length_append, List.length_replicate]; omega
    rw [e2, wr_app hll.symm, R.ok_bind, List.take_of_length_le (by omega)]
    refine ⟨_, rfl, good_set h2 _ (0#8 :: b) true rfl hll.symm ?_ (by omega) (fun _ => rfl)⟩
    have : (r.length) = n - l.length + (b.length + 1) := by rw [e, List.length_append, ha, List.length_cons]
    rw [hll, List.length_cons]; omega
  · rw [if_neg g]
    obtain ⟨a, d, b, e, ha⟩ := cut_cons (l := l ++ r) n (by rw [List.length_append]; omega)
    have hta : l.take n = a := by
      have : (l ++ r).take n = a := by rw [e]; exact List.take_left' ha
      rw [List.take_append_of_le_length (by omega)] at this
      exact this
    rw [R.pure_eq, R.ok_bind, e, wr_app ha.symm, R.ok_bind, hta, show n - l.length = 0 by omega]
    refine ⟨_, rfl, ?_⟩
    have hab : a.length + (b.length + 1) = s'.capacity C + 1 := by
      rw [← hlen, ← List.length_append, e, List.length_append, List.length_cons]
    rw [List.replicate_zero, List.append_nil]
    exact good_set h2 a (0#8 :: b) true rfl ha.symm hab (by omega) (fun _ => rfl)

theorem filled_ok {C : Nat} (h7 : 7 ≤ C) (hC : C < 2 ^ 61) (junk : Nat → Chr) (n : Nat) (hn : n < 2 ^ 61) (c : Chr) :
    ∃ s, filled C junk n c = .ok s ∧ Good C s (List.replicate n c) true 0 := by
  obtain ⟨s, h1, h2⟩ := resize_ok h7 (junk := junk) (empty_good C hC) hn c
  rw [List.take_nil, List.nil_append, List.length_nil, Nat.sub_zero] at h2
  exact ⟨s, h1, h2⟩

/-! ### Copy and move -/

theorem copyInto_ok {C : Nat} (h7 : 7 ≤ C) (hC : C < 2 ^ 61) {junk : Nat → Chr} {this rhs : Str} {l : List Chr} {t : Bool} {k k' : Int}
    (h : Good C rhs l t k) (hl : l.length < 2 ^ 61) (hu : this.un.length = C + 1) (hh : this.heaps = 0) (hb : this.bal = k') :
    ∃ s, copyInto C junk this rhs = .ok s ∧ Good C s l t k' := by
  obtain ⟨c, r, hbuf, hlen, hc⟩ := good_buf h
  have hfit := h.fits
  unfold copyInto
  cases hsh : rhs.isShort with
  | true =>
    rw [if_pos rfl]
    have hcap := cap_short (C := C) hsh
    have hun : rhs.un = l ++ c :: r := by
      have := buf_short hsh
      rw [hbuf] at this
      exact (Except.ok.inj this).symm
    refine ⟨_, rfl, ⟨⟨c :: r, ?_, ?_, fun e => by rw [hc e]; rfl⟩, h.un, h.size, ?_, Nat.le_refl _, ?_, ?_⟩⟩
    · change Except.ok rhs.un = _
      rw [hun]
    · change l.length + (c :: r).length = C + 1
      rw [List.length_cons]; omega
    · change l.length ≤ C; omega
    · change C < 2 ^ 62; omega
    · change this.bal = 0 + k'; omega
  | false =>
    rw [if_neg (by simp)]
    have hs : slice (l ++ c :: r) 0 (rhs.size + 1) = .ok (l ++ [c]) := by
      have : l ++ c :: r = (l ++ [c]) ++ r := by simp
      rw [this]
      exact slice_pre (by rw [h.size, List.length_append]; rfl)
    rw [hbuf, R.ok_bind, hs, R.ok_bind]
    have hlc : (l ++ [c]).length = l.length + 1 := by rw [List.length_append]; rfl
    by_cases g : rhs.size ≤ C
    · rw [if_pos g]
      have hsz := h.size
      obtain ⟨a, z, e, ha⟩ := cut (l := this.un) (l.length + 1) (by rw [hu]; omega)
      rw [e, memcpy_pre (by rw [hlc, ha]), R.ok_bind]
      have haz : l.length + 1 + z.length = C + 1 := by rw [← hu, e, List.length_append, ha]
      refine ⟨_, rfl, ⟨⟨c :: z, ?_, ?_, fun e => by rw [hc e]; rfl⟩, ?_, h.size, ?_, Nat.le_refl _, ?_, ?_⟩⟩
      · change Except.ok (l ++ [c] ++ z) = _
        simp
      · change l.length + (c :: z).length = C + 1
        rw [List.length_cons]; omega
      · change (l ++ [c] ++ z).length = C + 1
        rw [List.length_append, hlc]; omega
      · change l.length ≤ C; omega
      · change C < 2 ^ 62; omega
      · change this.bal = 0 + k'; omega
    · rw [if_neg g]
      have hsz := h.size
      have hnl := newChars_length junk (show rhs.size + 1 < 2 ^ 64 by omega)
      have hs' : memcpy (newChars junk (rhs.size + 1)) 0 (l ++ [c]) = .ok (l ++ [c]) := by
        have := memcpy_pre (y := newChars junk (rhs.size + 1)) (z := []) (src := l ++ [c]) (by rw [hlc, hnl, hsz])
        rwa [List.append_nil, List.append_nil] at this
      rw [hs', R.ok_bind]
      refine ⟨_, rfl, good_adopt h7 hu (by omega) l [c] t rfl hsz (by omega) (by omega) (by rw [hsz]; rfl) (by omega)
        (fun e => by rw [hc e]; rfl)⟩

theorem copyCtor_ok {C : Nat} (h7 : 7 ≤ C) (hC : C < 2 ^ 61) {junk : Nat → Chr} {rhs : Str} {l : List Chr} {t : Bool} {k : Int}
    (h : Good C rhs l t k) (hl : l.length < 2 ^ 61) : ∃ s, copyCtor C junk rhs = .ok s ∧ Good C s l t 0 :=
  copyInto_ok h7 hC h hl List.length_replicate rfl rfl

theorem release_heaps {s : Str} : s.release.heaps = 0 := by
  unfold Str.release Str.heaps
  cases e : s.data <;> simp_all

theorem copyAssign_ok {C : Nat} (h7 : 7 ≤ C) (hC : C < 2 ^ 61) {junk : Nat → Chr} {this rhs : Str} {l : List Chr} {t : Bool} {k k' : Int}
    (h : Good C rhs l t k) (hl : l.length < 2 ^ 61) (hu : this.un.length = C + 1) (hb : this.bal = this.heaps + k') :
    ∃ s, copyAssign C junk this rhs = .ok s ∧ Good C s l t k' :=
  copyInto_ok h7 hC h hl (by rw [release_un]; exact hu) release_heaps (by rw [release_bal]; omega)

/-- What is known about an object that was moved from. -/
structure Moved (C : Nat) (s : Str) (k : Int) : Prop where
  un : s.un.length = C + 1
  heaps : s.heaps = 0
  bal : s.bal = k

theorem moveInto_ok {C : Nat} (h7 : 7 ≤ C) {this rhs : Str} {l : List Chr} {t : Bool} {k k' : Int}
    (h : Good C rhs l t k) (hu : this.un.length = C + 1) (hb : this.bal = k') :
    ∃ d, Good C (moveInto this rhs).1 l t (k' - d) ∧ Moved C (moveInto this rhs).2 (k + d) := by
  obtain ⟨c, r, hbuf, hlen, hc⟩ := good_buf h
  have hfit := h.fits
  have hhi := h.hi
  unfold moveInto
  cases hsh : rhs.isShort with
  | true =>
    rw [if_pos rfl]
    have hcap := cap_short (C := C) hsh
    have hun : rhs.un = l ++ c :: r := by
      have := buf_short hsh
      rw [hbuf] at this
      exact (Except.ok.inj this).symm
    refine ⟨0, ⟨⟨c :: r, ?_, ?_, fun e => by rw [hc e]; rfl⟩, h.un, h.size, ?_, Nat.le_refl _, ?_, ?_⟩, ⟨h.un, heaps_short hsh, ?_⟩⟩
    · change Except.ok rhs.un = _
      rw [hun]
    · change l.length + (c :: r).length = C + 1
      rw [List.length_cons]; omega
    · change l.length ≤ C; omega
    · change C < 2 ^ 62; omega
    · change this.bal = 0 + (k' - 0); omega
    · have := h.bal
      rw [heaps_short hsh] at this
      change rhs.bal = k + 0
      omega
  | false =>
    rw [if_neg (by simp)]
    have hdat := data_long hsh hbuf
    have hcap : rhs.capacity C = leVal (rhs.un.take 8) := by
      unfold Str.capacity; rw [hsh, if_neg (by simp)]
    have hcap' : ({ this with data := rhs.data, size := rhs.size, un := leBytes 8 (leVal (rhs.un.take 8)) ++ this.un.drop 8 } : Str).capacity C
        = rhs.capacity C := by
      unfold Str.capacity
      have e : ({ this with data := rhs.data, size := rhs.size, un := leBytes 8 (leVal (rhs.un.take 8)) ++ this.un.drop 8 } : Str).isShort = false := by
        unfold Str.isShort
        rw [hdat]
      rw [e, hsh, if_neg (by simp), if_neg (by simp), List.take_left' (leBytes_length 8 _), leVal_leBytes,
        Nat.mod_eq_of_lt (by rw [← hcap]; omega)]
    refine ⟨1, ⟨⟨c :: r, ?_, ?_, fun e => by rw [hc e]; rfl⟩, ?_, h.size, ?_, ?_, ?_, ?_⟩, ⟨h.un, rfl, ?_⟩⟩
    · unfold Str.buf
      dsimp only
      rw [hdat]
    · rw [hcap', List.length_cons]; omega
    · change (leBytes 8 (leVal (rhs.un.take 8)) ++ this.un.drop 8).length = C + 1
      rw [List.length_append, leBytes_length, List.length_drop, hu]; omega
    · rw [hcap']; omega
    · rw [hcap']; exact h.lo
    · rw [hcap']; exact h.hi
    · unfold Str.heaps
      dsimp only
      rw [hdat]
      change this.bal = 1 + (k' - 1); omega
    · have := h.bal
      rw [heaps_long hsh hbuf] at this
      change rhs.bal = k + 1; omega

theorem moveCtor_ok {C : Nat} (h7 : 7 ≤ C) {rhs : Str} {l : List Chr} {t : Bool} {k : Int} (h : Good C rhs l t k) :
    ∃ d, Good C (moveCtor C rhs).1 l t (0 - d) ∧ Moved C (moveCtor C rhs).2 (k + d) :=
  moveInto_ok h7 h List.length_replicate rfl

theorem dropForMove_ok {C : Nat} (h7 : 7 ≤ C) {s : Str} {k : Int} (hu : s.un.length = C + 1) (hb : s.bal = s.heaps + k) :
    s.dropForMove.un.length = C + 1 ∧ s.dropForMove.bal = k := by
  unfold Str.dropForMove
  cases hsh : s.isShort with
  | true =>
    rw [if_pos rfl]
    rw [heaps_short hsh] at hb
    exact ⟨hu, by omega⟩
  | false =>
    rw [if_neg (by simp)]
    refine ⟨?_, ?_⟩
    · change (leBytes 8 0 ++ s.un.drop 8).length = C + 1
      rw [List.length_append, leBytes_length, List.length_drop, hu]; omega
    · change s.release.bal = k
      rw [release_bal]; omega

theorem moveAssign_ok {C : Nat} (h7 : 7 ≤ C) {this rhs : Str} {l : List Chr} {t : Bool} {k k' : Int} (h : Good C rhs l t k)
    (hu : this.un.length = C + 1) (hb : this.bal = this.heaps + k') :
    ∃ d, Good C (moveAssign this rhs).1 l t (k' - d) ∧ Moved C (moveAssign this rhs).2 (k + d) := by
  obtain ⟨h1, h2⟩ := dropForMove_ok h7 hu hb
  exact moveInto_ok h7 h h1 h2

/-! ### Modification -/

theorem pushBack_ok {C : Nat} (h7 : 7 ≤ C) {junk : Nat → Chr} {s : Str} {l : List Chr} {t : Bool} {k : Int} (h : Good C s l t k)
    (c : Chr) (hl : l.length + 1 < 2 ^ 61) : ∃ s', s.pushBack C junk c = .ok s' ∧ Good C s' (l ++ [c]) true k := by
  unfold Str.pushBack
  have hlo := h.lo
  obtain ⟨s1, e1, g1, hc⟩ : ∃ s1, (if s.size = s.capacity C then s.grow C junk else pure s) = .ok s1 ∧ Good C s1 l t k ∧
      l.length < s1.capacity C := by
    have hsz := h.size
    have hfit := h.fits
    by_cases c : s.size = s.capacity C
    · rw [if_pos c]
      unfold Str.grow
      rw [Nat.mod_eq_of_lt (by omega)]
      obtain ⟨s', h1, h2, h3, _⟩ := reserveForce_ok h7 (junk := junk) h (n := s.capacity C * 2) (by omega) (by omega)
      exact ⟨s', h1, h2, by omega⟩
    · rw [if_neg c]
      exact ⟨s, rfl, h, by omega⟩
  rw [e1, R.ok_bind]
  obtain ⟨x, r, hb, hlen, _⟩ := good_buf g1
  cases r with
  | nil => rw [List.length_nil] at hlen; omega
  | cons y r =>
    rw [List.length_cons] at hlen
    have e2 : l ++ c :: y :: r = (l ++ [c]) ++ y :: r := by simp
    have hll : (l ++ [c]).length = l.length + 1 := by rw [List.length_append]; rfl
    rw [hb, R.ok_bind, wr_app g1.size, R.ok_bind, e2, wr_app (by rw [hll, g1.size]), R.ok_bind]
    exact ⟨_, rfl, good_set g1 _ (0#8 :: r) true rfl (by rw [hll, g1.size]) (by rw [hll, List.length_cons]; omega)
      (by omega) (fun _ => rfl)⟩

theorem popBack_ok {C : Nat} {s : Str} {l : List Chr} {c : Chr} {t : Bool} {k : Int} (h : Good C s (l ++ [c]) t k) :
    ∃ s', s.popBack = .ok s' ∧ Good C s' l true k := by
  unfold Str.popBack
  have hsz := h.size
  have hfit := h.fits
  have hll : (l ++ [c]).length = l.length + 1 := by rw [List.length_append]; rfl
  obtain ⟨r, hb, hlen, _⟩ := h.ex
  have e2 : (l ++ [c]) ++ r = l ++ c :: r := by simp
  rw [ccAssert_true (decide_eq_true (by omega)), R.ok_bind, hb, R.ok_bind, e2, wr_app (by omega), R.ok_bind]
  exact ⟨_, rfl, good_set h l (0#8 :: r) true rfl (by omega) (by rw [List.length_cons]; omega) (by omega) (fun _ => rfl)⟩

theorem clear_ok {C : Nat} (h7 : 7 ≤ C) (hC : C < 2 ^ 61) {s : Str} {k : Int} (hu : s.un.length = C + 1) (hb : s.bal = s.heaps + k) :
    Good C s.clear [] true k := by
  have hl : (leBytes 8 0 ++ s.un.drop 8).length = C + 1 := by
    rw [List.length_append, leBytes_length, List.length_drop, hu]; omega
  refine ⟨⟨leBytes 8 0 ++ s.un.drop 8, rfl, ?_, fun _ => rfl⟩, hl, rfl, Nat.zero_le _, Nat.le_refl _, ?_, ?_⟩
  · rw [hl]; change 0 + (C + 1) = C + 1; omega
  · change C < 2 ^ 62; omega
  · change s.release.bal = 0 + k
    rw [release_bal]; omega

theorem shrink_ok {C : Nat} (h7 : 7 ≤ C) (hC : C < 2 ^ 61) {junk : Nat → Chr} {s : Str} {l : List Chr} {t : Bool} {k : Int} (h : Good C s l t k) :
    ∃ s', s.shrinkToFit C junk = .ok s' ∧ Good C s' l t k ∧ (s'.capacity C = C ∨ s'.capacity C = l.length) := by
  unfold Str.shrinkToFit
  have hsz := h.size
  have hfit := h.fits
  have hhi := h.hi
  cases hsh : s.isShort with
  | true =>
    rw [if_pos rfl]
    exact ⟨s, rfl, h, Or.inl (cap_short hsh)⟩
  | false =>
    rw [if_neg (by simp)]
    by_cases c : s.size = s.capacity C
    · rw [if_pos c]
      exact ⟨s, rfl, h, Or.inr (by omega)⟩
    · rw [if_neg c]
      obtain ⟨c, r, hbuf, hlen, hc⟩ := good_buf h
      have hs : slice (l ++ c :: r) 0 (s.size + 1) = .ok (l ++ [c]) := by
        have : l ++ c :: r = (l ++ [c]) ++ r := by simp
        rw [this]
        exact slice_pre (by rw [h.size, List.length_append]; rfl)
      rw [hbuf, R.ok_bind, hs, R.ok_bind]
      have hlc : (l ++ [c]).length = l.length + 1 := by rw [List.length_append]; rfl
      by_cases g : s.size ≤ C
      · rw [if_pos g]
        obtain ⟨a, z, e, ha⟩ := cut (l := s.un) (l.length + 1) (by rw [h.un]; omega)
        rw [e, memcpy_pre (by rw [hlc, ha]), R.ok_bind]
        have haz : l.length + 1 + z.length = C + 1 := by rw [← h.un, e, List.length_append, ha]
        refine ⟨_, rfl, ⟨⟨c :: z, ?_, ?_, fun e => by rw [hc e]; rfl⟩, ?_, ?_, ?_, Nat.le_refl _, ?_, ?_⟩, Or.inl rfl⟩
        · change Except.ok (l ++ [c] ++ z) = _
          simp
        · change l.length + (c :: z).length = C + 1
          rw [List.length_cons]; omega
        · change (l ++ [c] ++ z).length = C + 1
          rw [List.length_append, hlc]; omega
        · change s.release.size = l.length
          rw [release_size]; exact hsz
        · change l.length ≤ C; omega
        · change C < 2 ^ 62; omega
        · change s.release.bal = 0 + k
          have := h.bal
          rw [release_bal]; omega
      · rw [if_neg g]
        have hnl := newChars_length junk (show s.size + 1 < 2 ^ 64 by omega)
        have hs' : memcpy (newChars junk (s.size + 1)) 0 (l ++ [c]) = .ok (l ++ [c]) := by
          have := memcpy_pre (y := newChars junk (s.size + 1)) (z := []) (src := l ++ [c]) (by rw [hlc, hnl, hsz])
          rwa [List.append_nil, List.append_nil] at this
        rw [hs', R.ok_bind]
        refine ⟨_, rfl, good_adopt' h7 h.un h.bal l [c] t rfl hsz (by omega) (by omega) (by rw [hsz]; rfl) (by omega)
          (fun e => by rw [hc e]; rfl), Or.inr ?_⟩
        rw [← hsz]
        exact cap_adopt (n := (s.adopt (l ++ [c]) s.size).size) (by omega)

theorem fillTail {C : Nat} {s : Str} {l : List Chr} {t : Bool} {k : Int} (h : Good C s l t k) (c : Chr) :
    ∃ s', (do
      let b ← s.buf
      let b ← fillLoop c s.size b 0
      pure (s.setBuf b)) = .ok s' ∧ Good C s' (List.replicate l.length c) t k := by
  obtain ⟨r, hb, hlen, ht⟩ := h.ex
  have := fillLoop_ok c [] l r l.length 0 rfl rfl
  rw [List.nil_append, List.nil_append] at this
  rw [hb, R.ok_bind, h.size, this, R.ok_bind]
  have hll : (List.replicate l.length c).length = l.length := List.length_replicate
  exact ⟨_, rfl, good_set' h _ r t rfl (by rw [hll]; exact h.size) (by rw [hll]; exact hlen) (by rw [hll]; exact h.fits) ht⟩

theorem fill_ok {C : Nat} (h7 : 7 ≤ C) {junk : Nat → Chr} {s : Str} {l : List Chr} {t : Bool} {k : Int} (h : Good C s l t k) (c : Chr)
    (n : Nat) (hn : n < 2 ^ 61) : ∃ s', s.fill C junk c n = .ok s' ∧ Good C s' (List.replicate n c) true k := by
  unfold Str.fill
  have hlo := h.lo
  by_cases g : n ≤ s.capacity C
  · rw [if_pos g]
    obtain ⟨r, hb, hlen, ht⟩ := h.ex
    obtain ⟨a, d, b, e, ha⟩ := cut_cons (l := l ++ r) n (by rw [List.length_append]; omega)
    have hab : a.length + (b.length + 1) = s.capacity C + 1 := by
      rw [← hlen, ← List.length_append, e, List.length_append, List.length_cons]
    rw [hb, R.ok_bind, e, wr_app ha.symm, R.ok_bind, R.pure_eq, R.ok_bind]
    have g1 : Good C { s.setBuf (a ++ 0#8 :: b) with size := n } a true k :=
      good_set h a (0#8 :: b) true rfl ha.symm hab (by omega) (fun _ => rfl)
    have := fillTail g1 c
    rw [ha] at this
    exact this
  · rw [if_neg g, if_pos (by unfold dynamicSize; omega), ccAssert_true (decide_eq_true (by omega)), R.ok_bind]
    have hnl := newChars_length junk (show n + 1 < 2 ^ 64 by omega)
    obtain ⟨a, d, b, e, ha⟩ := cut_cons (l := newChars junk (n + 1)) n (by omega)
    have hab : a.length + (b.length + 1) = n + 1 := by rw [← hnl, e, List.length_append, List.length_cons]
    rw [e, wr_app ha.symm, R.ok_bind, R.pure_eq, R.ok_bind]
    have g1 : Good C { s.adopt (a ++ 0#8 :: b) n with size := n } a true k :=
      good_adopt h7 h.un h.bal a (0#8 :: b) true rfl ha.symm (by omega) (by omega) hab (by omega) (fun _ => rfl)
    have := fillTail g1 c
    rw [ha] at this
    exact this

/-- `fill(c)` keeps the size. -/
theorem fillAll_ok {C : Nat} {junk : Nat → Chr} {s : Str} {l : List Chr} {t : Bool} {k : Int} (h : Good C s l t k) (c : Chr) :
    ∃ s', s.fill C junk c dynamicSize = .ok s' ∧ Good C s' (List.replicate l.length c) t k := by
  unfold Str.fill
  have := h.hi
  rw [if_neg (by unfold dynamicSize; omega), if_neg (by simp), R.pure_eq, R.ok_bind]
  exact fillTail h c

theorem mapped_ok {C : Nat} (h7 : 7 ≤ C) (hC : C < 2 ^ 61) {junk : Nat → Chr} {s : Str} {l : List Chr} {t : Bool} {k : Int} (h : Good C s l t k)
    (hl : l.length < 2 ^ 61) (f : Chr → Chr) : ∃ s', s.mapped C junk f = .ok s' ∧ Good C s' (l.map f) true 0 := by
  unfold Str.mapped
  obtain ⟨u, m, h1, h2, h3⟩ := uninitialized_ok h7 hC junk l.length hl
  obtain ⟨r, hb, hlen, _⟩ := h.ex
  obtain ⟨q, hq, hql, hqt⟩ := h3.ex
  have := mapToLoop_ok f [] l r [] m q l.length 0 rfl h2.symm rfl rfl
  simp only [List.nil_append] at this
  rw [h.size, h1, R.ok_bind, hb, R.ok_bind, hq, R.ok_bind, this, R.ok_bind]
  have hll : (l.map f).length = l.length := List.length_map f
  refine ⟨_, rfl, good_set' h3 _ q true rfl (by rw [hll, h3.size, h2]) (by rw [hll, ← h2]; exact hql) (by rw [hll, ← h2]; exact h3.fits) hqt⟩

theorem capitalized_ok {C : Nat} (h7 : 7 ≤ C) (hC : C < 2 ^ 61) {junk : Nat → Chr} {s : Str} {l : List Chr} {t : Bool} {k : Int} (h : Good C s l t k)
    (hl : l.length < 2 ^ 61) : ∃ s', s.capitalized C junk = .ok s' ∧
      Good C s' ((l.take 1).map StrView.toUpper ++ (l.drop 1).map StrView.toLower) true 0 := by
  unfold Str.capitalized
  obtain ⟨u, m, h1, h2, h3⟩ := uninitialized_ok h7 hC junk l.length hl
  obtain ⟨r, hb, hlen, _⟩ := h.ex
  obtain ⟨q, hq, hql, hqt⟩ := h3.ex
  rw [h.size, h1, R.ok_bind, hb, R.ok_bind, hq, R.ok_bind]
  cases l with
  | nil =>
    have hm : m = [] := List.eq_nil_of_length_eq_zero h2
    subst hm
    refine ⟨_, rfl, good_set' h3 [] q true rfl h3.size hql h3.fits hqt⟩
  | cons x l =>
    cases m with
    | nil => simp at h2
    | cons y m =>
      have h2' : m.length = l.length := by simpa using h2
      rw [if_pos (by simp)]
      have a1 : mapToLoop StrView.toUpper (x :: l ++ r) 1 (y :: m ++ q) 0 = .ok (StrView.toUpper x :: m ++ q) :=
        mapToLoop_ok StrView.toUpper [] [x] (l ++ r) [] [y] (m ++ q) 1 0 rfl rfl rfl rfl
      have a2 : mapToLoop StrView.toLower (x :: l ++ r) ((x :: l).length - 1) (StrView.toUpper x :: m ++ q) 1
          = .ok (StrView.toUpper x :: (l.map StrView.toLower ++ q)) :=
        mapToLoop_ok StrView.toLower [x] l r [StrView.toUpper x] m q _ 1 rfl h2'.symm rfl rfl
      rw [a1, R.ok_bind, a2, R.ok_bind]
      have hll : ((List.take 1 (x :: l)).map StrView.toUpper ++ (List.drop 1 (x :: l)).map StrView.toLower).length = (y :: m).length := by
        change (StrView.toUpper x :: (l.map StrView.toLower)).length = _
        rw [List.length_cons, List.length_map, List.length_cons, h2']
      refine ⟨_, rfl, good_set' h3 _ q true rfl (by rw [hll]; exact h3.size) (by rw [hll]; exact hql) (by rw [hll]; exact h3.fits) hqt⟩

theorem capitalize_ok {C : Nat} {s : Str} {l : List Chr} {t : Bool} {k : Int} (h : Good C s l t k) :
    ∃ s', s.capitalize = .ok s' ∧ Good C s' ((l.take 1).map StrView.toUpper ++ (l.drop 1).map StrView.toLower) t k := by
  unfold Str.capitalize
  obtain ⟨r, hb, hlen, ht⟩ := h.ex
  rw [hb, R.ok_bind, h.size]
  cases l with
  | nil => exact ⟨_, rfl, good_set' h [] r t rfl h.size hlen h.fits ht⟩
  | cons x l =>
    rw [if_pos (by simp)]
    have a1 : mapLoop StrView.toUpper 1 (x :: l ++ r) 0 = .ok (StrView.toUpper x :: l ++ r) :=
      mapLoop_ok StrView.toUpper [] [x] (l ++ r) 1 0 rfl rfl
    have a2 : mapLoop StrView.toLower ((x :: l).length - 1) (StrView.toUpper x :: l ++ r) 1
        = .ok (StrView.toUpper x :: (l.map StrView.toLower ++ r)) :=
      mapLoop_ok StrView.toLower [StrView.toUpper x] l r _ 1 rfl rfl
    rw [a1, R.ok_bind, a2, R.ok_bind]
    have hll : ((List.take 1 (x :: l)).map StrView.toUpper ++ (List.drop 1 (x :: l)).map StrView.toLower).length = (x :: l).length := by
      change (StrView.toUpper x :: (l.map StrView.toLower)).length = _
      rw [List.length_cons, List.length_map, List.length_cons]
    refine ⟨_, rfl, good_set' h _ r t rfl (by rw [hll]; exact h.size) (by rw [hll]; exact hlen) (by rw [hll]; exact h.fits) ht⟩

theorem replaceChars_ok {C : Nat} {s : Str} {l : List Chr} {t : Bool} {k : Int} (h : Good C s l t k) (old new : Chr) :
    ∃ s', s.replaceChars old new = .ok s' ∧ Good C s' (l.map (replaceChar old new)) t k := by
  unfold Str.replaceChars
  obtain ⟨r, hb, hlen, ht⟩ := h.ex
  have := mapLoop_ok (replaceChar old new) [] l r l.length 0 rfl rfl
  simp only [List.nil_append] at this
  rw [hb, R.ok_bind, h.size, this, R.ok_bind]
  have hll : (l.map (replaceChar old new)).length = l.length := List.length_map _
  exact ⟨_, rfl, good_set' h _ r t rfl (by rw [hll]; exact h.size) (by rw [hll]; exact hlen) (by rw [hll]; exact h.fits) ht⟩

theorem removePrefix_ok {C : Nat} {s : Str} {l : List Chr} {t : Bool} {k : Int} (h : Good C s l t k) (n : Nat) (hn : n ≤ l.length) :
    ∃ s', s.removePrefix n = .ok s' ∧ Good C s' (l.drop n) false k := by
  unfold Str.removePrefix
  obtain ⟨r, hb, hlen, _⟩ := h.ex
  have hfit := h.fits
  rw [h.size, ccAssert_true (decide_eq_true hn), R.ok_bind, hb, R.ok_bind]
  have hdl : (l.drop n).length = l.length - n := List.length_drop
  have htl : (l.take n).length = n := by rw [List.length_take]; omega
  obtain ⟨g, hg, hs⟩ := shiftDown_ok [] (l.take n) (l.drop n) r (l.length - n) 0 n hdl.symm rfl (by rw [htl]; simp)
  have e : l ++ r = [] ++ (l.take n ++ (l.drop n ++ r)) := by
    rw [List.nil_append, ← List.append_assoc, List.take_append_drop]
  rw [e, hs, R.ok_bind]
  exact ⟨_, rfl, good_set h (l.drop n) (g ++ r) false rfl (by rw [hdl]) (by rw [hdl, List.length_append, hg, htl]; omega)
    (by omega) (fun e => nomatch e)⟩

theorem removeSuffix_ok {C : Nat} {s : Str} {l : List Chr} {t : Bool} {k : Int} (h : Good C s l t k) (n : Nat) (hn : n ≤ l.length) :
    ∃ s', s.removeSuffix n = .ok s' ∧ Good C s' (l.take (l.length - n)) false k := by
  unfold Str.removeSuffix
  obtain ⟨r, hb, hlen, _⟩ := h.ex
  have hfit := h.fits
  rw [h.size, ccAssert_true (decide_eq_true hn), R.ok_bind]
  have htl : (l.take (l.length - n)).length = l.length - n := by rw [List.length_take]; omega
  refine ⟨_, rfl, ⟨⟨l.drop (l.length - n) ++ r, ?_, ?_, (fun e => nomatch e)⟩, h.un, htl.symm, ?_, h.lo, h.hi, h.bal⟩⟩
  · rw [← List.append_assoc, List.take_append_drop]; exact hb
  · change (l.take (l.length - n)).length + (l.drop (l.length - n) ++ r).length = s.capacity C + 1
    rw [htl, List.length_append, List.length_drop]; omega
  · change (l.take (l.length - n)).length ≤ s.capacity C
    omega

theorem view_ok {C : Nat} {s : Str} {l : List Chr} {t : Bool} {k : Int} (h : Good C s l t k) :
    ∃ r, s.view = .ok ⟨l ++ r, 0, l.length⟩ ∧ (View.mk (l ++ r) 0 l.length).Inside ∧ (View.mk (l ++ r) 0 l.length).chars = l := by
  obtain ⟨r, hb, hlen, _⟩ := h.ex
  have := h.hi
  refine ⟨r, ?_, ⟨?_, ?_⟩, ?_⟩
  · unfold Str.view
    rw [hb, R.ok_bind, h.size]; rfl
  · change 0 + l.length ≤ (l ++ r).length
    rw [List.length_append]; omega
  · change (l ++ r).length < 2 ^ 63
    rw [List.length_append]; omega
  · unfold View.chars
    change ((l ++ r).drop 0).take l.length = l
    rw [List.drop_zero, List.take_left' rfl]

theorem ext_inside {l : List Chr} (h : l.length < 2 ^ 61) : (View.mk l 0 l.length).Inside ∧ (View.mk l 0 l.length).chars = l :=
  ⟨⟨by change 0 + l.length ≤ l.length; omega, by change l.length < 2 ^ 63; omega⟩, by
    unfold View.chars
    change (l.drop 0).take l.length = l
    rw [List.drop_zero, List.take_length]⟩

theorem removePrefixStr_ok {C : Nat} {s : Str} {l p : List Chr} {t : Bool} {k : Int} (h : Good C s (p ++ l) t k) (hp : p.length < 2 ^ 61) :
    ∃ s', s.removePrefixStr p = .ok s' ∧ Good C s' l false k := by
  unfold Str.removePrefixStr
  obtain ⟨r, hv, hin, hch⟩ := view_ok h
  obtain ⟨hpi, hpc⟩ := ext_inside hp
  rw [hv, R.ok_bind]
  have hle : p.length ≤ (p ++ l).length := by rw [List.length_append]; omega
  unfold View.startsWith
  dsimp only
  rw [if_pos hle, StrView.subview_ok hin (by change 0 + p.length ≤ (p ++ l).length; omega), R.ok_bind]
  dsimp only
  rw [StrView.eq_ok (StrView.sub_inside hin (by change 0 + p.length ≤ (p ++ l).length; omega)) hpi, R.ok_bind,
    StrView.sub_chars (v := ⟨p ++ l ++ r, 0, (p ++ l).length⟩) (a := 0) (by change 0 + p.length ≤ (p ++ l).length; omega), hch, hpc,
    List.drop_zero, List.take_left' rfl, ccAssert_true (by simp), R.ok_bind]
  obtain ⟨s', h1, h2⟩ := removePrefix_ok h p.length hle
  rw [List.drop_left' rfl] at h2
  exact ⟨s', h1, h2⟩

theorem removeSuffixStr_ok {C : Nat} {s : Str} {l p : List Chr} {t : Bool} {k : Int} (h : Good C s (l ++ p) t k) (hp : p.length < 2 ^ 61) :
    ∃ s', s.removeSuffixStr p = .ok s' ∧ Good C s' l false k := by
  unfold Str.removeSuffixStr
  obtain ⟨r, hv, hin, hch⟩ := view_ok h
  obtain ⟨hpi, hpc⟩ := ext_inside hp
  rw [hv, R.ok_bind]
  have hle : p.length ≤ (l ++ p).length := by rw [List.length_append]; omega
  have hll : (l ++ p).length - p.length = l.length := by rw [List.length_append]; omega
  unfold View.endsWith
  dsimp only
  rw [if_pos hle, hll, StrView.subview_ok hin (by change l.length + p.length ≤ (l ++ p).length; rw [List.length_append]; omega), R.ok_bind]
  dsimp only
  rw [StrView.eq_ok (StrView.sub_inside hin (by change l.length + p.length ≤ (l ++ p).length; rw [List.length_append]; omega)) hpi, R.ok_bind,
    StrView.sub_chars (v := ⟨l ++ p ++ r, 0, (l ++ p).length⟩) (a := l.length)
      (by change l.length + p.length ≤ (l ++ p).length; rw [List.length_append]; omega), hch, hpc,
    List.drop_left' rfl, List.take_length, ccAssert_true (by simp), R.ok_bind]
  obtain ⟨s', h1, h2⟩ := removeSuffix_ok h p.length hle
  rw [hll, List.take_left' rfl] at h2
  unfold Str.removeSuffix at h1
  rw [ccAssert_true (decide_eq_true (by rw [h.size]; exact hle)), R.ok_bind] at h1
  exact ⟨s', h1, h2⟩

theorem takeWhile_length_le (p : Chr → Bool) (l : List Chr) : (l.takeWhile p).length ≤ l.length :=
  (List.takeWhile_sublist p).length_le

theorem drop_takeWhile (p : Chr → Bool) (l : List Chr) : l.drop (l.takeWhile p).length = l.dropWhile p := by
  conv => lhs; arg 2; rw [← List.takeWhile_append_dropWhile (p := p) (l := l)]
  exact List.drop_left' rfl

theorem trimStart_ok {C : Nat} {s : Str} {l : List Chr} {t : Bool} {k : Int} (h : Good C s l t k) (p : Chr → Bool) :
    ∃ s', s.trimStart p = .ok s' ∧ Good C s' (l.dropWhile p) t k := by
  unfold Str.trimStart
  obtain ⟨r, hb, hlen, ht⟩ := h.ex
  have hfit := h.fits
  have hc := countLoop_ok p [] l r l.length 0 rfl rfl
  simp only [List.nil_append, List.length_nil, Nat.zero_add] at hc
  rw [hb, R.ok_bind, h.size, hc, R.ok_bind]
  have hle := takeWhile_length_le p l
  by_cases c : (l.takeWhile p).length = 0
  · rw [if_pos c]
    have := drop_takeWhile p l
    rw [c, List.drop_zero] at this
    rw [← this]
    exact ⟨s, rfl, h⟩
  · rw [if_neg c]
    have hdl : (l.dropWhile p).length = l.length - (l.takeWhile p).length := by
      rw [← drop_takeWhile, List.length_drop]
    obtain ⟨g, hg, hs⟩ := shiftDown_ok [] (l.takeWhile p) (l.dropWhile p) r (l.length - (l.takeWhile p).length) 0
      (l.takeWhile p).length hdl.symm rfl (by simp)
    have e : l ++ r = [] ++ (l.takeWhile p ++ (l.dropWhile p ++ r)) := by
      rw [List.nil_append, ← List.append_assoc, List.takeWhile_append_dropWhile]
    rw [e, hs, R.ok_bind, List.nil_append]
    cases g with
    | nil => rw [List.length_nil] at hg; omega
    | cons d g =>
      rw [List.cons_append, wr_app hdl.symm, R.ok_bind]
      rw [List.length_cons] at hg
      exact ⟨_, rfl, good_set h (l.dropWhile p) (0#8 :: (g ++ r)) t rfl hdl.symm
        (by rw [hdl, List.length_cons, List.length_append]; omega) (by omega) (fun _ => rfl)⟩

/-- Without the longest suffix satisfying `p`. -/
def dropEnd (p : Chr → Bool) (l : List Chr) : List Chr := (l.reverse.dropWhile p).reverse

theorem dropEnd_split (p : Chr → Bool) (l : List Chr) : ∃ a, l = dropEnd p l ++ a ∧ (dropEnd p l).length = (l.reverse.dropWhile p).length := by
  refine ⟨(l.reverse.takeWhile p).reverse, ?_, List.length_reverse⟩
  unfold dropEnd
  rw [← List.reverse_append, List.takeWhile_append_dropWhile, List.reverse_reverse]

theorem trimEnd_ok {C : Nat} {s : Str} {l : List Chr} {t : Bool} {k : Int} (h : Good C s l t k) (p : Chr → Bool) :
    ∃ s', s.trimEnd p = .ok s' ∧ Good C s' (dropEnd p l) true k := by
  unfold Str.trimEnd
  obtain ⟨c, r, hb, hlen, _⟩ := good_buf h
  have hfit := h.fits
  have hc := backLoop_ok p [] l (c :: r) l.length 0 rfl rfl
  simp only [List.nil_append] at hc
  rw [hb, R.ok_bind, h.size, hc, R.ok_bind]
  obtain ⟨a, e, hl⟩ := dropEnd_split p l
  generalize dropEnd p l = m at *
  obtain ⟨d, q, hq⟩ : ∃ d q, a ++ c :: r = d :: q := by
    cases a with
    | nil => exact ⟨c, r, rfl⟩
    | cons d a => exact ⟨d, a ++ c :: r, rfl⟩
  have e2 : l ++ c :: r = m ++ d :: q := by rw [e, List.append_assoc, hq]
  have hlen2 : m.length + (d :: q).length = l.length + (c :: r).length := by
    rw [← List.length_append, ← e2, List.length_append]
  rw [List.length_cons, List.length_cons] at hlen2
  have hml : m.length ≤ l.length := by
    have := congrArg List.length e
    rw [List.length_append] at this; omega
  rw [e2, wr_app hl.symm, R.ok_bind]
  exact ⟨_, rfl, good_set h m (0#8 :: q) true rfl hl.symm (by rw [List.length_cons]; omega) (by omega) (fun _ => rfl)⟩

theorem trim_ok {C : Nat} {s : Str} {l : List Chr} {t : Bool} {k : Int} (h : Good C s l t k) (p : Chr → Bool) :
    ∃ s', s.trim p = .ok s' ∧ Good C s' (dropEnd p (l.dropWhile p)) true k := by
  unfold Str.trim
  obtain ⟨c, r, hb, hlen, _⟩ := good_buf h
  have hfit := h.fits
  have hc := countLoop_ok p [] l (c :: r) l.length 0 rfl rfl
  simp only [List.nil_append, List.length_nil, Nat.zero_add] at hc
  rw [hb, R.ok_bind, h.size, hc, R.ok_bind]
  have hle := takeWhile_length_le p l
  have hdl : (l.dropWhile p).length = l.length - (l.takeWhile p).length := by
    rw [← drop_takeWhile, List.length_drop]
  have e0 : l ++ c :: r = l.takeWhile p ++ (l.dropWhile p ++ c :: r) := by
    rw [← List.append_assoc, List.takeWhile_append_dropWhile]
  rw [e0, backLoop_ok p (l.takeWhile p) (l.dropWhile p) (c :: r) _ _ hdl.symm rfl, R.ok_bind]
  obtain ⟨a, e, hl⟩ := dropEnd_split p (l.dropWhile p)
  generalize dropEnd p (l.dropWhile p) = m at *
  obtain ⟨g, hg, hs⟩ := shiftDown_ok [] (l.takeWhile p) m (a ++ c :: r) _ 0 (l.takeWhile p).length hl.symm rfl (by simp)
  have e1 : l.takeWhile p ++ (l.dropWhile p ++ c :: r) = [] ++ (l.takeWhile p ++ (m ++ (a ++ c :: r))) := by
    rw [List.nil_append, e, List.append_assoc]
  rw [e1, hs, R.ok_bind, List.nil_append]
  have hml : m.length + a.length = (l.dropWhile p).length := by
    have := congrArg List.length e
    rw [List.length_append] at this; omega
  obtain ⟨d, q, hq⟩ : ∃ d q, g ++ (a ++ c :: r) = d :: q := by
    cases g with
    | nil =>
      cases a with
      | nil => exact ⟨c, r, rfl⟩
      | cons d a => exact ⟨d, a ++ c :: r, rfl⟩
    | cons d g => exact ⟨d, g ++ (a ++ c :: r), rfl⟩
  have hql : g.length + (a.length + (r.length + 1)) = q.length + 1 := by
    have := congrArg List.length hq
    simpa only [List.length_append, List.length_cons] using this
  rw [hq, wr_app hl.symm, R.ok_bind]
  exact ⟨_, rfl, good_set h m (0#8 :: q) true rfl hl.symm (by rw [List.length_cons]; omega) (by omega) (fun _ => rfl)⟩

theorem padStart_ok {C : Nat} (h7 : 7 ≤ C) {junk : Nat → Chr} {s : Str} {l : List Chr} {t : Bool} {k : Int} (h : Good C s l t k)
    (n : Nat) (hn : n < 2 ^ 61) (c : Chr) :
    ∃ s', s.padStart C junk n c = .ok s' ∧ Good C s' (List.replicate (n - l.length) c ++ l) t k := by
  unfold Str.padStart
  by_cases g : s.size ≥ n
  · rw [if_pos g]
    have := h.size
    rw [show n - l.length = 0 by omega]
    exact ⟨s, rfl, h⟩
  · rw [if_neg g]
    have hsz := h.size
    obtain ⟨s', h1, h2, h3, h4⟩ := reserve_ok h7 (junk := junk) h hn
    rw [h1, R.ok_bind]
    obtain ⟨r, hr, hlen, _⟩ := h2.ex
    obtain ⟨a, d, b, e, ha⟩ := cut_cons (l := r) (n - l.length) (by omega)
    obtain ⟨q, hq, hs⟩ := shiftUp_ok [] a l (d :: b) s'.size n s'.size h2.size (by rw [h2.size]; simp) (by omega)
    rw [hr, R.ok_bind, e]
    rw [List.nil_append, List.nil_append] at hs
    rw [hs, R.ok_bind]
    have hf := fillLoop_ok c [] q (l ++ d :: b) (n - s'.size) 0 (by omega) rfl
    rw [List.nil_append, List.nil_append] at hf
    rw [hf, R.ok_bind]
    have hs'' : n - s'.size = n - l.length := by omega
    have hll : (List.replicate (n - l.length) c ++ l).length = n := by
      rw [List.length_append, List.length_replicate]; omega
    have e2 : List.replicate (n - s'.size) c ++ (l ++ d :: b) = (List.replicate (n - l.length) c ++ l) ++ d :: b := by
      rw [hs'', List.append_assoc]
    rw [e2, wr_app hll.symm, R.ok_bind]
    have : r.length = n - l.length + (b.length + 1) := by rw [e, List.length_append, ha, List.length_cons]
    exact ⟨_, rfl, good_set h2 _ (0#8 :: b) t rfl hll.symm (by rw [hll, List.length_cons]; omega) (by omega) (fun _ => rfl)⟩

theorem padEnd_ok {C : Nat} (h7 : 7 ≤ C) {junk : Nat → Chr} {s : Str} {l : List Chr} {t : Bool} {k : Int} (h : Good C s l t k)
    (n : Nat) (hn : n < 2 ^ 61) (c : Chr) :
    ∃ s', s.padEnd C junk n c = .ok s' ∧ Good C s' (l ++ List.replicate (n - l.length) c) t k := by
  unfold Str.padEnd
  by_cases g : s.size ≥ n
  · rw [if_pos g]
    have := h.size
    rw [show n - l.length = 0 by omega, List.replicate_zero, List.append_nil]
    exact ⟨s, rfl, h⟩
  · rw [if_neg g]
    have hsz := h.size
    obtain ⟨s', h1, h2, h3, h4⟩ := reserve_ok h7 (junk := junk) h hn
    rw [h1, R.ok_bind]
    obtain ⟨r, hr, hlen, _⟩ := h2.ex
    obtain ⟨a, d, b, e, ha⟩ := cut_cons (l := r) (n - l.length) (by omega)
    rw [hr, R.ok_bind, e, fillLoop_ok c l a (d :: b) (n - s'.size) s'.size (by omega) h2.size, R.ok_bind]
    have hs'' : n - s'.size = n - l.length := by omega
    have hll : (l ++ List.replicate (n - l.length) c).length = n := by
      rw [List.length_append, List.length_replicate]; omega
    have e2 : l ++ (List.replicate (n - s'.size) c ++ d :: b) = (l ++ List.replicate (n - l.length) c) ++ d :: b := by
      rw [hs'', List.append_assoc]
    rw [e2, wr_app hll.symm, R.ok_bind]
    have : r.length = n - l.length + (b.length + 1) := by rw [e, List.length_append, ha, List.length_cons]
    exact ⟨_, rfl, good_set h2 _ (0#8 :: b) t rfl hll.symm (by rw [hll, List.length_cons]; omega) (by omega) (fun _ => rfl)⟩

theorem sub64_ok {a b : Nat} (h : b ≤ a) (ha : a < 2 ^ 63) : sub64 a b = a - b := by
  unfold sub64
  rw [show a + (2 ^ 64 - b) = (a - b) + 2 ^ 64 by omega, Nat.add_mod_right, Nat.mod_eq_of_lt (by omega)]

/-- `replace(pos, count, view)` on a string `x ++ y ++ z` with `pos = |x|`, `count = |y|`. -/
theorem replaceAt_ok {C : Nat} (h7 : 7 ≤ C) {junk : Nat → Chr} {s : Str} {x y z m : List Chr} {t : Bool} {k : Int}
    (h : Good C s (x ++ (y ++ z)) t k) {pos count : Nat} (hp : pos = x.length) (hc : count = y.length)
    (hl : (x ++ (m ++ z)).length < 2 ^ 61) :
    ∃ s', s.replaceAt C junk pos count (.ext m) = .ok s' ∧ Good C s' (x ++ (m ++ z)) t k := by
  unfold Str.replaceAt
  obtain ⟨c, r, hb, hlen, ht⟩ := good_buf h
  have hfit := h.fits
  have hhi := h.hi
  have hlo := h.lo
  have hsz := h.size
  simp only [List.length_append] at hlen hfit hsz hl
  have hm1 : (pos + count) % 2 ^ 64 = pos + count := Nat.mod_eq_of_lt (by omega)
  rw [ccAssert_true (decide_eq_true (by omega)), R.ok_bind, hm1, ccAssert_true (decide_eq_true (by omega)), R.ok_bind,
    hb, R.ok_bind]
  change ∃ s', (if count = m.length then _ else _) = Except.ok s' ∧ _
  by_cases g : count = m.length
  · rw [if_pos g]
    unfold copyArg
    dsimp only
    rw [show x ++ (y ++ z) ++ c :: r = x ++ (y ++ (z ++ c :: r)) by simp only [List.append_assoc],
      memcpy_app hp (by omega), R.ok_bind]
    refine ⟨_, rfl, good_set' h _ (c :: r) t (by simp only [List.append_assoc]) ?_ ?_ ?_ (fun e => by rw [ht e]; rfl)⟩ <;>
      simp only [List.length_append, List.length_cons] <;> omega
  · rw [if_neg g]
    have e1 : sub64 s.size count = x.length + z.length := by rw [sub64_ok (by omega) (by omega)]; omega
    have e2 : (sub64 s.size count + (Arg.ext m).size) % 2 ^ 64 = x.length + z.length + m.length := by
      rw [e1]; exact Nat.mod_eq_of_lt (by change x.length + z.length + m.length < 2 ^ 64; omega)
    have e3 : sub64 (sub64 s.size count) pos = z.length := by rw [e1, sub64_ok (by omega) (by omega)]; omega
    have hma : (Arg.ext m).size = m.length := rfl
    dsimp only
    rw [e2, e3, hma]
    by_cases g2 : x.length + z.length + m.length > s.capacity C
    · rw [if_pos g2, show s.capacity C * 2 % 2 ^ 64 = s.capacity C * 2 from Nat.mod_eq_of_lt (by omega)]
      obtain ⟨cap, hcap, hc1, hc2, hc3⟩ : ∃ cap, (if x.length + z.length + m.length > s.capacity C * 2 then x.length + z.length + m.length
          else s.capacity C * 2) = cap ∧ C ≤ cap ∧ cap < 2 ^ 62 ∧ x.length + z.length + m.length ≤ cap := by
        refine ⟨_, rfl, ?_, ?_, ?_⟩ <;> split <;> omega
      rw [hcap]
      have hnl := newChars_length junk (show cap + 1 < 2 ^ 64 by omega)
      obtain ⟨a1, b1, q1, l1⟩ := cut (l := newChars junk (cap + 1)) x.length (by omega)
      obtain ⟨a2, b2, q2, l2⟩ := cut (l := b1) m.length (by
        have := congrArg List.length q1
        rw [List.length_append] at this; omega)
      have hb1 : x.length + b1.length = cap + 1 := by rw [← hnl, q1, List.length_append, l1]
      have hb2 : m.length + b2.length = b1.length := by rw [q2, List.length_append, l2]
      obtain ⟨a3, d, b3, q3, l3⟩ := cut_cons (l := b2) z.length (by omega)
      have hb3 : z.length + (b3.length + 1) = b2.length := by rw [q3, List.length_append, l3, List.length_cons]
      have hsl1 : slice (x ++ (y ++ z) ++ c :: r) 0 pos = .ok x := by
        rw [show x ++ (y ++ z) ++ c :: r = x ++ ((y ++ z) ++ c :: r) by simp only [List.append_assoc]]
        exact slice_pre hp
      have hsl3 : slice (x ++ (y ++ z) ++ c :: r) (pos + count) z.length = .ok z := by
        rw [show x ++ (y ++ z) ++ c :: r = (x ++ y) ++ (z ++ c :: r) by simp only [List.append_assoc]]
        exact slice_app (by rw [List.length_append, hp, hc]) rfl
      rw [hsl1, R.ok_bind, q1, memcpy_pre l1.symm, R.ok_bind]
      change ∃ s', (Except.ok m >>= _) = Except.ok s' ∧ _
      rw [R.ok_bind, q2, memcpy_app hp l2.symm, R.ok_bind, hsl3, R.ok_bind, q3,
        show x ++ (m ++ (a3 ++ d :: b3)) = (x ++ m) ++ (a3 ++ d :: b3) by simp only [List.append_assoc],
        memcpy_app (by rw [List.length_append, hp]) l3.symm, R.ok_bind,
        show x ++ m ++ (z ++ d :: b3) = (x ++ (m ++ z)) ++ d :: b3 by simp only [List.append_assoc],
        wr_app (by simp only [List.length_append]; omega), R.ok_bind]
      refine ⟨_, rfl, good_adopt h7 h.un h.bal _ (0#8 :: b3) t rfl ?_ hc1 hc2 ?_ ?_ (fun _ => rfl)⟩ <;>
        simp only [List.length_append, List.length_cons] <;> omega
    · rw [if_neg g2]
      -- after the shift the buffer is `x`, a hole of the size of the replacement, `z` and the rest
      obtain ⟨hole, q, hh, hq, hsh⟩ : ∃ hole q, hole.length = m.length ∧ x.length + m.length + z.length + q.length = s.capacity C + 1 ∧
          (if m.length > count then shiftUp z.length (x ++ (y ++ z) ++ c :: r) (x.length + z.length + m.length) s.size
            else shiftDown z.length (x ++ (y ++ z) ++ c :: r) (pos + m.length) (pos + count)) = .ok (x ++ (hole ++ (z ++ q))) := by
        by_cases g3 : m.length > count
        · rw [if_pos g3]
          obtain ⟨a, b, e, ha⟩ := cut (l := c :: r) (m.length - count) (by rw [List.length_cons]; omega)
          have hlb : r.length + 1 = m.length - count + b.length := by rw [← List.length_cons (a := c), e, List.length_append, ha]
          obtain ⟨g', hg', hs⟩ := shiftUp_ok (x ++ y) a z b z.length (x.length + z.length + m.length) s.size rfl
            (by rw [List.length_append]; omega) (by omega)
          refine ⟨y ++ g', b, by rw [List.length_append]; omega, by omega, ?_⟩
          rw [e, show x ++ (y ++ z) ++ (a ++ b) = x ++ y ++ (z ++ (a ++ b)) by simp only [List.append_assoc], hs]
          simp only [List.append_assoc]
        · rw [if_neg g3]
          obtain ⟨y1, y2, e, hy1⟩ := cut (l := y) m.length (by omega)
          have hy2 : y.length = m.length + y2.length := by rw [e, List.length_append, hy1]
          obtain ⟨g', hg', hs⟩ := shiftDown_ok (x ++ y1) y2 z (c :: r) z.length (pos + m.length) (pos + count) rfl
            (by rw [List.length_append]; omega) (by rw [List.length_append]; omega)
          refine ⟨y1, g' ++ c :: r, hy1, by rw [List.length_append, List.length_cons]; omega, ?_⟩
          rw [e, show x ++ (y1 ++ y2 ++ z) ++ c :: r = x ++ y1 ++ (y2 ++ (z ++ c :: r)) by simp only [List.append_assoc], hs]
          simp only [List.append_assoc]
      rw [hsh, R.ok_bind]
      unfold copyArg
      dsimp only
      cases q with
      | nil => rw [List.length_nil] at hq; omega
      | cons d q =>
        rw [List.length_cons] at hq
        rw [memcpy_app hp hh.symm, R.ok_bind,
          show x ++ (m ++ (z ++ d :: q)) = (x ++ (m ++ z)) ++ d :: q by simp only [List.append_assoc],
          wr_app (by simp only [List.length_append]; omega), R.ok_bind]
        refine ⟨_, rfl, good_set h _ (0#8 :: q) t rfl ?_ ?_ ?_ (fun _ => rfl)⟩ <;>
          simp only [List.length_append, List.length_cons] <;> omega

/-- `operator+=`; `m` are the characters the argument shows before the call. -/
theorem append_ok {C : Nat} (h7 : 7 ≤ C) {junk : Nat → Chr} {s : Str} {l m : List Chr} {t : Bool} {k : Int}
    (h : Good C s l t k) (a : Arg) (hl : l.length + m.length < 2 ^ 61)
    (ha : a = .ext m ∨ ∃ off, a = .own off m.length ∧ off + m.length ≤ l.length ∧ (l.drop off).take m.length = m) :
    ∃ s', s.append C junk a = .ok s' ∧ Good C s' (l ++ m) true k := by
  unfold Str.append
  obtain ⟨c, r, hb, hlen, ht⟩ := good_buf h
  have hfit := h.fits
  have hhi := h.hi
  have hlo := h.lo
  have hsz := h.size
  have hasz : a.size = m.length := by
    rcases ha with rfl | ⟨off, rfl, _⟩ <;> rfl
  have hby : a.bytes (l ++ c :: r) = .ok m := by
    rcases ha with rfl | ⟨off, rfl, h1, h2⟩
    · rfl
    · change slice (l ++ c :: r) off m.length = .ok m
      unfold slice
      rw [if_pos (by rw [List.length_append]; omega), List.drop_append_of_le_length (by omega),
        List.take_append_of_le_length (by rw [List.length_drop]; omega), h2]
      rfl
  have hca : copyArg (l ++ c :: r) l.length a = memcpy (l ++ c :: r) l.length m := by
    rcases ha with rfl | ⟨off, rfl, h1, h2⟩
    · rfl
    · unfold copyArg
      dsimp only
      rw [if_neg (by omega)]
      have : slice (l ++ c :: r) off m.length = .ok m := hby
      rw [this]
      rfl
  rw [hasz, hsz, show (l.length + m.length) % 2 ^ 64 = l.length + m.length from Nat.mod_eq_of_lt (by omega), hb, R.ok_bind]
  dsimp only
  by_cases g : l.length + m.length ≤ s.capacity C
  · rw [if_pos g, hca]
    obtain ⟨a1, d, b1, q1, l1⟩ := cut_cons (l := c :: r) m.length (by rw [List.length_cons]; omega)
    have hl1 : r.length + 1 = m.length + (b1.length + 1) := by
      rw [← List.length_cons (a := c), q1, List.length_append, l1, List.length_cons]
    rw [q1, memcpy_app rfl l1.symm, R.ok_bind, show l ++ (m ++ d :: b1) = (l ++ m) ++ d :: b1 by simp only [List.append_assoc],
      wr_app (by rw [List.length_append]), R.ok_bind]
    refine ⟨_, rfl, good_set h _ (0#8 :: b1) true rfl ?_ ?_ ?_ (fun _ => rfl)⟩ <;>
      simp only [List.length_append, List.length_cons] <;> omega
  · rw [if_neg g, ccAssert_true (decide_eq_true hlo), R.ok_bind,
      show s.capacity C * 2 % 2 ^ 64 = s.capacity C * 2 from Nat.mod_eq_of_lt (by omega)]
    obtain ⟨cap, hcap, hc1, hc2, hc3⟩ : ∃ cap, (if s.capacity C * 2 < l.length + m.length then l.length + m.length
        else s.capacity C * 2) = cap ∧ C ≤ cap ∧ cap < 2 ^ 62 ∧ l.length + m.length ≤ cap := by
      refine ⟨_, rfl, ?_, ?_, ?_⟩ <;> split <;> omega
    rw [hcap]
    have hnl := newChars_length junk (show cap + 1 < 2 ^ 64 by omega)
    obtain ⟨a1, b1, q1, l1⟩ := cut (l := newChars junk (cap + 1)) l.length (by omega)
    have hb1 : l.length + b1.length = cap + 1 := by rw [← hnl, q1, List.length_append, l1]
    obtain ⟨a2, d, b2, q2, l2⟩ := cut_cons (l := b1) m.length (by omega)
    have hb2 : m.length + (b2.length + 1) = b1.length := by rw [q2, List.length_append, l2, List.length_cons]
    rw [slice_pre rfl, R.ok_bind, q1, memcpy_pre l1.symm, R.ok_bind, hby, R.ok_bind, q2, memcpy_app rfl l2.symm, R.ok_bind,
      show l ++ (m ++ d :: b2) = (l ++ m) ++ d :: b2 by simp only [List.append_assoc],
      wr_app (by rw [List.length_append]), R.ok_bind]
    refine ⟨_, rfl, good_adopt h7 h.un h.bal _ (0#8 :: b2) true rfl ?_ hc1 hc2 ?_ ?_ (fun _ => rfl)⟩ <;>
      simp only [List.length_append, List.length_cons] <;> omega

theorem replacedAt_ok {C : Nat} (h7 : 7 ≤ C) (hC : C < 2 ^ 61) {junk : Nat → Chr} {s : Str} {x y z m : List Chr} {t : Bool} {k : Int}
    (h : Good C s (x ++ (y ++ z)) t k) {pos count : Nat} (hp : pos = x.length) (hc : count = y.length)
    (hl : (x ++ (m ++ z)).length < 2 ^ 61) (a : Arg)
    (ha : a = .ext m ∨ ∃ off, a = .own off m.length ∧ off + m.length ≤ (x ++ (y ++ z)).length ∧ ((x ++ (y ++ z)).drop off).take m.length = m) :
    ∃ s', s.replacedAt C junk pos count a = .ok s' ∧ Good C s' (x ++ (m ++ z)) true 0 := by
  unfold Str.replacedAt
  obtain ⟨r, hb, hlen, _⟩ := h.ex
  have hfit := h.fits
  have hhi := h.hi
  have hsz := h.size
  have hasz : a.size = m.length := by
    rcases ha with rfl | ⟨off, rfl, _⟩ <;> rfl
  have hby : a.bytes ((x ++ (y ++ z)) ++ r) = .ok m := by
    rcases ha with rfl | ⟨off, rfl, h1, h2⟩
    · rfl
    · change slice ((x ++ (y ++ z)) ++ r) off m.length = .ok m
      unfold slice
      rw [if_pos (by rw [List.length_append]; omega), List.drop_append_of_le_length (by omega),
        List.take_append_of_le_length (by rw [List.length_drop]; omega), h2]
      rfl
  simp only [List.length_append] at hlen hfit hsz hl
  have hm1 : (pos + count) % 2 ^ 64 = pos + count := Nat.mod_eq_of_lt (by omega)
  have e1 : sub64 s.size count = x.length + z.length := by rw [sub64_ok (by omega) (by omega)]; omega
  have e2 : (sub64 s.size count + a.size) % 2 ^ 64 = x.length + z.length + m.length := by
    rw [e1, hasz]; exact Nat.mod_eq_of_lt (by omega)
  have e3 : sub64 (sub64 s.size count) pos = z.length := by rw [e1, sub64_ok (by omega) (by omega)]; omega
  obtain ⟨u, l0, h1, h2, h3⟩ := uninitialized_ok h7 hC junk (x.length + z.length + m.length) (by omega)
  obtain ⟨q, hq, hql, hqt⟩ := h3.ex
  have hqf := h3.fits
  rw [ccAssert_true (decide_eq_true (by omega)), R.ok_bind, hm1, ccAssert_true (decide_eq_true (by omega)), R.ok_bind,
    e2, e3, h1, R.ok_bind, hb, R.ok_bind, hq, R.ok_bind, hasz]
  have hsl1 : slice (x ++ (y ++ z) ++ r) 0 pos = .ok x := by
    rw [show x ++ (y ++ z) ++ r = x ++ ((y ++ z) ++ r) by simp only [List.append_assoc]]
    exact slice_pre hp
  have hsl3 : slice (x ++ (y ++ z) ++ r) (pos + count) z.length = .ok z := by
    rw [show x ++ (y ++ z) ++ r = (x ++ y) ++ (z ++ r) by simp only [List.append_assoc]]
    exact slice_app (by rw [List.length_append, hp, hc]) rfl
  obtain ⟨a1, b1, q1, l1⟩ := cut (l := l0) x.length (by omega)
  have hb1 : x.length + b1.length = l0.length := by rw [q1, List.length_append, l1]
  obtain ⟨a2, b2, q2, l2⟩ := cut (l := b1) m.length (by omega)
  have hb2 : m.length + b2.length = b1.length := by rw [q2, List.length_append, l2]
  have hu := h3.size
  rw [hsl1, R.ok_bind, q1, show a1 ++ b1 ++ q = a1 ++ (b1 ++ q) by simp only [List.append_assoc], memcpy_pre l1.symm, R.ok_bind,
    hby, R.ok_bind, q2, show x ++ (a2 ++ b2 ++ q) = x ++ (a2 ++ (b2 ++ q)) by simp only [List.append_assoc],
    memcpy_app hp l2.symm, R.ok_bind, hsl3, R.ok_bind,
    show x ++ (m ++ (b2 ++ q)) = (x ++ m) ++ (b2 ++ q) by simp only [List.append_assoc],
    memcpy_app (by rw [List.length_append, hp]) (by omega), R.ok_bind]
  refine ⟨_, rfl, good_set' h3 _ q true (by simp only [List.append_assoc]) ?_ ?_ ?_ hqt⟩ <;>
    simp only [List.length_append] <;> omega

theorem concat_ok {C : Nat} (h7 : 7 ≤ C) (hC : C < 2 ^ 61) {junk : Nat → Chr} {s : Str} {l m : List Chr} {t : Bool} {k : Int}
    (h : Good C s l t k) (hl : m.length + l.length < 2 ^ 61) :
    ∃ s', concat C junk m s = .ok s' ∧ Good C s' (m ++ l) true 0 := by
  unfold concat
  obtain ⟨r, hb, hlen, _⟩ := h.ex
  have hsz := h.size
  obtain ⟨u, l0, h1, h2, h3⟩ := uninitialized_ok h7 hC junk (m.length + l.length) hl
  obtain ⟨q, hq, hql, hqt⟩ := h3.ex
  have hqf := h3.fits
  have hu := h3.size
  obtain ⟨a1, b1, q1, l1⟩ := cut (l := l0) m.length (by omega)
  have hb1 : m.length + b1.length = l0.length := by rw [q1, List.length_append, l1]
  rw [hsz, show (m.length + l.length) % 2 ^ 64 = m.length + l.length from Nat.mod_eq_of_lt (by omega), h1, R.ok_bind, hq, R.ok_bind,
    q1, show a1 ++ b1 ++ q = a1 ++ (b1 ++ q) by simp only [List.append_assoc], memcpy_pre l1.symm, R.ok_bind, hb, R.ok_bind,
    slice_pre rfl, R.ok_bind, memcpy_app rfl (by omega), R.ok_bind]
  refine ⟨_, rfl, good_set' h3 _ q true (by simp only [List.append_assoc]) ?_ ?_ ?_ hqt⟩ <;>
    simp only [List.length_append] <;> omega

theorem substring_ok {C : Nat} (h7 : 7 ≤ C) (hC : C < 2 ^ 61) {junk : Nat → Chr} {s : Str} {l : List Chr} {t : Bool} {k : Int}
    (h : Good C s l t k) {off n : Nat} (ho : off + n ≤ l.length) (hn : n < 2 ^ 61) :
    ∃ s', s.substring C junk off n = .ok s' ∧ Good C s' ((l.drop off).take n) true 0 := by
  unfold Str.substring
  obtain ⟨r, hv, hin, hch⟩ := view_ok h
  rw [hv, R.ok_bind, StrView.subview_ok hin ho, R.ok_bind]
  have : slice (l ++ r) (0 + off) n = .ok ((l.drop off).take n) := by
    unfold slice
    rw [Nat.zero_add, if_pos (by rw [List.length_append]; omega), List.drop_append_of_le_length (by omega),
      List.take_append_of_le_length (by rw [List.length_drop]; omega)]
    rfl
  dsimp only
  rw [this, R.ok_bind]
  exact fromView_ok h7 hC junk _ (by rw [List.length_take]; omega)

theorem get_ok {C : Nat} {s : Str} {l : List Chr} {t : Bool} {k : Int} (h : Good C s l t k) {i : Nat} {c : Chr} (hc : l[i]? = some c) :
    s.get i = .ok c := by
  obtain ⟨r, hb, _, _⟩ := h.ex
  have hi := (List.getElem?_eq_some_iff.mp hc).1
  unfold Str.get
  rw [h.size, ccAssert_true (decide_eq_true hi), R.ok_bind, hb, R.ok_bind]
  unfold rd
  rw [List.getElem?_append_left hi, hc]

theorem chars_ok {C : Nat} {s : Str} {l : List Chr} {t : Bool} {k : Int} (h : Good C s l t k) : s.chars = .ok l := by
  obtain ⟨r, hb, _, _⟩ := h.ex
  unfold Str.chars
  rw [hb, R.ok_bind, h.size]
  exact slice_pre rfl

theorem cstr_ok {C : Nat} {s : Str} {l : List Chr} {k : Int} (h : Good C s l true k) : s.cstrUpTo s.size = .ok (l ++ [0#8]) := by
  obtain ⟨c, r, hb, _, hc⟩ := good_buf h
  unfold Str.cstrUpTo
  rw [hb, R.ok_bind, h.size, hc rfl, show l ++ 0#8 :: r = (l ++ [0#8]) ++ r by simp]
  exact slice_pre (by rw [List.length_append]; rfl)

end Verif.Str
