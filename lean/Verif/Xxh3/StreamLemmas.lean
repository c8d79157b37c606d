import Verif.Xxh3.StreamSpec
import Verif.Xxh3.Long

/-! The streaming state and the message so far. -/
namespace Verif.Xxh3
open Spec

theorem at'_append_left {a b : Mem} {i : Nat} (h : i < a.length) : at' (a ++ b) i = at' a i := by
  unfold at'; simp [List.getD_eq_getElem?_getD, List.getElem?_append_left h]

theorem at'_append_right {a b : Mem} {i : Nat} (h : a.length ≤ i) : at' (a ++ b) i = at' b (i - a.length) := by
  unfold at'; simp [List.getD_eq_getElem?_getD, List.getElem?_append_right h]

theorem at'_take {a : Mem} {n i : Nat} (h : i < n) : at' (a.take n) i = at' a i := by
  unfold at'
  simp [List.getD_eq_getElem?_getD, h]

theorem at'_drop {a : Mem} {n i : Nat} : at' (a.drop n) i = at' a (n + i) := by
  unfold at'
  simp [List.getD_eq_getElem?_getD, List.getElem?_drop]

theorem copyTo_ok {m src : Mem} {i : Nat} (h : i + src.length ≤ m.length) :
    ∃ r, copyTo m i src = .ok r ∧ r.length = m.length ∧ ∀ j, at' r j = if i ≤ j ∧ j < i + src.length then at' src (j - i) else at' m j := by
  refine ⟨m.take i ++ src ++ m.drop (i + src.length), by unfold copyTo; rw [if_pos h], by simp; omega, fun j => ?_⟩
  have l1 : (m.take i).length = i := by rw [List.length_take]; omega
  have l2 : (m.take i ++ src).length = i + src.length := by rw [List.length_append, l1]
  by_cases h1 : j < i
  · rw [if_neg (by omega), at'_append_left (by omega), at'_append_left (by omega), at'_take h1]
  · by_cases h2 : j < i + src.length
    · rw [if_pos ⟨by omega, h2⟩, at'_append_left (by omega), at'_append_right (by omega), l1]
    · rw [if_neg (by omega), at'_append_right (by omega), l2, at'_drop]
      congr 1; omega

theorem slice_ok {m : Mem} {i n : Nat} (h : i + n ≤ m.length) : ∃ r, slice m i n = .ok r ∧ r.length = n ∧ ∀ j, j < n → at' r j = at' m (i + j) := by
  refine ⟨(m.drop i).take n, by unfold slice; rw [if_pos h], by simp; omega, fun j hj => ?_⟩
  rw [at'_take hj, at'_drop]

theorem stripes_congr {wd : Width} {sec : Mem} {size : Nat} {m m' : Mem} : ∀ n, (∀ j, j < 64 * n → at' m j = at' m' j) → stripes wd sec size m n = stripes wd sec size m' n
  | 0, _ => rfl
  | n + 1, h => by
    rw [stripes, stripes, stripes_congr n (fun j hj => h j (by omega)), absorb_congr (fun j hj => h (64 * n + j) (by omega))]

theorem consumeStripes_ok (cfg : Cfg) {wd : Width} {msg input sec : Mem} {size N i T L : Nat} (hz : 136 ≤ size) (hs : size ≤ sec.length) (hL : L = size - 64) (hT : T ≤ 8)
    (hi : i + 64 * T ≤ input.length) (hb : ∀ j, j < 64 * T → at' input (i + j) = at' msg (64 * N + j)) :
    consumeStripes cfg wd (stripes wd sec size msg N) (N % rounds size) (rounds size) input i T sec L = .ok (stripes wd sec size msg (N + T), (N + T) % rounds size) := by
  have h9 := rounds_pos hz
  have hr : rounds size * 8 + 64 ≤ size := by unfold rounds; omega
  have hlt : N % rounds size < rounds size := Nat.mod_lt _ (by omega)
  subst hL
  unfold consumeStripes
  rw [xassert_ok (.inr (by simp [hlt])), R.ok_bind, show SECRET_CONSUME_RATE = 8 from rfl, show STRIPE_LEN = 64 from rfl]
  by_cases h : rounds size - N % rounds size ≤ T
  · rw [if_pos h]
    dsimp only
    rw [accumulate_ok cfg _ _ _ (stripes_length _ _ _ _ _) (by omega) (by omega), R.ok_bind,
      scrambleAcc_ok cfg (absorbs_length _ _ _ _ _ _ _ _ (stripes_length _ _ _ _ _)) (by omega), R.ok_bind,
      absorbs_eq _ 0 N (by omega) (by omega) (by omega) (fun j hj => by rw [Nat.zero_mul, Nat.add_zero]; exact hb j (by omega))]
    have e0 : (N + (rounds size - N % rounds size)) % rounds size = 0 := by
      have e : N + (rounds size - N % rounds size) = rounds size * (N / rounds size) + rounds size * 1 := by
        have := Nat.div_add_mod N (rounds size); omega
      rw [e, ← Nat.mul_add, Nat.mul_mod_right]
    rw [accumulate_ok cfg _ _ _ (stripes_length _ _ _ _ _) (by omega) (by omega), R.ok_bind,
      absorbs_lt _ 0 (N + (rounds size - N % rounds size)) (by omega) (by omega) (fun j hj => by
        rw [Nat.zero_mul, Nat.add_zero, Nat.add_assoc, hb _ (by omega)]
        congr 1; omega)]
    have e1 : N + T = (N + (rounds size - N % rounds size)) + (T - (rounds size - N % rounds size)) := by omega
    have e2 : (N + T) % rounds size = T - (rounds size - N % rounds size) := by
      rw [e1, Nat.add_mod, e0, Nat.zero_add, Nat.mod_mod, Nat.mod_eq_of_lt (by omega)]
    rw [e2, ← e1]
  · rw [if_neg h]
    rw [accumulate_ok cfg _ _ _ (stripes_length _ _ _ _ _) (by omega) (by omega), R.ok_bind,
      absorbs_lt _ 0 N (by omega) (by omega) (fun j hj => by rw [Nat.zero_mul, Nat.add_zero]; exact hb j (by omega))]
    have e2 : (N + T) % rounds size = N % rounds size + T := by
      rw [Nat.add_mod, Nat.mod_eq_of_lt (a := T) (by omega), Nat.mod_eq_of_lt (by omega)]
    rw [e2]

/-- What the state says about the message: `C` bytes are in the accumulators, the rest in the buffer. -/
structure Inv (wd : Width) (s : State) (sec : Mem) (size : Nat) (msg : Mem) (fresh : Prop) (C : Nat) : Prop where
  c256 : C % 256 = 0
  total : C + s.bufferedSize = msg.length
  le : s.bufferedSize ≤ 256
  acc : s.acc = stripes wd sec size msg (C / 64)
  soFar : s.nbStripesSoFar = C / 64 % rounds size
  buf : s.buffer.length = 256
  data : ∀ j, j < s.bufferedSize → at' s.buffer j = at' msg (C + j)
  old : fresh → 0 < C → ∀ j, s.bufferedSize ≤ j → j < 256 → at' s.buffer j = at' msg (C - 256 + j)
  long : 0 < C → 256 < msg.length
  per : s.nbStripesPerBlock = rounds size
  limit : s.secretLimit = size - 64
  len : s.totalLen = BitVec.ofNat 64 msg.length

theorem directLoop_ok (cfg : Cfg) {wd : Width} {msg input sec : Mem} {size L B : Nat} (hz : 136 ≤ size) (hs : size ≤ sec.length) (hL : L = size - 64)
    (hm : ∀ j, j < input.length → at' input j = at' msg (B + j)) : ∀ (fuel i N : Nat), 64 * N = B + i → i ≤ input.length → input.length < i + 256 * fuel + 256 →
    ∃ k, directLoop cfg wd (rounds size) input sec L fuel i (stripes wd sec size msg N) (N % rounds size) =
      .ok (stripes wd sec size msg (N + 4 * k), (N + 4 * k) % rounds size, i + 256 * k) ∧ i + 256 * k ≤ input.length ∧ input.length < i + 256 * k + 256 := by
  intro fuel
  induction fuel with
  | zero => exact fun i N _ hi hf => ⟨0, by rw [directLoop]; simp, by omega, by omega⟩
  | succ fuel ih =>
    intro i N hN hi hf
    rw [directLoop, show BUFFER_SIZE = 256 from rfl, show STRIPE_LEN = 64 from rfl]
    by_cases h : i + 256 ≤ input.length
    · rw [if_pos h, consumeStripes_ok cfg hz hs hL (by omega) (by omega) (fun j hj => by rw [hm _ (by omega), hN, Nat.add_assoc]), R.ok_bind]
      dsimp only
      obtain ⟨k, e, h1, h2⟩ := ih (i + 256) (N + 4) (by omega) h (by omega)
      have e1 : N + 4 + 4 * k = N + 4 * (k + 1) := by omega
      have e2 : i + 256 + 256 * k = i + 256 * (k + 1) := by rw [Nat.mul_succ]; omega
      rw [e1, e2] at e
      rw [e2] at h1 h2
      exact ⟨k + 1, e, h1, h2⟩
    · rw [if_neg h]
      exact ⟨0, by simp, by omega, by omega⟩

theorem update_ok (cfg : Cfg) {wd : Width} {s : State} {sec : Mem} {size : Nat} {msg input : Mem} {fresh : Prop} {C : Nat} (hz : 136 ≤ size) (hs : size ≤ sec.length)
    (h : Inv wd s sec size msg fresh C) :
    ∃ s' C', update cfg wd s sec input = .ok s' ∧ Inv wd s' sec size (msg ++ input) (fresh ∧ input.length < 256) C' ∧
      s'.secret = s.secret ∧ s'.seed = s.seed ∧ s'.customSecret = s.customSecret := by
  have hc := h.c256
  have ht := h.total
  have hle := h.le
  have hl : (msg ++ input).length = msg.length + input.length := List.length_append
  have h64 : 64 * (C / 64) = C := by omega
  have cg : ∀ n, 64 * n ≤ msg.length → stripes wd sec size msg n = stripes wd sec size (msg ++ input) n := fun n hn =>
    stripes_congr n fun j hj => (at'_append_left (by omega)).symm
  have hlen : s.totalLen + BitVec.ofNat 64 input.length = BitVec.ofNat 64 (msg ++ input).length := by
    rw [h.len, hl]; apply BitVec.eq_of_toNat_eq; simp [BitVec.toNat_add, BitVec.toNat_ofNat]
  have hin : ∀ j, j < input.length → at' input j = at' (msg ++ input) (msg.length + j) := fun j _ => by
    rw [at'_append_right (by omega), Nat.add_sub_cancel_left]
  unfold update
  dsimp only
  rw [show BUFFER_SIZE = 256 from rfl, show STRIPE_LEN = 64 from rfl, show 256 / 64 = 4 from rfl]
  by_cases h1 : s.bufferedSize + input.length ≤ 256
  · rw [if_pos h1]
    obtain ⟨b, eb, lb, vb⟩ := copyTo_ok (m := s.buffer) (src := input) (i := s.bufferedSize) (by rw [h.buf]; exact h1)
    rw [eb, R.ok_bind]
    refine ⟨_, C, rfl, ⟨hc, ?_, h1, ?_, h.soFar, lb.trans h.buf, ?_, ?_, fun h0 => ?_, h.per, h.limit, hlen⟩, rfl, rfl, rfl⟩
    · show C + (s.bufferedSize + input.length) = _; omega
    · show s.acc = _; rw [h.acc, cg _ (by omega)]
    · intro j hj
      have hj : j < s.bufferedSize + input.length := hj
      show at' b j = _
      rw [vb]
      by_cases hj1 : j < s.bufferedSize
      · rw [if_neg (by omega), h.data j hj1, at'_append_left (by omega)]
      · rw [if_pos ⟨by omega, hj⟩, hin _ (by omega)]
        exact congrArg _ (by omega)
    · intro hf h0 j hj1 hj2
      have hj1 : s.bufferedSize + input.length ≤ j := hj1
      show at' b j = _
      rw [vb, if_neg (by omega), h.old hf.1 h0 j (by omega) hj2, at'_append_left (by omega)]
    · have := h.long h0; omega
  · rw [if_neg h1]
    by_cases h2 : s.bufferedSize = 0
    · rw [if_neg (by simp [h2]), R.ok_bind]
      dsimp only
      obtain ⟨k, ek, k1, k2⟩ := directLoop_ok cfg (wd := wd) (msg := msg ++ input) (L := s.secretLimit) hz hs h.limit hin input.length 0 (C / 64) (by omega) (by omega) (by omega)
      rw [h.acc, cg _ (by omega), h.soFar, h.per, ek, R.ok_bind]
      dsimp only
      rw [Nat.zero_add] at k1 k2 ⊢
      have eN : C / 64 + 4 * k = (C + 256 * k) / 64 := by omega
      have hk : 0 < k := by omega
      by_cases h3 : 256 * k < input.length
      · rw [if_pos h3]
        obtain ⟨d, ed, ld, vd⟩ := slice_ok (m := input) (i := 256 * k) (n := input.length - 256 * k) (by omega)
        obtain ⟨b, eb, lb, vb⟩ := copyTo_ok (m := s.buffer) (src := d) (i := 0) (by rw [h.buf, ld]; omega)
        rw [ed, R.ok_bind, eb, R.ok_bind]
        refine ⟨_, C + 256 * k, rfl, ⟨by omega, ?_, ?_, ?_, ?_, lb.trans h.buf, ?_, fun hf => ?_, fun h0 => ?_, rfl, h.limit, hlen⟩, rfl, rfl, rfl⟩
        · show C + 256 * k + (input.length - 256 * k) = _; omega
        · show input.length - 256 * k ≤ 256; omega
        · show stripes _ _ _ _ _ = _; rw [eN]
        · show (_ : Nat) % _ = _; rw [eN]
        · intro j hj
          have hj : j < input.length - 256 * k := hj
          show at' b j = _
          rw [vb, if_pos ⟨by omega, by rw [ld]; omega⟩, Nat.sub_zero, vd j hj, hin _ (by omega)]
          exact congrArg _ (by omega)
        · have := hf.2; omega
        · omega
      · rw [if_neg h3]
        refine ⟨_, C + 256 * k, rfl, ⟨by omega, ?_, ?_, ?_, ?_, h.buf, ?_, fun hf => ?_, fun h0 => ?_, rfl, h.limit, hlen⟩, rfl, rfl, rfl⟩
        · show C + 256 * k + s.bufferedSize = _; omega
        · show s.bufferedSize ≤ 256; omega
        · show stripes _ _ _ _ _ = _; rw [eN]
        · show (_ : Nat) % _ = _; rw [eN]
        · intro j hj
          have hj : j < s.bufferedSize := hj
          omega
        · have := hf.2; omega
        · omega
    · rw [if_pos (by simpa using h2)]
      obtain ⟨d, ed, ld, vd⟩ := slice_ok (m := input) (i := 0) (n := 256 - s.bufferedSize) (by omega)
      obtain ⟨b, eb, lb, vb⟩ := copyTo_ok (m := s.buffer) (src := d) (i := s.bufferedSize) (by rw [h.buf, ld]; omega)
      have hb : ∀ j, j < 256 → at' b j = at' (msg ++ input) (C + j) := by
        intro j hj
        rw [vb]
        by_cases hj1 : j < s.bufferedSize
        · rw [if_neg (by omega), h.data j hj1, at'_append_left (by omega)]
        · rw [if_pos ⟨by omega, by omega⟩, vd _ (by omega), hin _ (by omega)]
          exact congrArg _ (by omega)
      have ec := consumeStripes_ok cfg (wd := wd) (msg := msg ++ input) (input := b) (sec := sec) (size := size) (N := C / 64) (i := 0) (T := 4) (L := s.secretLimit) hz hs h.limit (by omega)
        (by rw [lb, h.buf]; omega) (fun j hj => by rw [Nat.zero_add, h64]; exact hb j (by omega))
      rw [ed, R.ok_bind, eb, R.ok_bind, h.acc, cg _ (by omega), h.soFar, h.per, ec, R.ok_bind]
      dsimp only
      rw [R.ok_bind]
      dsimp only
      obtain ⟨k, ek, k1, k2⟩ := directLoop_ok cfg (wd := wd) (msg := msg ++ input) (L := s.secretLimit) hz hs h.limit hin input.length (256 - s.bufferedSize) (C / 64 + 4)
        (by omega) (by omega) (by omega)
      rw [ek, R.ok_bind]
      dsimp only
      have eN : C / 64 + 4 + 4 * k = (C + 256 + 256 * k) / 64 := by omega
      generalize hI : 256 - s.bufferedSize + 256 * k = I at *
      have hCI : C + 256 + 256 * k = msg.length + I := by omega
      by_cases h3 : I < input.length
      · rw [if_pos h3]
        obtain ⟨d', ed', ld', vd'⟩ := slice_ok (m := input) (i := I) (n := input.length - I) (by omega)
        obtain ⟨b', eb', lb', vb'⟩ := copyTo_ok (m := b) (src := d') (i := 0) (by rw [lb, h.buf, ld']; omega)
        rw [ed', R.ok_bind, eb', R.ok_bind]
        refine ⟨_, C + 256 + 256 * k, rfl, ⟨by omega, ?_, ?_, ?_, ?_, lb'.trans (lb.trans h.buf), ?_, ?_, fun h0 => ?_, rfl, h.limit, hlen⟩, rfl, rfl, rfl⟩
        · show C + 256 + 256 * k + (input.length - I) = _; omega
        · show input.length - I ≤ 256; omega
        · show stripes _ _ _ _ _ = _; rw [eN]
        · show (_ : Nat) % _ = _; rw [eN]
        · intro j hj
          have hj : j < input.length - I := hj
          show at' b' j = _
          rw [vb', if_pos ⟨by omega, by rw [ld']; omega⟩, Nat.sub_zero, vd' j hj, hin _ (by omega)]
          exact congrArg _ (by omega)
        · intro hf _ j hj1 hj2
          have hj1 : input.length - I ≤ j := hj1
          have := hf.2
          have hk : k = 0 := by omega
          subst hk
          show at' b' j = _
          rw [vb', if_neg (by omega), hb j hj2]
          exact congrArg _ (by omega)
        · omega
      · rw [if_neg h3]
        refine ⟨_, C + 256 + 256 * k, rfl, ⟨by omega, ?_, ?_, ?_, ?_, lb.trans h.buf, ?_, ?_, fun h0 => ?_, rfl, h.limit, hlen⟩, rfl, rfl, rfl⟩
        · show C + 256 + 256 * k + 0 = _; omega
        · show 0 ≤ 256; omega
        · show stripes _ _ _ _ _ = _; rw [eN]
        · show (_ : Nat) % _ = _; rw [eN]
        · intro j hj
          exact absurd hj (Nat.not_lt_zero _)
        · intro hf _ j hj1 hj2
          have := hf.2
          have hk : k = 0 := by omega
          subst hk
          show at' b j = _
          rw [hb j hj2]
          exact congrArg _ (by omega)
        · omega

theorem digest_long_ok (cfg : Cfg) {wd : Width} {s : State} {sec : Mem} {size : Nat} {msg : Mem} {fresh : Prop} {C : Nat} (hz : 136 ≤ size) (hs : size ≤ sec.length)
    (h : Inv wd s sec size msg fresh C) (hl : 240 < msg.length) (hf : fresh ∨ msg.length ≤ 256 ∨ msg.length % 256 = 0 ∨ 64 ≤ msg.length % 256) :
    digest_long cfg wd s sec = .ok (longAcc wd sec size msg msg.length) := by
  have hc := h.c256
  have ht := h.total
  have hle := h.le
  have h64 : 64 * (C / 64) = C := by omega
  unfold digest_long longAcc
  dsimp only
  rw [show BUFFER_SIZE = 256 from rfl, show STRIPE_LEN = 64 from rfl]
  by_cases h1 : 64 ≤ s.bufferedSize
  · rw [if_pos h1, h.acc, h.soFar, h.per, consumeStripes_ok cfg (msg := msg) hz hs h.limit (by omega) (by rw [h.buf]; omega)
      (fun j hj => by rw [Nat.zero_add, h64]; exact h.data j (by omega)), R.ok_bind]
    dsimp only
    rw [show C / 64 + s.bufferedSize / 64 = msg.length / 64 by omega]
    by_cases h2 : s.bufferedSize % 64 = 0
    · rw [if_neg (by simp [h2]), if_pos (by omega)]
    · rw [if_pos h2, if_neg (by omega), accumulate_512_ok cfg (stripes_length _ _ _ _ _) (by rw [h.buf]; omega) (by rw [h.limit]; omega), h.limit,
        show size - 64 - 7 = size - 71 by omega]
      congr 1
      exact absorb_congr fun j hj => by rw [h.data _ (by omega)]; exact congrArg _ (by omega)
  · rw [if_neg h1]
    by_cases h2 : s.bufferedSize = 0
    · rw [if_neg (by simp [h2]), if_pos (by omega), h.acc, show C / 64 = msg.length / 64 by omega]
    · rw [if_pos h2, if_neg (by omega)]
      have hC : 0 < C := by omega
      have hlong := h.long hC
      have hfresh : fresh := by
        rcases hf with hf | hf | hf | hf
        · exact hf
        · omega
        · omega
        · omega
      obtain ⟨a, ea, la, va⟩ := slice_ok (m := s.buffer) (i := 256 - (64 - s.bufferedSize)) (n := 64 - s.bufferedSize) (by rw [h.buf]; omega)
      obtain ⟨b, eb, lb, vb⟩ := slice_ok (m := s.buffer) (i := 0) (n := s.bufferedSize) (by rw [h.buf]; omega)
      rw [ea, R.ok_bind, eb, R.ok_bind, h.acc, accumulate_512_ok cfg (stripes_length _ _ _ _ _) (by rw [List.length_append]; omega) (by rw [h.limit]; omega), h.limit,
        show size - 64 - 7 = size - 71 by omega, show C / 64 = msg.length / 64 by omega]
      congr 1
      refine absorb_congr fun j hj => ?_
      rw [Nat.zero_add]
      by_cases hj1 : j < 64 - s.bufferedSize
      · rw [at'_append_left (by omega), va j hj1, h.old hfresh hC _ (by omega) (by omega)]
        exact congrArg _ (by omega)
      · rw [at'_append_right (by omega), vb _ (by omega), Nat.zero_add, h.data _ (by omega)]
        exact congrArg _ (by omega)

end Verif.Xxh3
