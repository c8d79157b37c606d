import Verif.Xxh64.Lemmas64

/-! The 32 bit variant: at once and streaming. -/
namespace Verif.Xxh64
open Verif.Xxh3 (Byte U32 U64 Mem rd8 swap32 swap64 read32 read64 readLE32 readLE64 copyTo slice bytesOf rotl64 PRIME32_1 PRIME32_2 PRIME32_3 PRIME64_1 PRIME64_2 PRIME64_3 PRIME64_4 PRIME64_5)
open Verif.Xxh3 (rd8_ok readLE32_ok readLE64_ok le32_congr le64_congr copyTo_ok slice_ok at'_append_left at'_append_right at'_take at'_drop ext_at)
open Verif.Xxh3.Spec (at' le32 le64)
open Spec

/-! ### what remains -/

section
attribute [local irreducible] word32 byte32

theorem rest32_step4 (h : U32) (a b c d : Byte) (r : Mem) : rest32 h (a :: b :: c :: d :: r) = rest32 (word32 h (d ++ c ++ b ++ a : BitVec 32)) r := rfl

theorem rest32_step1 (h : U32) (a : Byte) {r : Mem} (hr : r.length < 3) : rest32 h (a :: r) = rest32 (byte32 h a) r := by
  match r, hr with
  | [], _ => rfl
  | [_], _ => rfl
  | [_, _], _ => rfl
  | _ :: _ :: _ :: _, hl => simp only [List.length_cons] at hl; omega

end

theorem rest32_4 (h : U32) {m : Mem} {i n : Nat} (hn : 4 ≤ n) (hi : i + n ≤ m.length) :
    rest32 h ((m.drop i).take n) = rest32 (word32 h (le32 m i)) ((m.drop (i + 4)).take (n - 4)) := by
  obtain ⟨k, rfl⟩ : ∃ k, n = k + 4 := ⟨n - 4, by omega⟩
  rw [show k + 4 = k + 1 + 1 + 1 + 1 from rfl, take_drop_cons (by omega), take_drop_cons (by omega), take_drop_cons (by omega), take_drop_cons (by omega), rest32_step4]
  rfl

theorem rest32_1 (h : U32) {m : Mem} {i n : Nat} (hn : 1 ≤ n) (h4 : n < 4) (hi : i + n ≤ m.length) :
    rest32 h ((m.drop i).take n) = rest32 (byte32 h (at' m i)) ((m.drop (i + 1)).take (n - 1)) := by
  obtain ⟨k, rfl⟩ : ∃ k, n = k + 1 := ⟨n - 1, by omega⟩
  rw [take_drop_cons (by omega)]
  have hl : ((m.drop (i + 1)).take k).length < 3 := by rw [List.length_take]; omega
  rw [Nat.add_sub_cancel, rest32_step1 h _ hl]

theorem q4_ok (cfg : Cfg) {al : Align} {b : Block} {h : U32} {i : Nat} (ha : al = .aligned → (b.addr + i) % 4 = 0) (hi : i + 4 ≤ b.mem.length) :
    process32 cfg al b .p4 (h, i) = .ok (word32 h (le32 b.mem i), i + 4) := by
  rw [process32, readAl32_ok cfg ha hi]; rfl

theorem q1_ok (cfg : Cfg) {al : Align} {b : Block} {h : U32} {i : Nat} (hi : i + 1 ≤ b.mem.length) :
    process32 cfg al b .p1 (h, i) = .ok (byte32 h (at' b.mem i), i + 1) := by
  rw [process32, rd8_ok (by omega)]; rfl

/-- The steps for `n` bytes, at most `fuel`. -/
def plan32 : Nat → Nat → List Line
  | 0, _ => []
  | f + 1, n => if 4 ≤ n then .p4 :: plan32 f (n - 4) else if 1 ≤ n then .p1 :: plan32 f (n - 1) else []

theorem jump32 : ∀ n, n < 16 → jump n switch32 = some (plan32 16 n) := by decide

theorem plan32_ok (cfg : Cfg) {al : Align} {b : Block} : ∀ (f n : Nat) (h : U32) (i : Nat), n ≤ f → i + n ≤ b.mem.length → (al = .aligned → (b.addr + i) % 4 = 0 ∨ n < 4) →
    processAll32 cfg al b (plan32 f n) (h, i) = .ok (rest32 h ((b.mem.drop i).take n), i + n) ∧ rerolled32 cfg al b f n (h, i) = .ok (rest32 h ((b.mem.drop i).take n), i + n) := by
  intro f
  induction f with
  | zero =>
    intro n h i hn _ _
    obtain rfl : n = 0 := by omega
    rw [List.take_zero]; exact ⟨rfl, rfl⟩
  | succ f ih =>
    intro n h i hn hi ha
    rw [plan32, rerolled32]
    by_cases h4 : 4 ≤ n
    · obtain ⟨e1, e2⟩ := ih (n - 4) (word32 h (le32 b.mem i)) (i + 4) (by omega) (by omega) (fun e => by have := ha e; omega)
      rw [if_pos h4, if_pos h4, processAll32, q4_ok cfg (fun e => by have := ha e; omega) (by omega), R.ok_bind, R.ok_bind, e1, e2, rest32_4 h h4 hi, show i + 4 + (n - 4) = i + n by omega]
      exact ⟨rfl, rfl⟩
    · rw [if_neg h4, if_neg h4]
      by_cases h1 : 1 ≤ n
      · obtain ⟨e1, e2⟩ := ih (n - 1) (byte32 h (at' b.mem i)) (i + 1) (by omega) (by omega) (fun e => by omega)
        rw [if_pos h1, if_pos (show 0 < n by omega), processAll32, q1_ok cfg (by omega), R.ok_bind, R.ok_bind, e1, e2, rest32_1 h h1 (by omega) hi, show i + 1 + (n - 1) = i + n by omega]
        exact ⟨rfl, rfl⟩
      · rw [if_neg h1, if_neg (show ¬ 0 < n by omega)]
        obtain rfl : n = 0 := by omega
        rw [List.take_zero]; exact ⟨rfl, rfl⟩

theorem finalize32_ok (cfg : Cfg) {al : Align} {b : Block} (h : U32) {i len : Nat} (hi : i + len % 16 ≤ b.mem.length) (ha : al = .aligned → (b.addr + i) % 4 = 0) :
    finalize32 cfg h b i len al = .ok (avalanche32 (rest32 h ((b.mem.drop i).take (len % 16)))) := by
  have hl : len % 16 < 16 := Nat.mod_lt _ (by omega)
  unfold finalize32
  generalize len % 16 = n at *
  obtain ⟨e1, e2⟩ := plan32_ok cfg (al := al) (b := b) 16 n h i (by omega) hi (fun e => .inl (ha e))
  by_cases hr : cfg.reroll = true
  · rw [if_pos hr, e2, R.ok_bind]
  · rw [if_neg hr, jump32 n hl]
    dsimp only
    rw [e1, R.ok_bind]

/-! ### the accumulators -/

/-- All four after `n` stripes. -/
def accs32 (seed : U32) (m : Mem) (n : Nat) : Acc32 :=
  ⟨lane32 m 0 (seed + PRIME32_1 + PRIME32_2) n, lane32 m 1 (seed + PRIME32_2) n, lane32 m 2 seed n, lane32 m 3 (seed - PRIME32_1) n⟩

theorem accs32_zero (seed : U32) (m : Mem) : accs32 seed m 0 = start32 seed := by
  unfold start32
  rw [show seed + 0#32 = seed from BitVec.add_zero seed]
  rfl

theorem lane32_congr {m m' : Mem} {l : Nat} {x : U32} (hl : l < 4) : ∀ n, (∀ j, j < 16 * n → at' m j = at' m' j) → lane32 m l x n = lane32 m' l x n
  | 0, _ => rfl
  | n + 1, h => by
    rw [lane32, lane32, lane32_congr hl n (fun j hj => h j (by omega)), le32_congr (i := 16 * n + 4 * l) (i' := 16 * n + 4 * l) (fun j hj => h _ (by omega))]

theorem accs32_congr {seed : U32} {m m' : Mem} (n : Nat) (h : ∀ j, j < 16 * n → at' m j = at' m' j) : accs32 seed m n = accs32 seed m' n := by
  unfold accs32
  rw [lane32_congr (by omega) n h, lane32_congr (by omega) n h, lane32_congr (by omega) n h, lane32_congr (by omega) n h]

theorem stripe32_ok (cfg : Cfg) {al : Align} {b : Block} {i : Nat} {seed : U32} {m : Mem} {N : Nat} (hi : i + 16 ≤ b.mem.length) (ha : al = .aligned → (b.addr + i) % 4 = 0)
    (hm : ∀ j, j < 16 → at' b.mem (i + j) = at' m (16 * N + j)) : stripe32 cfg al b i (accs32 seed m N) = .ok (accs32 seed m (N + 1)) := by
  unfold stripe32
  rw [readAl32_ok cfg ha (by omega), R.ok_bind, readAl32_ok cfg (fun e => by have := ha e; omega) (by omega), R.ok_bind, readAl32_ok cfg (fun e => by have := ha e; omega) (by omega), R.ok_bind,
    readAl32_ok cfg (fun e => by have := ha e; omega) (by omega), R.ok_bind]
  have e0 : le32 b.mem i = le32 m (16 * N + 4 * 0) := le32_congr fun j hj => hm j (by omega)
  have e1 : le32 b.mem (i + 4) = le32 m (16 * N + 4 * 1) := le32_congr fun j hj => by rw [Nat.add_assoc, hm _ (by omega), Nat.add_assoc]
  have e2 : le32 b.mem (i + 8) = le32 m (16 * N + 4 * 2) := le32_congr fun j hj => by rw [Nat.add_assoc, hm _ (by omega), Nat.add_assoc]
  have e3 : le32 b.mem (i + 12) = le32 m (16 * N + 4 * 3) := le32_congr fun j hj => by rw [Nat.add_assoc, hm _ (by omega), Nat.add_assoc]
  rw [e0, e1, e2, e3]
  rfl

theorem loop32_ok (cfg : Cfg) {al : Align} {b : Block} {seed : U32} {m : Mem} {L : Nat} (hL : L + 16 ≤ b.mem.length) : ∀ (fuel i N : Nat), i ≤ L → L < i + 16 * fuel → (al = .aligned → (b.addr + i) % 4 = 0) →
    (∀ j, j < L + 16 - i → at' b.mem (i + j) = at' m (16 * N + j)) →
    ∃ k, loop32 cfg al b (L + 1) fuel i (accs32 seed m N) = .ok (accs32 seed m (N + k), i + 16 * k) ∧ i + 16 * k ≤ L + 16 ∧ L < i + 16 * k := by
  intro fuel
  induction fuel with
  | zero => intro i N h1 h2; omega
  | succ fuel ih =>
    intro i N h1 h2 ha hm
    rw [loop32, stripe32_ok cfg (by omega) ha (fun j hj => hm j (by omega)), R.ok_bind]
    by_cases h : i + 16 ≤ L
    · rw [if_pos (by omega)]
      obtain ⟨k, e, k1, k2⟩ := ih (i + 16) (N + 1) h (by omega) (fun e => by have := ha e; omega) (fun j hj => by rw [Nat.add_assoc, hm _ (by omega)]; congr 1; omega)
      refine ⟨k + 1, ?_, by omega, by omega⟩
      rw [e, show N + 1 + k = N + (k + 1) by omega, show i + 16 + 16 * k = i + 16 * (k + 1) by omega]
    · rw [if_neg (by omega)]
      exact ⟨1, rfl, by omega, by omega⟩

theorem loopS32_ok (cfg : Cfg) {b : Block} {seed : U32} {m : Mem} {L : Nat} (hL : L + 16 ≤ b.mem.length) : ∀ (fuel i N : Nat), i ≤ L → L < i + 16 * fuel →
    (∀ j, j < L + 16 - i → at' b.mem (i + j) = at' m (16 * N + j)) →
    ∃ k, loopS32 cfg b L fuel i (accs32 seed m N) = .ok (accs32 seed m (N + k), i + 16 * k) ∧ i + 16 * k ≤ L + 16 ∧ L < i + 16 * k := by
  intro fuel
  induction fuel with
  | zero => intro i N h1 h2; omega
  | succ fuel ih =>
    intro i N h1 h2 hm
    rw [loopS32, stripe32_ok cfg (by omega) (fun e => by cases e) (fun j hj => hm j (by omega)), R.ok_bind]
    by_cases h : i + 16 ≤ L
    · rw [if_pos h]
      obtain ⟨k, e, k1, k2⟩ := ih (i + 16) (N + 1) h (by omega) (fun j hj => by rw [Nat.add_assoc, hm _ (by omega)]; congr 1; omega)
      refine ⟨k + 1, ?_, by omega, by omega⟩
      rw [e, show N + 1 + k = N + (k + 1) by omega, show i + 16 + 16 * k = i + 16 * (k + 1) by omega]
    · rw [if_neg h]
      exact ⟨1, rfl, by omega, by omega⟩

theorem front32_eq (seed : U32) {m : Mem} (h : 16 ≤ m.length) : front32 seed m = merge32 (accs32 seed m (m.length / 16)) := by
  unfold front32 merge32
  dsimp only
  rw [if_neg (by omega)]
  rfl

theorem endianAlign32_ok (cfg : Cfg) {b : Block} {len : Nat} {al : Align} (seed : U32) (hl : len ≤ b.mem.length) (ha : al = .aligned → b.addr % 4 = 0) :
    endianAlign32 cfg b len seed al = .ok (value32 seed (b.mem.take len)) := by
  have elen : (b.mem.take len).length = len := by rw [List.length_take]; omega
  have edrop : ∀ i, i = 16 * (len / 16) → (b.mem.drop i).take (len % 16) = (b.mem.take len).drop (16 * (len / 16)) := by
    rintro i rfl
    rw [List.drop_take]
    congr 1; omega
  unfold endianAlign32 value32
  rw [elen]
  have e15 : 16 ≤ len → len - 15 = len - 16 + 1 := fun h => by omega
  by_cases h : 16 ≤ len
  · rw [if_pos h, e15 h, ← accs32_zero seed (b.mem.take len)]
    obtain ⟨k, e, k1, k2⟩ := loop32_ok cfg (al := al) (b := b) (seed := seed) (m := b.mem.take len) (L := len - 16) (by omega) len 0 0 (by omega) (by omega) ha
      (fun j hj => by rw [Nat.zero_add, at'_take (by omega)])
    have hk : 0 + k = len / 16 := by omega
    rw [e, R.ok_bind]
    dsimp only
    rw [R.ok_bind]
    dsimp only
    rw [finalize32_ok cfg _ (by omega) (fun e => by have := ha e; omega), Nat.mod_mod, edrop _ (by omega), front32_eq seed (by rw [elen]; exact h), elen, hk]
  · rw [if_neg h, R.ok_bind]
    dsimp only
    rw [finalize32_ok cfg _ (by omega) (fun e => by have := ha e; omega), Nat.mod_mod, edrop 0 (by omega)]
    unfold front32
    rw [if_pos (by omega)]

/-! ### streaming -/

/-- What the state says about the message. -/
structure Inv32 (s : State32) (seed : U32) (msg : Mem) : Prop where
  size : s.memsize = msg.length % 16
  acc : s.acc = accs32 seed msg (msg.length / 16)
  buf : s.mem.length = 16
  data : ∀ j, j < s.memsize → at' s.mem j = at' msg (16 * (msg.length / 16) + j)
  len : s.totalLen = BitVec.ofNat 32 msg.length
  large : s.largeLen = decide (16 ≤ msg.length)

theorem reset32_inv (seed : U32) : Inv32 (reset32 seed) seed [] :=
  ⟨rfl, (accs32_zero seed []).symm, rfl, fun j hj => absurd hj (Nat.not_lt_zero _), rfl, rfl⟩

theorem update32_ok (cfg : Cfg) {s : State32} {seed : U32} {msg : Mem} {b : Block} (h : Inv32 s seed msg) :
    ∃ s', update32 cfg s b b.mem.length = .ok s' ∧ Inv32 s' seed (msg ++ b.mem) := by
  have hsz := h.size
  have hlt : s.memsize < 16 := by omega
  have hl : (msg ++ b.mem).length = msg.length + b.mem.length := List.length_append
  have cg : ∀ n, 16 * n ≤ msg.length → accs32 seed msg n = accs32 seed (msg ++ b.mem) n := fun n hn =>
    accs32_congr n fun j hj => (at'_append_left (by omega)).symm
  have hlen : s.totalLen + BitVec.ofNat 32 b.mem.length = BitVec.ofNat 32 (msg ++ b.mem).length := by
    rw [h.len, hl]; apply BitVec.eq_of_toNat_eq; simp [BitVec.toNat_add, BitVec.toNat_ofNat]
  have hin : ∀ j, j < b.mem.length → at' b.mem j = at' (msg ++ b.mem) (msg.length + j) := fun j _ => by
    rw [at'_append_right (by omega), Nat.add_sub_cancel_left]
  have hold : ∀ j, j < s.memsize → at' s.mem j = at' (msg ++ b.mem) (16 * (msg.length / 16) + j) := fun j hj => by
    rw [h.data j hj, at'_append_left (by omega)]
  have hlarge : (s.largeLen || (decide (16 ≤ b.mem.length) || decide (16 ≤ (s.totalLen + BitVec.ofNat 32 b.mem.length).toNat))) = decide (16 ≤ (msg ++ b.mem).length) := by
    rw [hlen, h.large, hl, BitVec.toNat_ofNat, ← Bool.decide_or, ← Bool.decide_or]
    congr 1
    apply propext
    omega
  unfold update32
  dsimp only
  rw [hlarge]
  by_cases h1 : s.memsize + b.mem.length < 16
  · rw [if_pos h1]
    obtain ⟨d, ed, ld, vd⟩ := slice_ok (m := b.mem) (i := 0) (n := b.mem.length) (by omega)
    obtain ⟨m', em, lm, vm⟩ := copyTo_ok (m := s.mem) (src := d) (i := s.memsize) (by rw [h.buf, ld]; omega)
    rw [ed, R.ok_bind, em, R.ok_bind]
    have e1 : (msg ++ b.mem).length / 16 = msg.length / 16 := by omega
    refine ⟨_, rfl, ⟨?_, ?_, lm.trans h.buf, ?_, hlen, rfl⟩⟩
    · show s.memsize + b.mem.length = _; omega
    · show s.acc = _; rw [h.acc, e1, cg _ (by omega)]
    · intro j hj
      have hj : j < s.memsize + b.mem.length := hj
      show at' m' j = _
      rw [vm, e1]
      by_cases hj1 : j < s.memsize
      · rw [if_neg (by omega), hold j hj1]
      · rw [if_pos ⟨by omega, by omega⟩, vd _ (by omega), hin _ (by omega)]
        exact congrArg _ (by omega)
  · rw [if_neg h1]
    -- after the buffer was used up
    have tail : ∀ (s1 : State32) (p N : Nat), s1.largeLen = decide (16 ≤ (msg ++ b.mem).length) → s1.totalLen = s.totalLen + BitVec.ofNat 32 b.mem.length → s1.acc = accs32 seed (msg ++ b.mem) N → s1.mem.length = 16 → s1.memsize = 0 →
        16 * N = msg.length + p → p ≤ b.mem.length →
        ∃ s', ((if p + 16 ≤ b.mem.length then loopS32 cfg b (b.mem.length - 16) b.mem.length p s1.acc else .ok (s1.acc, p) : R (Acc32 × Nat)) >>= fun x =>
          if x.2 < b.mem.length then
            (slice b.mem x.2 (b.mem.length - x.2)) >>= fun d => (copyTo s1.mem 0 d) >>= fun m => .ok { s1 with acc := x.1, mem := m, memsize := b.mem.length - x.2 }
          else .ok { s1 with acc := x.1 }) = .ok s' ∧ Inv32 s' seed (msg ++ b.mem) := by
      intro s1 p N t0 t1 t2 t3 t4 t5 t6
      have key : ∃ k, (if p + 16 ≤ b.mem.length then loopS32 cfg b (b.mem.length - 16) b.mem.length p s1.acc else .ok (s1.acc, p) : R (Acc32 × Nat)) =
          .ok (accs32 seed (msg ++ b.mem) (N + k), p + 16 * k) ∧ p + 16 * k ≤ b.mem.length ∧ b.mem.length < p + 16 * k + 16 := by
        by_cases h2 : p + 16 ≤ b.mem.length
        · rw [if_pos h2, t2]
          obtain ⟨k, e, k1, k2⟩ := loopS32_ok cfg (b := b) (seed := seed) (m := msg ++ b.mem) (L := b.mem.length - 16) (by omega) b.mem.length p N (by omega) (by omega)
            (fun j hj => by rw [hin _ (by omega)]; exact congrArg _ (by omega))
          exact ⟨k, e, by omega, by omega⟩
        · rw [if_neg h2, t2]
          exact ⟨0, rfl, by omega, by omega⟩
      obtain ⟨k, e, k1, k2⟩ := key
      rw [e, R.ok_bind]
      dsimp only
      have eN : N + k = (msg ++ b.mem).length / 16 := by omega
      by_cases h3 : p + 16 * k < b.mem.length
      · rw [if_pos h3]
        obtain ⟨d, ed, ld, vd⟩ := slice_ok (m := b.mem) (i := p + 16 * k) (n := b.mem.length - (p + 16 * k)) (by omega)
        obtain ⟨m', em, lm, vm⟩ := copyTo_ok (m := s1.mem) (src := d) (i := 0) (by rw [t3, ld]; omega)
        rw [ed, R.ok_bind, em, R.ok_bind]
        refine ⟨_, rfl, ⟨?_, ?_, lm.trans t3, ?_, t1.trans hlen, t0⟩⟩
        · show b.mem.length - (p + 16 * k) = _; omega
        · show accs32 _ _ _ = _; rw [eN]
        · intro j hj
          have hj : j < b.mem.length - (p + 16 * k) := hj
          show at' m' j = _
          rw [vm, if_pos ⟨by omega, by omega⟩, Nat.sub_zero, vd j hj, hin _ (by omega), ← eN]
          exact congrArg _ (by omega)
      · rw [if_neg h3]
        refine ⟨_, rfl, ⟨?_, ?_, t3, ?_, t1.trans hlen, t0⟩⟩
        · show s1.memsize = _; omega
        · show accs32 _ _ _ = _; rw [eN]
        · intro j hj
          have hj : j < s1.memsize := hj
          omega
    by_cases h2 : s.memsize = 0
    · rw [if_neg (by simp [h2]), R.ok_bind]
      exact tail { s with totalLen := s.totalLen + BitVec.ofNat 32 b.mem.length, largeLen := decide (16 ≤ (msg ++ b.mem).length) } 0 (msg.length / 16) rfl rfl (by show s.acc = _; rw [h.acc, cg _ (by omega)]) h.buf h2 (by omega) (by omega)
    · rw [if_pos (by simpa using h2)]
      obtain ⟨d, ed, ld, vd⟩ := slice_ok (m := b.mem) (i := 0) (n := 16 - s.memsize) (by omega)
      obtain ⟨m', em, lm, vm⟩ := copyTo_ok (m := s.mem) (src := d) (i := s.memsize) (by rw [h.buf, ld]; omega)
      have es := stripe32_ok cfg (al := .unaligned) (b := ⟨0, m'⟩) (i := 0) (seed := seed) (m := msg ++ b.mem) (N := msg.length / 16) (by show 0 + 16 ≤ m'.length; rw [lm, h.buf]; omega) (fun e => by cases e) (fun j hj => by
        show at' m' (0 + j) = _
        rw [Nat.zero_add, vm]
        by_cases hj1 : j < s.memsize
        · rw [if_neg (by omega), hold j hj1]
        · rw [if_pos ⟨by omega, by omega⟩, vd _ (by omega), hin _ (by omega)]
          exact congrArg _ (by omega))
      rw [ed, R.ok_bind, em, R.ok_bind, h.acc, cg _ (by omega), es, R.ok_bind, R.ok_bind]
      exact tail { s with totalLen := s.totalLen + BitVec.ofNat 32 b.mem.length, largeLen := decide (16 ≤ (msg ++ b.mem).length), acc := accs32 seed (msg ++ b.mem) (msg.length / 16 + 1), mem := m', memsize := 0 } (16 - s.memsize) (msg.length / 16 + 1)
        rfl rfl rfl (lm.trans h.buf) rfl (by omega) (by omega)

theorem digest32_ok (cfg : Cfg) {s : State32} {seed : U32} {msg : Mem} (h : Inv32 s seed msg) : digest32 cfg s = .ok (value32 seed msg) := by
  have hsz := h.size
  have hb := h.buf
  unfold digest32 value32
  dsimp only
  rw [hsz, finalize32_ok cfg _ (by show 0 + msg.length % 16 % 16 ≤ s.mem.length; omega) (fun _ => rfl), Nat.mod_mod]
  have er : (s.mem.drop 0).take (msg.length % 16) = msg.drop (16 * (msg.length / 16)) := by
    apply ext_at
    · rw [List.length_take, List.length_drop, List.length_drop]; omega
    · intro j hj
      rw [List.length_take] at hj
      rw [at'_take (by omega), at'_drop, at'_drop, Nat.zero_add, h.data j (by omega)]
  dsimp only
  rw [er, h.acc, h.len, h.large]
  by_cases h1 : 16 ≤ msg.length
  · rw [if_pos (by simpa using h1), front32_eq seed h1]
  · rw [if_neg (by simpa using h1), show msg.length / 16 = 0 by omega]
    unfold front32
    rw [if_pos (by omega)]
    rfl

end Verif.Xxh64
