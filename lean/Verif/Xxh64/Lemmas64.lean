import Verif.Xxh64.Spec
import Verif.Xxh3.Inj

/-! The 64 bit variant: at once and streaming. -/
namespace Verif.Xxh64
open Verif.Xxh3 (Byte U32 U64 Mem rd8 swap32 swap64 read32 read64 readLE32 readLE64 copyTo slice bytesOf rotl64 PRIME32_1 PRIME32_2 PRIME32_3 PRIME64_1 PRIME64_2 PRIME64_3 PRIME64_4 PRIME64_5)
open Verif.Xxh3 (rd8_ok readLE32_ok readLE64_ok le32_congr le64_congr copyTo_ok slice_ok at'_append_left at'_append_right at'_take at'_drop ext_at)
open Verif.Xxh3.Spec (at' le32 le64)
open Spec

/-! ### memory -/

theorem take_drop_cons {m : Mem} {i n : Nat} (h : i < m.length) : (m.drop i).take (n + 1) = at' m i :: (m.drop (i + 1)).take n := by
  rw [List.drop_eq_getElem_cons h, List.take_succ_cons]
  congr 1
  unfold at'
  simp [List.getD_eq_getElem?_getD, h]

theorem readAl32_ok (cfg : Cfg) {al : Align} {b : Block} {i : Nat} (ha : al = .aligned → (b.addr + i) % 4 = 0) (h : i + 4 ≤ b.mem.length) : readAl32 cfg al b i = .ok (le32 b.mem i) := by
  unfold readAl32
  cases al with
  | unaligned => exact readLE32_ok _ h
  | aligned => dsimp only; rw [if_pos (ha rfl)]; exact readLE32_ok _ h

theorem readAl64_ok (cfg : Cfg) {al : Align} {b : Block} {i : Nat} (ha : al = .aligned → (b.addr + i) % 8 = 0) (h : i + 8 ≤ b.mem.length) : readAl64 cfg al b i = .ok (le64 b.mem i) := by
  unfold readAl64
  cases al with
  | unaligned => exact readLE64_ok _ h
  | aligned => dsimp only; rw [if_pos (ha rfl)]; exact readLE64_ok _ h

/-! ### what remains -/

theorem round64_zero (x : U64) : round64 0#64 x = scramble64 x := by
  unfold round64 scramble64
  rw [BitVec.zero_add]

section
attribute [local irreducible] word64 half64 byte64

theorem rest64_step8 (h : U64) (a b c d e f g i : Byte) (r : Mem) :
    rest64 h (a :: b :: c :: d :: e :: f :: g :: i :: r) = rest64 (word64 h (i ++ g ++ f ++ e ++ d ++ c ++ b ++ a : BitVec 64)) r := rfl

theorem rest64_step4 (h : U64) (a b c d : Byte) {r : Mem} (hr : r.length < 4) : rest64 h (a :: b :: c :: d :: r) = rest64 (half64 h (d ++ c ++ b ++ a : BitVec 32)) r := by
  match r, hr with
  | [], _ => rfl
  | [_], _ => rfl
  | [_, _], _ => rfl
  | [_, _, _], _ => rfl
  | _ :: _ :: _ :: _ :: _, hl => simp only [List.length_cons] at hl; omega

theorem rest64_step1 (h : U64) (a : Byte) {r : Mem} (hr : r.length < 3) : rest64 h (a :: r) = rest64 (byte64 h a) r := by
  match r, hr with
  | [], _ => rfl
  | [_], _ => rfl
  | [_, _], _ => rfl
  | _ :: _ :: _ :: _, hl => simp only [List.length_cons] at hl; omega

end

theorem rest64_8 (h : U64) {m : Mem} {i n : Nat} (hn : 8 ≤ n) (hi : i + n ≤ m.length) :
    rest64 h ((m.drop i).take n) = rest64 (word64 h (le64 m i)) ((m.drop (i + 8)).take (n - 8)) := by
  obtain ⟨k, rfl⟩ : ∃ k, n = k + 8 := ⟨n - 8, by omega⟩
  rw [show k + 8 = k + 1 + 1 + 1 + 1 + 1 + 1 + 1 + 1 from rfl, take_drop_cons (by omega), take_drop_cons (by omega), take_drop_cons (by omega), take_drop_cons (by omega), take_drop_cons (by omega),
    take_drop_cons (by omega), take_drop_cons (by omega), take_drop_cons (by omega), rest64_step8]
  rfl

theorem rest64_4 (h : U64) {m : Mem} {i n : Nat} (hn : 4 ≤ n) (h8 : n < 8) (hi : i + n ≤ m.length) :
    rest64 h ((m.drop i).take n) = rest64 (half64 h (le32 m i)) ((m.drop (i + 4)).take (n - 4)) := by
  obtain ⟨k, rfl⟩ : ∃ k, n = k + 4 := ⟨n - 4, by omega⟩
  rw [show k + 4 = k + 1 + 1 + 1 + 1 from rfl, take_drop_cons (by omega), take_drop_cons (by omega), take_drop_cons (by omega), take_drop_cons (by omega)]
  have hl : ((m.drop (i + 1 + 1 + 1 + 1)).take k).length < 4 := by rw [List.length_take]; omega
  have e : k + 1 + 1 + 1 + 1 - 4 = k := by omega
  rw [e, show i + 4 = i + 1 + 1 + 1 + 1 from rfl]
  rw [rest64_step4 h _ _ _ _ hl]
  rfl

theorem rest64_1 (h : U64) {m : Mem} {i n : Nat} (hn : 1 ≤ n) (h4 : n < 4) (hi : i + n ≤ m.length) :
    rest64 h ((m.drop i).take n) = rest64 (byte64 h (at' m i)) ((m.drop (i + 1)).take (n - 1)) := by
  obtain ⟨k, rfl⟩ : ∃ k, n = k + 1 := ⟨n - 1, by omega⟩
  rw [take_drop_cons (by omega)]
  have hl : ((m.drop (i + 1)).take k).length < 3 := by rw [List.length_take]; omega
  rw [Nat.add_sub_cancel, rest64_step1 h _ hl]

theorem p8_ok (cfg : Cfg) {al : Align} {b : Block} {h : U64} {i : Nat} (ha : al = .aligned → (b.addr + i) % 8 = 0) (hi : i + 8 ≤ b.mem.length) :
    process64 cfg al b .p8 (h, i) = .ok (word64 h (le64 b.mem i), i + 8) := by
  rw [process64, readAl64_ok cfg ha hi, R.ok_bind, round64_zero]; rfl

theorem p4_ok (cfg : Cfg) {al : Align} {b : Block} {h : U64} {i : Nat} (ha : al = .aligned → (b.addr + i) % 4 = 0) (hi : i + 4 ≤ b.mem.length) :
    process64 cfg al b .p4 (h, i) = .ok (half64 h (le32 b.mem i), i + 4) := by
  rw [process64, readAl32_ok cfg ha hi]; rfl

theorem p1_ok (cfg : Cfg) {al : Align} {b : Block} {h : U64} {i : Nat} (hi : i + 1 ≤ b.mem.length) :
    process64 cfg al b .p1 (h, i) = .ok (byte64 h (at' b.mem i), i + 1) := by
  rw [process64, rd8_ok (by omega)]; rfl

/-- The steps for `n` bytes, at most `fuel`. -/
def plan64 : Nat → Nat → List Line
  | 0, _ => []
  | f + 1, n => if 8 ≤ n then .p8 :: plan64 f (n - 8) else if 4 ≤ n then .p4 :: plan64 f (n - 4) else if 1 ≤ n then .p1 :: plan64 f (n - 1) else []

theorem jump64 : ∀ n, n < 32 → jump n switch64 = some (plan64 32 n) := by decide

theorem plan64_ok (cfg : Cfg) {al : Align} {b : Block} : ∀ (f n : Nat) (h : U64) (i : Nat), n ≤ f → i + n ≤ b.mem.length → (al = .aligned → (b.addr + i) % 8 = 0 ∨ (n < 8 ∧ (b.addr + i) % 4 = 0) ∨ n < 4) →
    processAll64 cfg al b (plan64 f n) (h, i) = .ok (rest64 h ((b.mem.drop i).take n), i + n) := by
  intro f
  induction f with
  | zero =>
    intro n h i hn _ _
    obtain rfl : n = 0 := by omega
    rw [List.take_zero]; rfl
  | succ f ih =>
    intro n h i hn hi ha
    rw [plan64]
    by_cases h8 : 8 ≤ n
    · rw [if_pos h8, processAll64, p8_ok cfg (fun e => by have := ha e; omega) (by omega), R.ok_bind, ih _ _ _ (by omega) (by omega) (fun e => by have := ha e; omega), rest64_8 h h8 hi]
      congr 2; omega
    · rw [if_neg h8]
      by_cases h4 : 4 ≤ n
      · rw [if_pos h4, processAll64, p4_ok cfg (fun e => by have := ha e; omega) (by omega), R.ok_bind, ih _ _ _ (by omega) (by omega) (fun e => by have := ha e; omega), rest64_4 h h4 (by omega) hi]
        congr 2; omega
      · rw [if_neg h4]
        by_cases h1 : 1 ≤ n
        · rw [if_pos h1, processAll64, p1_ok cfg (by omega), R.ok_bind, ih _ _ _ (by omega) (by omega) (fun e => by omega), rest64_1 h h1 (by omega) hi]
          congr 2; omega
        · rw [if_neg h1]
          obtain rfl : n = 0 := by omega
          rw [List.take_zero]; rfl

theorem while8_ok (cfg : Cfg) {al : Align} {b : Block} : ∀ (f n : Nat) (h : U64) (i : Nat), n < 8 * f + 8 → i + n ≤ b.mem.length → (al = .aligned → (b.addr + i) % 8 = 0) →
    ∃ h', while8 cfg al b f n (h, i) = .ok (n % 8, h', i + 8 * (n / 8)) ∧ rest64 h ((b.mem.drop i).take n) = rest64 h' ((b.mem.drop (i + 8 * (n / 8))).take (n % 8)) := by
  intro f
  induction f with
  | zero =>
    intro n h i hn _ _
    refine ⟨h, ?_, ?_⟩
    · rw [while8, show n % 8 = n by omega, show n / 8 = 0 by omega]; rfl
    · rw [show n % 8 = n by omega, show n / 8 = 0 by omega]; rfl
  | succ f ih =>
    intro n h i hn hi ha
    rw [while8]
    by_cases h8 : 8 ≤ n
    · rw [if_pos h8, p8_ok cfg ha (by omega), R.ok_bind]
      obtain ⟨h', e1, e2⟩ := ih (n - 8) (word64 h (le64 b.mem i)) (i + 8) (by omega) (by omega) (fun e => by have := ha e; omega)
      refine ⟨h', ?_, ?_⟩
      · rw [e1, show (n - 8) % 8 = n % 8 by omega, show i + 8 + 8 * ((n - 8) / 8) = i + 8 * (n / 8) by omega]
      · rw [rest64_8 h h8 hi, e2, show (n - 8) % 8 = n % 8 by omega, show i + 8 + 8 * ((n - 8) / 8) = i + 8 * (n / 8) by omega]
    · rw [if_neg h8]
      refine ⟨h, ?_, ?_⟩
      · rw [show n % 8 = n by omega, show n / 8 = 0 by omega]; rfl
      · rw [show n % 8 = n by omega, show n / 8 = 0 by omega]; rfl

theorem while1_ok (cfg : Cfg) {al : Align} {b : Block} : ∀ (n : Nat) (h : U64) (i : Nat), n < 4 → i + n ≤ b.mem.length →
    while1 cfg al b n (h, i) = .ok (rest64 h ((b.mem.drop i).take n), i + n) := by
  intro n
  induction n with
  | zero => intro h i _ _; rw [List.take_zero]; rfl
  | succ n ih =>
    intro h i hn hi
    rw [while1, p1_ok cfg (by omega), R.ok_bind, ih _ _ (by omega) (by omega), rest64_1 h (by omega) hn hi, Nat.add_sub_cancel]
    congr 2; omega

theorem finalize64_ok (cfg : Cfg) {al : Align} {b : Block} (h : U64) {i len : Nat} (hi : i + len % 32 ≤ b.mem.length) (ha : al = .aligned → (b.addr + i) % 8 = 0) :
    finalize64 cfg h b i len al = .ok (avalanche64 (rest64 h ((b.mem.drop i).take (len % 32)))) := by
  have hl : len % 32 < 32 := Nat.mod_lt _ (by omega)
  unfold finalize64
  generalize len % 32 = n at *
  by_cases hr : (cfg.reroll || cfg.reroll64) = true
  · rw [if_pos hr]
    obtain ⟨h', e1, e2⟩ := while8_ok cfg (al := al) (b := b) 4 n h i (by omega) hi ha
    rw [e1, R.ok_bind]
    dsimp only
    by_cases h4 : 4 ≤ n % 8
    · rw [if_pos h4, p4_ok cfg (fun e => by have := ha e; omega) (by omega), R.ok_bind, R.ok_bind]
      dsimp only
      rw [while1_ok cfg _ _ _ (by omega) (by omega), R.ok_bind, e2, rest64_4 h' h4 (by omega) (by omega)]
    · rw [if_neg h4, R.ok_bind]
      dsimp only
      rw [while1_ok cfg _ _ _ (by omega) (by omega), R.ok_bind, e2]
  · rw [if_neg hr, jump64 n hl]
    dsimp only
    rw [plan64_ok cfg 32 n h i (by omega) hi (fun e => .inl (ha e)), R.ok_bind]

/-! ### the accumulators -/

/-- All four after `n` stripes. -/
def accs64 (seed : U64) (m : Mem) (n : Nat) : Acc64 :=
  ⟨lane64 m 0 (seed + PRIME64_1 + PRIME64_2) n, lane64 m 1 (seed + PRIME64_2) n, lane64 m 2 seed n, lane64 m 3 (seed - PRIME64_1) n⟩

theorem accs64_zero (seed : U64) (m : Mem) : accs64 seed m 0 = start64 seed := by
  unfold start64
  rw [show seed + 0#64 = seed from BitVec.add_zero seed]
  rfl

theorem lane64_congr {m m' : Mem} {l : Nat} {x : U64} (hl : l < 4) : ∀ n, (∀ j, j < 32 * n → at' m j = at' m' j) → lane64 m l x n = lane64 m' l x n
  | 0, _ => rfl
  | n + 1, h => by
    rw [lane64, lane64, lane64_congr hl n (fun j hj => h j (by omega)), le64_congr (i := 32 * n + 8 * l) (i' := 32 * n + 8 * l) (fun j hj => h _ (by omega))]

theorem accs64_congr {seed : U64} {m m' : Mem} (n : Nat) (h : ∀ j, j < 32 * n → at' m j = at' m' j) : accs64 seed m n = accs64 seed m' n := by
  unfold accs64
  rw [lane64_congr (by omega) n h, lane64_congr (by omega) n h, lane64_congr (by omega) n h, lane64_congr (by omega) n h]

theorem stripe64_ok (cfg : Cfg) {al : Align} {b : Block} {i : Nat} {seed : U64} {m : Mem} {N : Nat} (hi : i + 32 ≤ b.mem.length) (ha : al = .aligned → (b.addr + i) % 8 = 0)
    (hm : ∀ j, j < 32 → at' b.mem (i + j) = at' m (32 * N + j)) : stripe64 cfg al b i (accs64 seed m N) = .ok (accs64 seed m (N + 1)) := by
  unfold stripe64
  rw [readAl64_ok cfg ha (by omega), R.ok_bind, readAl64_ok cfg (fun e => by have := ha e; omega) (by omega), R.ok_bind, readAl64_ok cfg (fun e => by have := ha e; omega) (by omega), R.ok_bind,
    readAl64_ok cfg (fun e => by have := ha e; omega) (by omega), R.ok_bind]
  have e0 : le64 b.mem i = le64 m (32 * N + 8 * 0) := le64_congr fun j hj => hm j (by omega)
  have e1 : le64 b.mem (i + 8) = le64 m (32 * N + 8 * 1) := le64_congr fun j hj => by rw [Nat.add_assoc, hm _ (by omega), Nat.add_assoc]
  have e2 : le64 b.mem (i + 16) = le64 m (32 * N + 8 * 2) := le64_congr fun j hj => by rw [Nat.add_assoc, hm _ (by omega), Nat.add_assoc]
  have e3 : le64 b.mem (i + 24) = le64 m (32 * N + 8 * 3) := le64_congr fun j hj => by rw [Nat.add_assoc, hm _ (by omega), Nat.add_assoc]
  rw [e0, e1, e2, e3]
  rfl

theorem loop64_ok (cfg : Cfg) {al : Align} {b : Block} {seed : U64} {m : Mem} {L : Nat} (hL : L + 32 ≤ b.mem.length) : ∀ (fuel i N : Nat), i ≤ L → L < i + 32 * fuel → (al = .aligned → (b.addr + i) % 8 = 0) →
    (∀ j, j < L + 32 - i → at' b.mem (i + j) = at' m (32 * N + j)) →
    ∃ k, loop64 cfg al b L fuel i (accs64 seed m N) = .ok (accs64 seed m (N + k), i + 32 * k) ∧ i + 32 * k ≤ L + 32 ∧ L < i + 32 * k := by
  intro fuel
  induction fuel with
  | zero => intro i N h1 h2; omega
  | succ fuel ih =>
    intro i N h1 h2 ha hm
    rw [loop64, stripe64_ok cfg (by omega) ha (fun j hj => hm j (by omega)), R.ok_bind]
    by_cases h : i + 32 ≤ L
    · rw [if_pos h]
      obtain ⟨k, e, k1, k2⟩ := ih (i + 32) (N + 1) h (by omega) (fun e => by have := ha e; omega) (fun j hj => by rw [Nat.add_assoc, hm _ (by omega)]; congr 1; omega)
      refine ⟨k + 1, ?_, by omega, by omega⟩
      rw [e, show N + 1 + k = N + (k + 1) by omega, show i + 32 + 32 * k = i + 32 * (k + 1) by omega]
    · rw [if_neg h]
      exact ⟨1, rfl, by omega, by omega⟩

theorem front64_eq (seed : U64) {m : Mem} (h : 32 ≤ m.length) : front64 seed m = merge64 (accs64 seed m (m.length / 32)) := by
  unfold front64 merge64 mergeRound64
  dsimp only
  rw [if_neg (by omega), round64_zero, round64_zero, round64_zero, round64_zero]
  rfl

theorem endianAlign64_ok (cfg : Cfg) {b : Block} {len : Nat} {al : Align} (seed : U64) (hl : len ≤ b.mem.length) (ha : al = .aligned → b.addr % 8 = 0) :
    endianAlign64 cfg b len seed al = .ok (value64 seed (b.mem.take len)) := by
  have elen : (b.mem.take len).length = len := by rw [List.length_take]; omega
  have edrop : ∀ i, i = 32 * (len / 32) → (b.mem.drop i).take (len % 32) = (b.mem.take len).drop (32 * (len / 32)) := by
    rintro i rfl
    rw [List.drop_take]
    congr 1; omega
  unfold endianAlign64 value64
  rw [elen]
  by_cases h : 32 ≤ len
  · rw [if_pos h, ← accs64_zero seed (b.mem.take len)]
    obtain ⟨k, e, k1, k2⟩ := loop64_ok cfg (al := al) (b := b) (seed := seed) (m := b.mem.take len) (L := len - 32) (by omega) len 0 0 (by omega) (by omega) ha
      (fun j hj => by rw [Nat.zero_add, at'_take (by omega)])
    have hk : 0 + k = len / 32 := by omega
    rw [e, R.ok_bind]
    dsimp only
    rw [R.ok_bind]
    dsimp only
    rw [finalize64_ok cfg _ (by omega) (fun e => by have := ha e; omega), edrop _ (by omega), front64_eq seed (by rw [elen]; exact h), elen, hk]
  · rw [if_neg h, R.ok_bind]
    dsimp only
    rw [finalize64_ok cfg _ (by omega) (fun e => by have := ha e; omega), edrop 0 (by omega)]
    unfold front64
    rw [if_pos (by omega)]

/-! ### streaming -/

/-- What the state says about the message. -/
structure Inv64 (s : State64) (seed : U64) (msg : Mem) : Prop where
  size : s.memsize = msg.length % 32
  acc : s.acc = accs64 seed msg (msg.length / 32)
  buf : s.mem.length = 32
  data : ∀ j, j < s.memsize → at' s.mem j = at' msg (32 * (msg.length / 32) + j)
  len : s.totalLen = BitVec.ofNat 64 msg.length

theorem reset64_inv (seed : U64) : Inv64 (reset64 seed) seed [] :=
  ⟨rfl, (accs64_zero seed []).symm, rfl, fun j hj => absurd hj (Nat.not_lt_zero _), rfl⟩

theorem update64_ok (cfg : Cfg) {s : State64} {seed : U64} {msg : Mem} {b : Block} (h : Inv64 s seed msg) :
    ∃ s', update64 cfg s b b.mem.length = .ok s' ∧ Inv64 s' seed (msg ++ b.mem) := by
  have hsz := h.size
  have hlt : s.memsize < 32 := by omega
  have hl : (msg ++ b.mem).length = msg.length + b.mem.length := List.length_append
  have cg : ∀ n, 32 * n ≤ msg.length → accs64 seed msg n = accs64 seed (msg ++ b.mem) n := fun n hn =>
    accs64_congr n fun j hj => (at'_append_left (by omega)).symm
  have hlen : s.totalLen + BitVec.ofNat 64 b.mem.length = BitVec.ofNat 64 (msg ++ b.mem).length := by
    rw [h.len, hl]; apply BitVec.eq_of_toNat_eq; simp [BitVec.toNat_add, BitVec.toNat_ofNat]
  have hin : ∀ j, j < b.mem.length → at' b.mem j = at' (msg ++ b.mem) (msg.length + j) := fun j _ => by
    rw [at'_append_right (by omega), Nat.add_sub_cancel_left]
  have hold : ∀ j, j < s.memsize → at' s.mem j = at' (msg ++ b.mem) (32 * (msg.length / 32) + j) := fun j hj => by
    rw [h.data j hj, at'_append_left (by omega)]
  unfold update64
  dsimp only
  by_cases h1 : s.memsize + b.mem.length < 32
  · rw [if_pos h1]
    obtain ⟨d, ed, ld, vd⟩ := slice_ok (m := b.mem) (i := 0) (n := b.mem.length) (by omega)
    obtain ⟨m', em, lm, vm⟩ := copyTo_ok (m := s.mem) (src := d) (i := s.memsize) (by rw [h.buf, ld]; omega)
    rw [ed, R.ok_bind, em, R.ok_bind]
    have e1 : (msg ++ b.mem).length / 32 = msg.length / 32 := by omega
    refine ⟨_, rfl, ⟨?_, ?_, lm.trans h.buf, ?_, hlen⟩⟩
    · show s.memsize + b.mem.length = _; omega
    · show s.acc = _; rw [h.acc, e1, cg _ (by omega)]
    · intro j hj
      have hj : j < s.memsize + b.mem.length := hj
      show at' m' j = _
      rw [vm, e1]
      by_cases hj1 : j < s.memsize
      · rw [if_neg (by omega), hold j hj1]
      · rw [if_pos ⟨by omega, by omega⟩, vd _ (by omega), hin _ (by omega)]
        exact congrArg _ (by omega)
  · rw [if_neg h1]
    -- after the buffer was used up
    have tail : ∀ (s1 : State64) (p N : Nat), s1.totalLen = s.totalLen + BitVec.ofNat 64 b.mem.length → s1.acc = accs64 seed (msg ++ b.mem) N → s1.mem.length = 32 → s1.memsize = 0 →
        32 * N = msg.length + p → p ≤ b.mem.length →
        ∃ s', ((if p + 32 ≤ b.mem.length then loop64 cfg .unaligned b (b.mem.length - 32) b.mem.length p s1.acc else .ok (s1.acc, p) : R (Acc64 × Nat)) >>= fun x =>
          if x.2 < b.mem.length then
            (slice b.mem x.2 (b.mem.length - x.2)) >>= fun d => (copyTo s1.mem 0 d) >>= fun m => .ok { s1 with acc := x.1, mem := m, memsize := b.mem.length - x.2 }
          else .ok { s1 with acc := x.1 }) = .ok s' ∧ Inv64 s' seed (msg ++ b.mem) := by
      intro s1 p N t1 t2 t3 t4 t5 t6
      have key : ∃ k, (if p + 32 ≤ b.mem.length then loop64 cfg .unaligned b (b.mem.length - 32) b.mem.length p s1.acc else .ok (s1.acc, p) : R (Acc64 × Nat)) =
          .ok (accs64 seed (msg ++ b.mem) (N + k), p + 32 * k) ∧ p + 32 * k ≤ b.mem.length ∧ b.mem.length < p + 32 * k + 32 := by
        by_cases h2 : p + 32 ≤ b.mem.length
        · rw [if_pos h2, t2]
          obtain ⟨k, e, k1, k2⟩ := loop64_ok cfg (al := .unaligned) (b := b) (seed := seed) (m := msg ++ b.mem) (L := b.mem.length - 32) (by omega) b.mem.length p N (by omega) (by omega)
            (fun e => by cases e) (fun j hj => by rw [hin _ (by omega)]; exact congrArg _ (by omega))
          exact ⟨k, e, by omega, by omega⟩
        · rw [if_neg h2, t2]
          exact ⟨0, rfl, by omega, by omega⟩
      obtain ⟨k, e, k1, k2⟩ := key
      rw [e, R.ok_bind]
      dsimp only
      have eN : N + k = (msg ++ b.mem).length / 32 := by omega
      by_cases h3 : p + 32 * k < b.mem.length
      · rw [if_pos h3]
        obtain ⟨d, ed, ld, vd⟩ := slice_ok (m := b.mem) (i := p + 32 * k) (n := b.mem.length - (p + 32 * k)) (by omega)
        obtain ⟨m', em, lm, vm⟩ := copyTo_ok (m := s1.mem) (src := d) (i := 0) (by rw [t3, ld]; omega)
        rw [ed, R.ok_bind, em, R.ok_bind]
        refine ⟨_, rfl, ⟨?_, ?_, lm.trans t3, ?_, t1.trans hlen⟩⟩
        · show b.mem.length - (p + 32 * k) = _; omega
        · show accs64 _ _ _ = _; rw [eN]
        · intro j hj
          have hj : j < b.mem.length - (p + 32 * k) := hj
          show at' m' j = _
          rw [vm, if_pos ⟨by omega, by omega⟩, Nat.sub_zero, vd j hj, hin _ (by omega), ← eN]
          exact congrArg _ (by omega)
      · rw [if_neg h3]
        refine ⟨_, rfl, ⟨?_, ?_, t3, ?_, t1.trans hlen⟩⟩
        · show s1.memsize = _; omega
        · show accs64 _ _ _ = _; rw [eN]
        · intro j hj
          have hj : j < s1.memsize := hj
          omega
    by_cases h2 : s.memsize = 0
    · rw [if_neg (by simp [h2]), R.ok_bind]
      exact tail { s with totalLen := s.totalLen + BitVec.ofNat 64 b.mem.length } 0 (msg.length / 32) rfl (by show s.acc = _; rw [h.acc, cg _ (by omega)]) h.buf h2 (by omega) (by omega)
    · rw [if_pos (by simpa using h2)]
      obtain ⟨d, ed, ld, vd⟩ := slice_ok (m := b.mem) (i := 0) (n := 32 - s.memsize) (by omega)
      obtain ⟨m', em, lm, vm⟩ := copyTo_ok (m := s.mem) (src := d) (i := s.memsize) (by rw [h.buf, ld]; omega)
      have es := stripe64_ok cfg (al := .unaligned) (b := ⟨0, m'⟩) (i := 0) (seed := seed) (m := msg ++ b.mem) (N := msg.length / 32) (by show 0 + 32 ≤ m'.length; rw [lm, h.buf]; omega) (fun e => by cases e) (fun j hj => by
        show at' m' (0 + j) = _
        rw [Nat.zero_add, vm]
        by_cases hj1 : j < s.memsize
        · rw [if_neg (by omega), hold j hj1]
        · rw [if_pos ⟨by omega, by omega⟩, vd _ (by omega), hin _ (by omega)]
          exact congrArg _ (by omega))
      rw [ed, R.ok_bind, em, R.ok_bind, h.acc, cg _ (by omega), es, R.ok_bind, R.ok_bind]
      exact tail { s with totalLen := s.totalLen + BitVec.ofNat 64 b.mem.length, acc := accs64 seed (msg ++ b.mem) (msg.length / 32 + 1), mem := m', memsize := 0 } (32 - s.memsize) (msg.length / 32 + 1)
        rfl rfl (lm.trans h.buf) rfl (by omega) (by omega)

theorem digest64_ok (cfg : Cfg) {s : State64} {seed : U64} {msg : Mem} (h : Inv64 s seed msg) (hm : msg.length < 2 ^ 64) : digest64 cfg s = .ok (value64 seed msg) := by
  have hlen : s.totalLen.toNat = msg.length := by rw [h.len, BitVec.toNat_ofNat, Nat.mod_eq_of_lt hm]
  have hsz := h.size
  have hb := h.buf
  unfold digest64 value64
  dsimp only
  rw [hlen, finalize64_ok cfg _ (by show 0 + msg.length % 32 ≤ s.mem.length; omega) (fun _ => rfl)]
  have er : (s.mem.drop 0).take (msg.length % 32) = msg.drop (32 * (msg.length / 32)) := by
    apply ext_at
    · rw [List.length_take, List.length_drop, List.length_drop]; omega
    · intro j hj
      rw [List.length_take] at hj
      rw [at'_take (by omega), at'_drop, at'_drop, Nat.zero_add, h.data j (by omega)]
  dsimp only
  rw [er, h.acc, h.len]
  by_cases h1 : 32 ≤ msg.length
  · rw [if_pos h1, front64_eq seed h1]
  · rw [if_neg h1, show msg.length / 32 = 0 by omega]
    unfold front64
    rw [if_pos (by omega)]
    rfl

end Verif.Xxh64
