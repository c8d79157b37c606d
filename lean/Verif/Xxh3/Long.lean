import Verif.Xxh3.Simd

/-! Messages of more than 240 bytes. -/
namespace Verif.Xxh3
open Spec

theorem absorb_length (wd : Width) (sec : Mem) (acc : Acc) (m : Mem) (i s : Nat) : (absorb wd sec acc m i s).length = 8 := rfl

theorem scramble_length (sec : Mem) (acc : Acc) (s : Nat) : (scramble sec acc s).length = 8 := rfl

theorem stripes_length (wd : Width) (sec : Mem) (size : Nat) (m : Mem) (n : Nat) : (stripes wd sec size m n).length = 8 := by
  cases n with
  | zero => rfl
  | succ n =>
    rw [stripes]
    split <;> rfl

theorem le64_congr {m m' : Mem} {i i' : Nat} (h : ∀ j, j < 8 → at' m (i + j) = at' m' (i' + j)) : le64 m i = le64 m' i' := by
  have h0 := h 0 (by omega)
  rw [Nat.add_zero, Nat.add_zero] at h0
  unfold le64
  rw [h 7 (by omega), h 6 (by omega), h 5 (by omega), h 4 (by omega), h 3 (by omega), h 2 (by omega), h 1 (by omega), h0]

/-- Only the 64 bytes count. -/
theorem absorb_congr {wd : Width} {sec : Mem} {acc : Acc} {m m' : Mem} {i i' s : Nat} (h : ∀ j, j < 64 → at' m (i + j) = at' m' (i' + j)) :
    absorb wd sec acc m i s = absorb wd sec acc m' i' s := by
  have hk : ∀ k, k < 8 → le64 m (i + 8 * k) = le64 m' (i' + 8 * k) := fun k hk => le64_congr fun j hj => by
    rw [Nat.add_assoc, Nat.add_assoc]; exact h _ (by omega)
  rw [absorb_eq, absorb_eq]
  unfold lanes
  cases wd
  · simp only [hk 0 (by omega), hk 1 (by omega), hk 2 (by omega), hk 3 (by omega), hk 4 (by omega), hk 5 (by omega), hk 6 (by omega), hk 7 (by omega)]
  · simp only [show 0 ^^^ 1 = 1 from rfl, show 1 ^^^ 1 = 0 from rfl, show 2 ^^^ 1 = 3 from rfl, show 3 ^^^ 1 = 2 from rfl, show 4 ^^^ 1 = 5 from rfl, show 5 ^^^ 1 = 4 from rfl,
      show 6 ^^^ 1 = 7 from rfl, show 7 ^^^ 1 = 6 from rfl,
      hk 0 (by omega), hk 1 (by omega), hk 2 (by omega), hk 3 (by omega), hk 4 (by omega), hk 5 (by omega), hk 6 (by omega), hk 7 (by omega)]

/-- `n` stripes without scrambling. -/
def absorbs (wd : Width) (m : Mem) (i : Nat) (sec : Mem) (s : Nat) : Nat → Nat → Acc → Acc
  | _, 0, acc => acc
  | k, n + 1, acc => absorbs wd m i sec s (k + 1) n (absorb wd sec acc m (i + k * 64) (s + k * 8))

theorem absorbs_length (wd : Width) (m : Mem) (i : Nat) (sec : Mem) (s : Nat) : ∀ (n k : Nat) (acc : Acc), acc.length = 8 → (absorbs wd m i sec s k n acc).length = 8
  | 0, _, _, h => h
  | n + 1, k, _, _ => absorbs_length wd m i sec s n (k + 1) _ (absorb_length _ _ _ _ _ _)

theorem accumulate_ok (cfg : Cfg) {wd : Width} {m sec : Mem} {i s : Nat} : ∀ (n k : Nat) (acc : Acc), acc.length = 8 → i + (k + n) * 64 ≤ m.length →
    s + (k + n) * 8 + 56 ≤ sec.length → accumulate cfg wd m i sec s k n acc = .ok (absorbs wd m i sec s k n acc)
  | 0, _, _, _, _, _ => rfl
  | n + 1, k, acc, ha, hm, hs => by
    rw [accumulate]
    unfold STRIPE_LEN SECRET_CONSUME_RATE
    rw [accumulate_512_ok cfg ha (by omega) (by omega), R.ok_bind, accumulate_ok cfg n (k + 1) _ (absorb_length _ _ _ _ _ _) (by omega) (by omega)]
    rfl

/-- Stripes inside a block. -/
theorem absorbs_lt {wd : Width} {sec : Mem} {size : Nat} {msg m : Mem} {i s : Nat} : ∀ (n k N : Nat), s + 8 * k = 8 * (N % rounds size) → N % rounds size + n < rounds size →
    (∀ j, j < 64 * n → at' m (i + k * 64 + j) = at' msg (64 * N + j)) →
    absorbs wd m i sec s k n (stripes wd sec size msg N) = stripes wd sec size msg (N + n)
  | 0, _, _, _, _, _ => rfl
  | n + 1, k, N, hs, hn, hb => by
    have hN : (N + 1) % rounds size = N % rounds size + 1 := by
      rw [Nat.add_mod, Nat.mod_eq_of_lt (a := 1) (by omega), Nat.mod_eq_of_lt (by omega)]
    have e : absorb wd sec (stripes wd sec size msg N) m (i + k * 64) (s + k * 8) = stripes wd sec size msg (N + 1) := by
      rw [stripes]
      rw [if_neg (by omega), show s + k * 8 = 8 * (N % rounds size) by omega]
      exact absorb_congr fun j hj => hb j (by omega)
    rw [absorbs, e, absorbs_lt n (k + 1) (N + 1) (by omega) (by omega) (fun j hj => by
      have := hb (64 + j) (by omega)
      rw [show i + (k + 1) * 64 + j = i + k * 64 + (64 + j) by omega, this]
      congr 1; omega)]
    congr 1; omega

/-- Stripes up to the end of a block. -/
theorem absorbs_eq {wd : Width} {sec : Mem} {size : Nat} {msg m : Mem} {i s : Nat} : ∀ (n k N : Nat), s + 8 * k = 8 * (N % rounds size) → 0 < n → N % rounds size + n = rounds size →
    (∀ j, j < 64 * n → at' m (i + k * 64 + j) = at' msg (64 * N + j)) →
    scramble sec (absorbs wd m i sec s k n (stripes wd sec size msg N)) (size - 64) = stripes wd sec size msg (N + n)
  | 0, _, _, _, h0, _, _ => by omega
  | 1, k, N, hs, _, hn, hb => by
    have hN : (N + 1) % rounds size = 0 := by
      have e : N + 1 = rounds size * (N / rounds size) + rounds size * 1 := by
        have := Nat.div_add_mod N (rounds size); omega
      rw [e, ← Nat.mul_add, Nat.mul_mod_right]
    rw [absorbs, absorbs, stripes]
    rw [if_pos hN, show s + k * 8 = 8 * (N % rounds size) by omega]
    rw [absorb_congr (m' := msg) (i' := 64 * N) fun j hj => hb j (by omega)]
  | n + 2, k, N, hs, _, hn, hb => by
    have hN : (N + 1) % rounds size = N % rounds size + 1 := by
      rw [Nat.add_mod, Nat.mod_eq_of_lt (a := 1) (by omega), Nat.mod_eq_of_lt (by omega)]
    have e : absorb wd sec (stripes wd sec size msg N) m (i + k * 64) (s + k * 8) = stripes wd sec size msg (N + 1) := by
      rw [stripes]
      rw [if_neg (by omega), show s + k * 8 = 8 * (N % rounds size) by omega]
      exact absorb_congr fun j hj => hb j (by omega)
    rw [absorbs, e, absorbs_eq (n + 1) (k + 1) (N + 1) (by omega) (by omega) (by omega) (fun j hj => by
      have := hb (64 + j) (by omega)
      rw [show i + (k + 1) * 64 + j = i + k * 64 + (64 + j) by omega, this]
      congr 1; omega)]
    congr 1; omega

theorem rounds_pos {size : Nat} (h : 136 ≤ size) : 9 ≤ rounds size := by unfold rounds; omega

theorem blockLoop_ok (cfg : Cfg) {wd : Width} {m sec : Mem} {size : Nat} (hz : 136 ≤ size) (hs : size ≤ sec.length) : ∀ (n b : Nat), (b + n) * (64 * rounds size) ≤ m.length →
    blockLoop cfg wd m sec size (rounds size) (64 * rounds size) b n (stripes wd sec size m (b * rounds size)) = .ok (stripes wd sec size m ((b + n) * rounds size))
  | 0, _, _ => rfl
  | n + 1, b, h => by
    have h9 := rounds_pos hz
    have hr : rounds size * 8 + 64 ≤ size := by unfold rounds; omega
    have e1 : (b + (n + 1)) * (64 * rounds size) = (b + n) * (64 * rounds size) + 64 * rounds size := by rw [← Nat.add_assoc, Nat.add_mul, Nat.one_mul]
    have e2 : b * (64 * rounds size) ≤ (b + n) * (64 * rounds size) := Nat.mul_le_mul_right _ (by omega)
    have e3 : b * (64 * rounds size) = 64 * (b * rounds size) := Nat.mul_left_comm _ _ _
    have e4 : b * rounds size % rounds size = 0 := Nat.mul_mod_left _ _
    rw [blockLoop, accumulate_ok cfg _ _ _ (stripes_length _ _ _ _ _) (by omega) (by omega), R.ok_bind]
    unfold STRIPE_LEN
    rw [scrambleAcc_ok cfg (absorbs_length _ _ _ _ _ _ _ _ (stripes_length _ _ _ _ _)) (by omega), R.ok_bind,
      absorbs_eq (rounds size) 0 (b * rounds size) (by rw [e4]) (by omega) (by omega) (fun j _ => by rw [e3]; rfl)]
    have := blockLoop_ok cfg (wd := wd) (m := m) hz hs n (b + 1) (by rw [show b + 1 + n = b + (n + 1) by omega]; exact h)
    rw [show b * rounds size + rounds size = (b + 1) * rounds size by rw [Nat.add_mul, Nat.one_mul]]
    unfold STRIPE_LEN at this
    rw [this]
    congr 3; omega

theorem loop_ok (cfg : Cfg) {wd : Width} {m sec : Mem} {len size : Nat} (hl : 240 < len) (hm : len ≤ m.length) (hz : 136 ≤ size) (hs : size ≤ sec.length) :
    hashLong_internal_loop cfg wd INIT_ACC m len sec size = .ok (longAcc wd sec size m len) := by
  have h9 := rounds_pos hz
  have hr : rounds size * 8 + 64 ≤ size := by unfold rounds; omega
  unfold hashLong_internal_loop
  dsimp only
  rw [show (size - STRIPE_LEN) / SECRET_CONSUME_RATE = rounds size from rfl, show STRIPE_LEN = 64 from rfl, show SECRET_CONSUME_RATE = 8 from rfl,
    xassert_ok (.inr (by simp [SECRET_SIZE_MIN, hz])), R.ok_bind]
  have eb : len / (64 * rounds size) = len / 64 / rounds size := by rw [Nat.div_div_eq_div_mul]
  have er : (len - 64 * rounds size * (len / (64 * rounds size))) / 64 = len / 64 % rounds size := by
    rw [← Nat.mod_mul_right_div_self, Nat.mod_def]
  have hB : len / (64 * rounds size) * (64 * rounds size) ≤ len := Nat.div_mul_le_self _ _
  have b0 := blockLoop_ok cfg (wd := wd) (m := m) hz hs (len / (64 * rounds size)) 0 (by rw [Nat.zero_add]; omega)
  rw [Nat.zero_mul, Nat.zero_add] at b0
  rw [show INIT_ACC = stripes wd sec size m 0 from rfl, b0, R.ok_bind, xassert_ok (.inr (by simp; omega)), R.ok_bind, er]
  have hlt : len / 64 % rounds size < rounds size := Nat.mod_lt _ (by omega)
  have hge : rounds size ≤ size / 8 := by unfold rounds; omega
  have e1 : len / (64 * rounds size) * (64 * rounds size) + len / 64 % rounds size * 64 = 64 * (len / 64) := by
    rw [eb, Nat.mul_left_comm, Nat.mul_comm _ 64, ← Nat.mul_add, Nat.mul_comm (len / 64 / rounds size), Nat.div_add_mod]
  have e2 : len / (64 * rounds size) * (64 * rounds size) = 64 * (len / (64 * rounds size) * rounds size) := Nat.mul_left_comm _ _ _
  rw [xassert_ok (.inr (by simp; omega)), R.ok_bind, accumulate_ok cfg _ _ _ (stripes_length _ _ _ _ _) (by rw [Nat.zero_add, e1]; omega) (by omega), R.ok_bind]
  rw [absorbs_lt _ 0 _ (by rw [Nat.mul_mod_left]) (by rw [Nat.mul_mod_left]; omega) (fun j _ => by rw [e2]; rfl)]
  have e3 : len / (64 * rounds size) * rounds size + len / 64 % rounds size = len / 64 := by rw [eb, Nat.mul_comm, Nat.div_add_mod]
  rw [e3]
  have e4 : len &&& (64 - 1) = len % 64 := Nat.and_two_pow_sub_one_eq_mod len 6
  rw [e4]
  unfold longAcc
  dsimp only
  by_cases h : len % 64 = 0
  · rw [if_neg (by omega), if_pos h]
  · rw [if_pos h, if_neg h, accumulate_512_ok cfg (stripes_length _ _ _ _ _) (by omega) (by omega)]
    rw [show size - 64 - 7 = size - 71 by omega]

theorem getA_ok {acc : Acc} {k : Nat} (h : k < acc.length) : getA acc k = .ok (acc.getD k 0#64) := by
  simp [getA, List.getElem?_eq_getElem h, List.getD]

theorem mix2Accs_ok (cfg : Cfg) {acc : Acc} {sec : Mem} {k s : Nat} (ha : acc.length = 8) (hk : k < 4) (hs : s + 64 ≤ sec.length) :
    mix2Accs cfg acc (2 * k) sec (s + 16 * k) =
      .ok (fold (acc.getD (2 * k) 0#64 ^^^ le64 sec (s + 16 * k)) (acc.getD (2 * k + 1) 0#64 ^^^ le64 sec (s + 16 * k + 8))) := by
  unfold mix2Accs
  rw [getA_ok (by omega), R.ok_bind, readLE64_ok cfg (by omega), R.ok_bind, getA_ok (by omega), R.ok_bind, readLE64_ok cfg (by omega), R.ok_bind, fold_ok]

theorem mergeAccs_ok (cfg : Cfg) {acc : Acc} {sec : Mem} {s : Nat} {start : U64} (ha : acc.length = 8) (hs : s + 64 ≤ sec.length) :
    mergeAccs cfg acc sec s start = .ok (merge sec acc s start) := by
  unfold mergeAccs merge
  rw [mergeLoop, mix2Accs_ok cfg ha (by omega) hs, R.ok_bind, mergeLoop, mix2Accs_ok cfg ha (by omega) hs, R.ok_bind, mergeLoop, mix2Accs_ok cfg ha (by omega) hs, R.ok_bind,
    mergeLoop, mix2Accs_ok cfg ha (by omega) hs, R.ok_bind, mergeLoop, R.ok_bind]
  simp only [sum_succ, sum_zero, BitVec.zero_add, BitVec.add_assoc, Nat.zero_add, Nat.reduceAdd]

theorem longAcc_length (wd : Width) (sec : Mem) (size : Nat) (m : Mem) (len : Nat) : (longAcc wd sec size m len).length = 8 := by
  unfold longAcc
  dsimp only
  split
  · exact stripes_length _ _ _ _ _
  · rfl

theorem hashLong_ok (cfg : Cfg) {m sec : Mem} {len size : Nat} (hl : 240 < len) (hm : len ≤ m.length) (hz : 136 ≤ size) (hs : size ≤ sec.length) :
    hashLong_internal cfg m len sec size = .ok (long sec size m len) := by
  unfold hashLong_internal
  rw [loop_ok cfg hl hm hz hs, R.ok_bind, xassert_ok (.inr (by simp; omega)), R.ok_bind, mergeAccs_ok cfg (longAcc_length _ _ _ _ _) (by omega)]
  rfl

/-! ### the secret of a seed -/

theorem bytesOf_eq (v : U64) : bytesOf v = toBytes v := by
  unfold bytesOf toBytes
  apply List.map_congr_left
  intro k hk
  apply BitVec.eq_of_toNat_eq
  rw [BitVec.extractLsb'_toNat, BitVec.toNat_ofNat, Nat.shiftRight_eq_div_pow, Nat.pow_mul]

theorem toBytes_length (v : U64) : (toBytes v).length = 8 := by simp [toBytes]

theorem bytes_le (v : U64) : v = (v.extractLsb' 56 8 ++ v.extractLsb' 48 8 ++ v.extractLsb' 40 8 ++ v.extractLsb' 32 8 ++ v.extractLsb' 24 8 ++ v.extractLsb' 16 8
    ++ v.extractLsb' 8 8 ++ v.extractLsb' 0 8 : BitVec 64) := by
  apply BitVec.eq_of_toNat_eq
  have h := v.isLt
  rw [toNat8, toNat4]
  simp only [BitVec.extractLsb'_toNat, Nat.shiftRight_eq_div_pow]
  omega

theorem bytesOf_swap (v : U64) : (bytesOf (swap64 v)).reverse = bytesOf v := by
  have hv := bytes_le v
  generalize v.extractLsb' 56 8 = a at hv
  generalize v.extractLsb' 48 8 = b at hv
  generalize v.extractLsb' 40 8 = c at hv
  generalize v.extractLsb' 32 8 = d at hv
  generalize v.extractLsb' 24 8 = e at hv
  generalize v.extractLsb' 16 8 = f at hv
  generalize v.extractLsb' 8 8 = g at hv
  generalize v.extractLsb' 0 8 = h at hv
  rw [hv, swap64_bytes]
  have key : ∀ a b c d e f g h : Byte, bytesOf (a ++ b ++ c ++ d ++ e ++ f ++ g ++ h : BitVec 64) = [h, g, f, e, d, c, b, a] := by
    intro a b c d e f g h
    rw [bytesOf_eq]
    unfold toBytes
    have := a.isLt
    have := b.isLt
    have := c.isLt
    have := d.isLt
    have := e.isLt
    have := f.isLt
    have := g.isLt
    have := h.isLt
    rw [toNat8, toNat4]
    simp only [show List.range 8 = [0, 1, 2, 3, 4, 5, 6, 7] from rfl, List.map_cons, List.map_nil]
    congr 1
    · apply BitVec.eq_of_toNat_eq; rw [BitVec.toNat_ofNat]; omega
    congr 1
    · apply BitVec.eq_of_toNat_eq; rw [BitVec.toNat_ofNat]; omega
    congr 1
    · apply BitVec.eq_of_toNat_eq; rw [BitVec.toNat_ofNat]; omega
    congr 1
    · apply BitVec.eq_of_toNat_eq; rw [BitVec.toNat_ofNat]; omega
    congr 1
    · apply BitVec.eq_of_toNat_eq; rw [BitVec.toNat_ofNat]; omega
    congr 1
    · apply BitVec.eq_of_toNat_eq; rw [BitVec.toNat_ofNat]; omega
    congr 1
    · apply BitVec.eq_of_toNat_eq; rw [BitVec.toNat_ofNat]; omega
    congr 1
    · apply BitVec.eq_of_toNat_eq; rw [BitVec.toNat_ofNat]; omega
  rw [key, key]
  rfl

theorem writeLE64_ok (cfg : Cfg) {m : Mem} {i : Nat} (v : U64) (h : i + 8 ≤ m.length) : writeLE64 cfg m i v = .ok (m.take i ++ toBytes v ++ m.drop (i + 8)) := by
  have e : (if cfg.little then bytesOf (if cfg.little then v else swap64 v) else (bytesOf (if cfg.little then v else swap64 v)).reverse) = toBytes v := by
    cases cfg.little
    · simp only [Bool.false_eq_true, if_false]; rw [bytesOf_swap, bytesOf_eq]
    · simp only [if_true]; rw [bytesOf_eq]
  unfold writeLE64 copyTo
  dsimp only
  rw [e, toBytes_length, if_pos h]

theorem kSecret_length : kSecret.length = 192 := by decide +kernel

/-- The part of the secret written so far. -/
def seededTo (seed : U64) (n : Nat) : Mem := (List.range n).flatMap fun k => toBytes (if k % 2 = 0 then le64 kSecret (8 * k) + seed else le64 kSecret (8 * k) - seed)

theorem seededTo_succ (seed : U64) (n : Nat) : seededTo seed (n + 1) = seededTo seed n ++ toBytes (if n % 2 = 0 then le64 kSecret (8 * n) + seed else le64 kSecret (8 * n) - seed) := by
  simp [seededTo, List.range_succ, List.flatMap_append]

theorem seededTo_length (seed : U64) : ∀ n, (seededTo seed n).length = 8 * n
  | 0 => rfl
  | n + 1 => by rw [seededTo_succ, List.length_append, seededTo_length seed n, toBytes_length]; omega

theorem secretLoop_ok (cfg : Cfg) (seed : U64) : ∀ (n i : Nat) (rest : Mem), i + n ≤ 12 → rest.length = 16 * n →
    secretLoop cfg seed i n (seededTo seed (2 * i) ++ rest) = .ok (seededTo seed (2 * (i + n)))
  | 0, i, rest, _, hr => by
    have : rest = [] := List.length_eq_zero_iff.1 (by omega)
    rw [this, List.append_nil]; rfl
  | n + 1, i, rest, hi, hr => by
    have hk := kSecret_length
    have hl := seededTo_length seed (2 * i)
    have hl1 := seededTo_length seed (2 * i + 1)
    rw [secretLoop, readLE64_ok cfg (by omega), R.ok_bind, readLE64_ok cfg (by omega), R.ok_bind]
    rw [writeLE64_ok cfg _ (by rw [List.length_append, hl]; omega), R.ok_bind]
    have e1 : (seededTo seed (2 * i) ++ rest).take (16 * i) ++ toBytes (le64 kSecret (16 * i) + seed) ++ (seededTo seed (2 * i) ++ rest).drop (16 * i + 8) =
        seededTo seed (2 * i + 1) ++ rest.drop 8 := by
      rw [List.take_append_of_le_length (by omega), List.take_of_length_le (by omega), List.drop_append, List.drop_of_length_le (by omega), List.nil_append, seededTo_succ,
        if_pos (by omega), show 8 * (2 * i) = 16 * i by omega, hl, show 16 * i + 8 - 8 * (2 * i) = 8 by omega]
    rw [e1, writeLE64_ok cfg _ (by rw [List.length_append, hl1, List.length_drop]; omega), R.ok_bind]
    have e2 : (seededTo seed (2 * i + 1) ++ rest.drop 8).take (16 * i + 8) ++ toBytes (le64 kSecret (16 * i + 8) - seed) ++
        (seededTo seed (2 * i + 1) ++ rest.drop 8).drop (16 * i + 8 + 8) = seededTo seed (2 * (i + 1)) ++ rest.drop 16 := by
      rw [List.take_append_of_le_length (by omega), List.take_of_length_le (by omega), List.drop_append, List.drop_of_length_le (by omega), List.nil_append,
        show 2 * (i + 1) = 2 * i + 1 + 1 by omega, seededTo_succ seed (2 * i + 1), if_neg (by omega), show 8 * (2 * i + 1) = 16 * i + 8 by omega, hl1,
        show 16 * i + 8 + 8 - 8 * (2 * i + 1) = 8 by omega, List.drop_drop]
    rw [e2, secretLoop_ok cfg seed n (i + 1) _ (by omega) (by rw [List.length_drop]; omega)]
    congr 2; omega

theorem initCustomSecret_ok (cfg : Cfg) (seed : U64) {m : Mem} (h : m.length = 192) : initCustomSecret cfg m seed = .ok (seeded seed) :=
  secretLoop_ok cfg seed 12 0 m (by omega) (by omega)

theorem seeded_length (seed : U64) : (seeded seed).length = 192 := seededTo_length seed 24

theorem seeded_zero : seeded 0#64 = kSecret := by decide +kernel

theorem hashLong_withSeed_ok (cfg : Cfg) {m : Mem} {len : Nat} {seed : U64} (hl : 240 < len) (hm : len ≤ m.length) :
    hashLong_withSeed cfg m len seed = .ok (long (seeded seed) 192 m len) := by
  unfold hashLong_withSeed SECRET_DEFAULT_SIZE
  split
  · rename_i h
    rw [h, seeded_zero, hashLong_ok cfg hl hm (by omega) (by rw [kSecret_length]; omega)]
  · rw [initCustomSecret_ok cfg seed (List.length_replicate ..), R.ok_bind, hashLong_ok cfg hl hm (by omega) (by rw [seeded_length]; omega)]

theorem withSeed_ok (cfg : Cfg) {m : Mem} {len : Nat} {seed : U64} (hd : cfg.debug = false ∨ len ≠ 8) (hm : len ≤ m.length) :
    withSeed cfg m len seed = .ok (if len ≤ 240 then short kSecret seed m len else long (seeded seed) 192 m len) := by
  have hk := kSecret_length
  unfold withSeed
  by_cases h16 : len ≤ 16
  · rw [if_pos h16, if_pos (by omega), len_0to16_ok hd h16 hm (by omega)]
  · rw [if_neg h16]
    by_cases h128 : len ≤ 128
    · rw [if_pos h128, if_pos (by omega), len_17to128_ok (by omega) h128 hm (by omega) (by decide)]
      unfold short
      rw [if_neg (by omega), if_neg (by omega), if_neg (by omega), if_neg (by omega), if_pos h128]
    · rw [if_neg h128]
      by_cases h240 : len ≤ 240
      · rw [if_pos h240, if_pos (by omega), len_129to240_ok (by omega) h240 hm (by omega) (by decide)]
        unfold short
        rw [if_neg (by omega), if_neg (by omega), if_neg (by omega), if_neg (by omega), if_neg h128]
      · rw [if_neg h240, if_neg (by omega), hashLong_withSeed_ok cfg (by omega) hm]

theorem withSecret_ok (cfg : Cfg) {m sec : Mem} {len size : Nat} (hd : cfg.debug = false ∨ len ≠ 8) (hm : len ≤ m.length) (hz : 136 ≤ size) (hs : size ≤ sec.length) :
    withSecret cfg m len sec size = .ok (if len ≤ 240 then short sec 0#64 m len else long sec size m len) := by
  unfold withSecret
  rw [xassert_ok (.inr (by simp [SECRET_SIZE_MIN, hz])), R.ok_bind]
  by_cases h16 : len ≤ 16
  · rw [if_pos h16, if_pos (by omega), len_0to16_ok hd h16 hm (by omega)]
  · rw [if_neg h16]
    by_cases h128 : len ≤ 128
    · rw [if_pos h128, if_pos (by omega), len_17to128_ok (by omega) h128 hm (by omega) hz]
      unfold short
      rw [if_neg (by omega), if_neg (by omega), if_neg (by omega), if_neg (by omega), if_pos h128]
    · rw [if_neg h128]
      by_cases h240 : len ≤ 240
      · rw [if_pos h240, if_pos (by omega), len_129to240_ok (by omega) h240 hm (by omega) hz]
        unfold short
        rw [if_neg (by omega), if_neg (by omega), if_neg (by omega), if_neg (by omega), if_neg h128]
      · rw [if_neg h240, if_neg (by omega), hashLong_ok cfg (by omega) hm hz hs]

end Verif.Xxh3
