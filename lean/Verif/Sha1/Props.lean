import Verif.Sha1.Lemmas

/-! Property theorems for SHA-1: C41. -/
namespace Verif.Sha1

open Verif.Bits (byteswap byteOf)

attribute [local irreducible] Spec.compress Spec.words

theorem process_zero (h : Spec.Hash) (x : List Byte) : Spec.process h x 0 = h := rfl

theorem process_succ (h : Spec.Hash) (x : List Byte) (n : Nat) :
    Spec.process h x (n + 1) = Spec.process (Spec.compress h (Spec.words (x.take 64))) (x.drop 64) n := rfl

theorem process_append (n k : Nat) : ∀ (h : Spec.Hash) (x y : List Byte), x.length = 64 * n →
    Spec.process h (x ++ y) (n + k) = Spec.process (Spec.process h x n) y k := by
  induction n with
  | zero =>
    intro h x y hx
    have hx0 : x = [] := List.length_eq_zero_iff.1 (by omega)
    rw [hx0, Nat.zero_add, List.nil_append, process_zero]
  | succ n ih =>
    intro h x y hx
    rw [show n + 1 + k = (n + k) + 1 by omega, process_succ, process_succ, List.take_append_of_le_length (by omega),
      List.drop_append_of_le_length (by omega), ih _ _ _ (by rw [List.length_drop]; omega)]

theorem process_one (h : Spec.Hash) (x : List Byte) : Spec.process h x 1 = Spec.compress h (Spec.words (x.take 64)) := rfl

theorem copyInto_ok {buf : List Byte} {off : Nat} {data : List Byte} (h : off + data.length ≤ buf.length) :
    ∃ buf', copyInto buf off data = .ok buf' ∧ buf'.length = buf.length ∧ buf'.take (off + data.length) = buf.take off ++ data := by
  refine ⟨_, by unfold copyInto; rw [if_pos h], ?_, ?_⟩
  · simp only [List.length_append, List.length_take, List.length_drop]; omega
  · rw [List.take_append_of_le_length (by simp only [List.length_append, List.length_take]; omega), List.take_of_length_le]
    simp only [List.length_append, List.length_take]; omega

/-- The builder has taken in the message `m`. -/
structure Inv (d : Digest) (buf : List Byte) (size : Nat) (m : List Byte) : Prop where
  len : buf.length = 128
  size_eq : size = m.length % 64
  rest : buf.take size = m.drop (64 * (m.length / 64))
  digest : toHash d = Spec.process Spec.H0 (m.take (64 * (m.length / 64))) (m.length / 64)

theorem addLoop_ok (n : Nat) : ∀ {b : Builder} {m data : List Byte}, Inv b.digest b.buf b.size m → data.length < n →
    ∃ b', addLoop b data n = .ok b' ∧ Inv b'.digest b'.buf b'.size (m ++ data) ∧ b'.total = b.total := by
  induction n with
  | zero => intro b m data _ h; omega
  | succ n ih =>
    intro b m data I hn
    have hs : b.size < 64 := by have := I.size_eq; omega
    have hm := I.size_eq
    have hbl := I.len
    rw [addLoop]
    have e : (64 + 2 ^ 64 - b.size) % 2 ^ 64 = 64 - b.size := by omega
    simp only [e]
    by_cases hc : 64 - b.size > data.length
    · rw [if_pos hc]
      obtain ⟨buf', e1, e2, e3⟩ := copyInto_ok (buf := b.buf) (off := b.size) (data := data) (by omega)
      rw [e1, R.ok_bind, ccAssert_true (c := decide (b.size + data.length < 64)) (by simp; omega), R.ok_bind]
      refine ⟨_, rfl, ⟨by rw [e2, hbl], ?_, ?_, ?_⟩, rfl⟩
      · rw [List.length_append]; simp only; omega
      · simp only
        have q : (m ++ data).length / 64 = m.length / 64 := by rw [List.length_append]; omega
        rw [e3, q, List.drop_append_of_le_length (by omega), I.rest]
      · simp only
        have q : (m ++ data).length / 64 = m.length / 64 := by rw [List.length_append]; omega
        rw [q, List.take_append_of_le_length (by omega)]
        exact I.digest
    · rw [if_neg hc]
      have hl : (data.take (64 - b.size)).length = 64 - b.size := by rw [List.length_take]; omega
      obtain ⟨buf', e1, e2, e3⟩ := copyInto_ok (buf := b.buf) (off := b.size) (data := data.take (64 - b.size)) (by omega)
      obtain ⟨d', e4, e5⟩ := transform_ok (d := b.digest) (buf := buf') (off := 0) (by omega)
      rw [e1, R.ok_bind, e4, R.ok_bind]
      rw [hl, show b.size + (64 - b.size) = 64 by omega] at e3
      have hlen : (m ++ data.take (64 - b.size)).length = 64 * (m.length / 64 + 1) := by
        rw [List.length_append, hl]; omega
      have hq : (m ++ data.take (64 - b.size)).length / 64 = m.length / 64 + 1 := by omega
      obtain ⟨b', r1, r2, r3⟩ := ih (b := { digest := d', total := b.total, buf := buf', size := 0 }) (m := m ++ data.take (64 - b.size))
        (data := data.drop (64 - b.size)) ⟨by simp only; omega, by simp only; omega, by
            simp only
            rw [hq, List.drop_eq_nil_of_le (by omega)]; rfl, by
            simp only
            have h1 : (m.take (64 * (m.length / 64))).length = 64 * (m.length / 64) := by rw [List.length_take]; omega
            rw [hq, List.take_of_length_le (Nat.le_of_eq hlen), e5, List.drop_zero, e3, I.rest, I.digest]
            have h2 : m ++ data.take (64 - b.size) = m.take (64 * (m.length / 64)) ++ (m.drop (64 * (m.length / 64)) ++ data.take (64 - b.size)) := by
              rw [← List.append_assoc, List.take_append_drop]
            rw [h2, process_append _ 1 _ _ _ h1, process_one,
              List.take_of_length_le (by rw [List.length_append, List.length_drop, hl]; omega : (m.drop (64 * (m.length / 64)) ++ data.take (64 - b.size)).length ≤ 64)]⟩
        (by rw [List.length_drop]; omega)
      refine ⟨b', r1, ?_, r3⟩
      rw [List.append_assoc, List.take_append_drop] at r2
      exact r2

/-- The builder has taken in `m`, including the counter. -/
structure Full (b : Builder) (m : List Byte) : Prop where
  inv : Inv b.digest b.buf b.size m
  total : b.total = BitVec.ofNat 64 m.length

theorem full_reset {b : Builder} (h : b.buf.length = 128) : Full (reset b) [] :=
  ⟨⟨h, rfl, rfl, rfl⟩, rfl⟩

theorem add_ok {b : Builder} {m : List Byte} (F : Full b m) (data : List Byte) : ∃ b', add b data = .ok b' ∧ Full b' (m ++ data) := by
  obtain ⟨b', e1, e2, e3⟩ := addLoop_ok (data.length + 2)
    (b := { digest := b.digest, total := b.total + BitVec.ofNat 64 data.length, buf := b.buf, size := b.size }) (data := data) F.inv (by omega)
  refine ⟨b', e1, e2, ?_⟩
  rw [e3, F.total, List.length_append, BitVec.ofNat_add]

theorem addAll_ok : ∀ {cs : List (List Byte)} {b : Builder} {m : List Byte}, Full b m →
    ∃ b', addAll b cs = .ok b' ∧ Full b' (m ++ cs.flatten) := by
  intro cs
  induction cs with
  | nil => intro b m F; exact ⟨b, rfl, by simpa using F⟩
  | cons c cs ih =>
    intro b m F
    obtain ⟨b1, e1, F1⟩ := add_ok F c
    obtain ⟨b2, e2, F2⟩ := ih F1
    refine ⟨b2, by rw [addAll, e1, R.ok_bind, e2], ?_⟩
    rw [List.flatten_cons, ← List.append_assoc]; exact F2

theorem padLoop_ok (n : Nat) : ∀ {buf : List Byte} {size : Nat}, buf.length = 128 → size ≤ 120 → (184 - size) % 64 < n →
    ∃ buf', padLoop buf size n = .ok (buf', size + (184 - size) % 64) ∧ buf'.length = 128 ∧
      buf'.take (size + (184 - size) % 64) = buf.take size ++ List.replicate ((184 - size) % 64) 0x00#8 := by
  induction n with
  | zero => intro buf size _ _ h; omega
  | succ n ih =>
    intro buf size hb hs hn
    rw [padLoop]
    by_cases hc : size % 64 ≠ 56
    · rw [if_pos hc]
      obtain ⟨b1, e1, e2, e3⟩ := copyInto_ok (buf := buf) (off := size) (data := [0x00#8]) (by simp; omega)
      rw [e1, R.ok_bind]
      obtain ⟨b2, r1, r2, r3⟩ := ih (buf := b1) (size := size + 1) (by omega) (by omega) (by omega)
      have hk : (184 - size) % 64 = (184 - (size + 1)) % 64 + 1 := by omega
      refine ⟨b2, ?_, r2, ?_⟩
      · rw [r1]; congr 2; omega
      · rw [hk, show size + ((184 - (size + 1)) % 64 + 1) = size + 1 + (184 - (size + 1)) % 64 by omega, r3]
        simp only [List.length_singleton] at e3
        rw [e3, List.replicate_succ, List.append_assoc]
        rfl
    · rw [if_neg hc]
      have hk : (184 - size) % 64 = 0 := by omega
      rw [hk]
      exact ⟨buf, rfl, hb, by simp⟩

theorem length_bytes {len : Nat} (h : len < 2 ^ 61) :
    (List.range 8).map (byteOf (byteswap (BitVec.ofNat 64 len * 8#64))) =
      (List.range 8).map fun i => BitVec.ofNat 8 (8 * len / 256 ^ (7 - i)) := by
  apply List.map_congr_left
  intro i hi
  have hi : i < 8 := List.mem_range.1 hi
  rw [Bits.C16_byteswap_bytes (by decide) _ i (by omega)]
  unfold byteOf
  apply BitVec.eq_of_toNat_eq
  rw [BitVec.extractLsb'_toNat, BitVec.toNat_mul, BitVec.toNat_ofNat, BitVec.toNat_ofNat, BitVec.toNat_ofNat, Nat.shiftRight_eq_div_pow]
  have e1 : len % 2 ^ 64 * (8 % 2 ^ 64) % 2 ^ 64 = 8 * len := by omega
  have e2 : 2 ^ (8 * (64 / 8 - 1 - i)) = 256 ^ (7 - i) := by
    rw [Nat.pow_mul]
  rw [e1, e2]

theorem bytes_swapped (w : Word) : bytes32 (byteswap w) = Spec.bytes w := by
  unfold bytes32 Spec.bytes
  rw [Bits.C16_byteswap_bytes (by decide) w 0 (by decide), Bits.C16_byteswap_bytes (by decide) w 1 (by decide),
    Bits.C16_byteswap_bytes (by decide) w 2 (by decide), Bits.C16_byteswap_bytes (by decide) w 3 (by decide)]
  rfl

theorem pad_length (m : List Byte) : (Spec.pad m).length = m.length + 9 + Spec.zeros m.length := by
  unfold Spec.pad
  simp only [List.length_append, List.length_replicate, List.length_map, List.length_range, List.length_singleton]
  omega

theorem finalize_ok {b : Builder} {m : List Byte} (F : Full b m) (hm : m.length < 2 ^ 61) :
    ∃ b', finalize b = .ok (Spec.sha1 m, b') ∧ b'.buf.length = 128 := by
  have I := F.inv
  have hs := I.size_eq
  have hbl := I.len
  have hzz : Spec.zeros m.length = (184 - (b.size + 1)) % 64 := by unfold Spec.zeros; omega
  obtain ⟨b1, e1, e2, e3⟩ := copyInto_ok (buf := b.buf) (off := b.size) (data := [0x80#8]) (by simp; omega)
  obtain ⟨b2, r1, r2, r3⟩ := padLoop_ok 65 (buf := b1) (size := b.size + 1) (by omega) (by omega) (by omega)
  generalize hz : (184 - (b.size + 1)) % 64 = z at r1 r2 r3 hzz
  have hlb := length_bytes hm
  have hll : ((List.range 8).map fun i => BitVec.ofNat 8 (8 * m.length / 256 ^ (7 - i))).length = 8 := by simp
  obtain ⟨b3, q1, q2, q3⟩ := copyInto_ok (buf := b2) (off := b.size + 1 + z)
    (data := (List.range 8).map fun i => BitVec.ofNat 8 (8 * m.length / 256 ^ (7 - i))) (by rw [hll]; omega)
  rw [hll] at q3
  simp only [List.length_singleton] at e3
  have hfinal : b3.take (b.size + 1 + z + 8) = (Spec.pad m).drop (64 * (m.length / 64)) := by
    rw [q3, r3, e3, I.rest]
    unfold Spec.pad
    simp only [hzz, List.append_assoc]
    rw [List.drop_append_of_le_length (by omega)]
  have htake : (Spec.pad m).take (64 * (m.length / 64)) = m.take (64 * (m.length / 64)) := by
    unfold Spec.pad
    rw [List.append_assoc, List.append_assoc, List.take_append_of_le_length (by omega)]
  have hpl := pad_length m
  have hproc : ∀ k, Spec.process Spec.H0 (Spec.pad m) (m.length / 64 + k) =
      Spec.process (toHash b.digest) (b3.take (b.size + 1 + z + 8)) k := by
    intro k
    conv => lhs; rw [← List.take_append_drop (64 * (m.length / 64)) (Spec.pad m)]
    rw [process_append _ _ _ _ _ (by rw [List.length_take]; omega), htake, ← hfinal, I.digest]
  unfold finalize
  rw [e1, R.ok_bind, r1, R.ok_bind, F.total, hlb]
  simp only
  rw [q1, R.ok_bind, ccAssert_true (c := decide (b.size + 1 + z + 8 = 64) || decide (b.size + 1 + z + 8 = 128)) (by simp; omega), R.ok_bind]
  obtain ⟨d1, t1, t2⟩ := transform_ok (d := b.digest) (buf := b3) (off := 0) (by omega)
  rw [t1, R.ok_bind]
  rw [List.drop_zero] at t2
  have key : ∃ d2, secondBlock d1 b3 (b.size + 1 + z + 8) = .ok d2 ∧
      toHash d2 = Spec.process Spec.H0 (Spec.pad m) ((Spec.pad m).length / 64) := by
    unfold secondBlock
    by_cases h2 : b.size + 1 + z + 8 = 128
    · rw [if_pos h2]
      obtain ⟨d2, u1, u2⟩ := transform_ok (d := d1) (buf := b3) (off := 64) (by omega)
      refine ⟨d2, u1, ?_⟩
      rw [show (Spec.pad m).length / 64 = m.length / 64 + 2 by omega, hproc, h2, u2, t2, List.take_of_length_le (by omega : b3.length ≤ 128)]
      rfl
    · rw [if_neg h2]
      refine ⟨d1, rfl, ?_⟩
      have h1 : b.size + 1 + z + 8 = 64 := by omega
      rw [show (Spec.pad m).length / 64 = m.length / 64 + 1 by omega, hproc, h1, t2, process_one, List.take_take]
      rfl
  obtain ⟨d2, v1, v2⟩ := key
  rw [v1, R.ok_bind]
  simp only [bytes_swapped]
  refine ⟨⟨⟨byteswap d2.d0, byteswap d2.d1, byteswap d2.d2, byteswap d2.d3, byteswap d2.d4⟩, BitVec.ofNat 64 m.length, b3,
    b.size + 1 + z + 8⟩, ?_, by show b3.length = 128; omega⟩
  unfold Spec.sha1
  simp only
  rw [← v2]
  rfl

/-- **C41**: whatever state an object is in (freshly constructed with uninitialised buffer, or used before), after `reset`, any sequence of `add` calls
with any chunks of fewer than 2^61 bytes in total, `finalize` returns the FIPS 180-4 SHA-1 digest of the concatenation; no step
writes or reads outside the buffer. -/
theorem C41_sha1_any_chunking (b : Builder) (hb : b.buf.length = 128) (chunks : List (List Byte)) (h : chunks.flatten.length < 2 ^ 61) :
    ∃ b1 b2, addAll (reset b) chunks = .ok b1 ∧ finalize b1 = .ok (Spec.sha1 chunks.flatten, b2) ∧ b2.buf.length = 128 := by
  obtain ⟨b1, e1, F⟩ := addAll_ok (cs := chunks) (full_reset hb)
  rw [List.nil_append] at F
  obtain ⟨b2, e2, e3⟩ := finalize_ok F h
  exact ⟨b1, b2, e1, e2, e3⟩

/-- **C41** for the one-shot function. -/
theorem C41_make_hash_sha1 (b : Builder) (hb : b.buf.length = 128) (data : List Byte) (h : data.length < 2 ^ 61) :
    makeHashSha1 b data = .ok (Spec.sha1 data) := by
  obtain ⟨b1, e1, F⟩ := add_ok (full_reset (b := reset b) hb) data
  rw [List.nil_append] at F
  obtain ⟨b2, e2, _⟩ := finalize_ok F h
  unfold makeHashSha1
  rw [e1, R.ok_bind, e2]
  rfl

/-- The digits of a byte in base 16. -/
def hexDigits (b : Byte) : List Char := [Nat.digitChar (b.toNat / 16), Nat.digitChar (b.toNat % 16)]

/-- **C41** for the hexadecimal result: two digits per byte of the digest, most significant first. -/
theorem C41_make_hash_sha1_string (b : Builder) (hb : b.buf.length = 128) (data : List Byte) (h : data.length < 2 ^ 61) :
    makeHashSha1String b data = .ok ((Spec.sha1 data).flatMap hexDigits) := by
  have hd : ∀ x : Byte, hex[(x >>> 4).toNat]? = some (Nat.digitChar (x.toNat / 16)) ∧
      hex[(x &&& 0xf#8).toNat]? = some (Nat.digitChar (x.toNat % 16)) := by
    intro x
    have : ∀ n : Fin 256, hex[((BitVec.ofNat 8 n.1) >>> 4).toNat]? = some (Nat.digitChar ((BitVec.ofNat 8 n.1).toNat / 16)) ∧
      hex[((BitVec.ofNat 8 n.1) &&& 0xf#8).toNat]? = some (Nat.digitChar ((BitVec.ofNat 8 n.1).toNat % 16)) := by decide +kernel
    have := this ⟨x.toNat, x.isLt⟩
    rw [BitVec.ofNat_toNat, BitVec.setWidth_eq] at this
    exact this
  have hs : ∀ l : List Byte, hexString l = .ok (l.flatMap hexDigits) := by
    intro l
    induction l with
    | nil => rfl
    | cons x l ih =>
      rw [hexString]
      simp only [(hd x).1, (hd x).2, ih, R.ok_bind]
      rfl
  unfold makeHashSha1String
  rw [C41_make_hash_sha1 b hb data h, R.ok_bind, hs]

/-- The padding of the specification makes the length a multiple of 64 with fewer than 64 zero bytes, as FIPS 180-4 demands. -/
theorem C41_padding (m : List Byte) : (Spec.pad m).length % 64 = 0 ∧ Spec.zeros m.length < 64 := by
  rw [pad_length]
  unfold Spec.zeros
  omega

/-- A builder with garbage in it. -/
def junk : Builder := { digest := ⟨1#32, 2#32, 3#32, 4#32, 5#32⟩, total := 77#64, buf := List.replicate 128 0xaa#8, size := 99 }

/-- The published test vector: SHA-1("abc"). -/
example : junk.buf.length = 128 ∧ [[0x61#8], [], [0x62#8, 0x63#8]].flatten.length < 2 ^ 61 ∧
    Spec.sha1 [[0x61#8], [], [0x62#8, 0x63#8]].flatten =
      [0xa9#8, 0x99#8, 0x3e#8, 0x36#8, 0x47#8, 0x06#8, 0x81#8, 0x6a#8, 0xba#8, 0x3e#8, 0x25#8, 0x71#8, 0x78#8, 0x50#8, 0xc2#8, 0x6c#8,
        0x9c#8, 0xd0#8, 0xd8#8, 0x9d#8] := by
  decide +kernel

/-- The published test vector of two blocks: SHA-1("abcdbcdecdefdefgefghfghighijhijkijkljklmklmnlmnomnopnopq"). -/
example : Spec.sha1 ("abcdbcdecdefdefgefghfghighijhijkijkljklmklmnlmnomnopnopq".toList.map fun c => BitVec.ofNat 8 c.toNat) =
      [0x84#8, 0x98#8, 0x3e#8, 0x44#8, 0x1c#8, 0x3b#8, 0xd2#8, 0x6e#8, 0xba#8, 0xae#8, 0x4a#8, 0xa1#8, 0xf9#8, 0x51#8, 0x29#8, 0xe5#8,
        0xe5#8, 0x46#8, 0x70#8, 0xf1#8] := by
  decide +kernel

end Verif.Sha1
