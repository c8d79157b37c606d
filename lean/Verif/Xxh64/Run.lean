import Verif.Xxh64.Inj

/-! Histories of streaming calls; the canonical representation. -/
namespace Verif.Xxh64
open Verif.Xxh3 (Byte U32 U64 Mem rd8 swap32 swap64 read32 read64 bytesOf)
open Verif.Xxh3 (rd8_ok bytesOf_eq bytesOf_swap bytes_le swap32_bytes swap64_bytes toNat4)
open Verif.Xxh3.Spec (at' le32 le64 toBytes)
open Spec

/-- All sessions have their states. -/
structure Rel (h : Heap) (v : View) : Prop where
  r32 : ∀ i se, v.s32 i = some se → ∃ s, h.s32 i = some s ∧ Inv32 s se.seed se.msg
  r64 : ∀ i se, v.s64 i = some se → ∃ s, h.s64 i = some s ∧ Inv64 s se.seed se.msg ∧ se.msg.length < 2 ^ 64

theorem Rel.put32 {h : Heap} {v : View} (hr : Rel h v) {i : Nat} {s : State32} {se : Sess32} (hs : Inv32 s se.seed se.msg) :
    Rel { h with s32 := put h.s32 i (some s) } { v with s32 := fun j => if j = i then some se else v.s32 j } := by
  refine ⟨fun j se' e => ?_, hr.r64⟩
  dsimp only at e ⊢
  unfold put
  by_cases hj : j = i
  · rw [if_pos hj] at e ⊢
    cases e
    exact ⟨s, rfl, hs⟩
  · rw [if_neg hj] at e ⊢
    exact hr.r32 j se' e

theorem Rel.put64 {h : Heap} {v : View} (hr : Rel h v) {i : Nat} {s : State64} {se : Sess64} (hs : Inv64 s se.seed se.msg) (hl : se.msg.length < 2 ^ 64) :
    Rel { h with s64 := put h.s64 i (some s) } { v with s64 := fun j => if j = i then some se else v.s64 j } := by
  refine ⟨hr.r32, fun j se' e => ?_⟩
  dsimp only at e ⊢
  unfold put
  by_cases hj : j = i
  · rw [if_pos hj] at e ⊢
    cases e
    exact ⟨s, rfl, hs, hl⟩
  · rw [if_neg hj] at e ⊢
    exact hr.r64 j se' e

theorem step_ok (cfg : Cfg) {h : Heap} {v : View} {op : Op} (hr : Rel h v) (hl : legal v op) : ∃ h', step cfg h op = .ok (h', obs v op) ∧ Rel h' (next v op) := by
  cases op with
  | reset32 i x => exact ⟨_, rfl, hr.put32 (se := ⟨x, []⟩) (reset32_inv x)⟩
  | update32 i b =>
    obtain ⟨se, ev⟩ := hl
    obtain ⟨s, es, hs⟩ := hr.r32 i se ev
    obtain ⟨s', eu, hs'⟩ := update32_ok cfg (b := b) hs
    refine ⟨{ h with s32 := put h.s32 i (some s') }, ?_, ?_⟩
    rotate_left
    · rw [next, ev]; exact hr.put32 (s := s') (se := ⟨se.seed, se.msg ++ b.mem⟩) hs'
    · rw [step, look, es]
      show (update32 cfg s b b.mem.length >>= fun s => Except.ok ({ h with s32 := put h.s32 i (some s) }, Obs.status true)) = _
      rw [eu]; rfl
  | digest32 i =>
    obtain ⟨se, ev⟩ := hl
    obtain ⟨s, es, hs⟩ := hr.r32 i se ev
    refine ⟨h, ?_, hr⟩
    rw [step, look, es]
    show (digest32 cfg s >>= fun v => Except.ok (h, Obs.hash32 v)) = _
    rw [digest32_ok cfg hs, R.ok_bind, obs, ev]
  | copy32 d i =>
    obtain ⟨hne, se, ev⟩ := hl
    obtain ⟨s, es, hs⟩ := hr.r32 i se ev
    refine ⟨{ h with s32 := put h.s32 d (some s) }, ?_, ?_⟩
    rotate_left
    · rw [next, ev]; exact hr.put32 (s := s) (se := se) hs
    · rw [step, if_neg hne, look, es]; rfl
  | free32 i =>
    refine ⟨_, rfl, fun j se' e => ?_, hr.r64⟩
    dsimp only [next] at e
    dsimp only
    unfold put
    by_cases hj : j = i
    · rw [if_pos hj] at e; cases e
    · rw [if_neg hj] at e ⊢
      exact hr.r32 j se' e
  | reset64 i x => exact ⟨_, rfl, hr.put64 (se := ⟨x, []⟩) (reset64_inv x) (by show 0 < _; omega)⟩
  | update64 i b =>
    obtain ⟨se, ev, hm⟩ := hl
    obtain ⟨s, es, hs, _⟩ := hr.r64 i se ev
    obtain ⟨s', eu, hs'⟩ := update64_ok cfg (b := b) hs
    refine ⟨{ h with s64 := put h.s64 i (some s') }, ?_, ?_⟩
    rotate_left
    · rw [next, ev]; exact hr.put64 (s := s') (se := ⟨se.seed, se.msg ++ b.mem⟩) hs' (by rw [List.length_append]; exact hm)
    · rw [step, look, es]
      show (update64 cfg s b b.mem.length >>= fun s => Except.ok ({ h with s64 := put h.s64 i (some s) }, Obs.status true)) = _
      rw [eu]; rfl
  | digest64 i =>
    obtain ⟨se, ev⟩ := hl
    obtain ⟨s, es, hs, hm⟩ := hr.r64 i se ev
    refine ⟨h, ?_, hr⟩
    rw [step, look, es]
    show (digest64 cfg s >>= fun v => Except.ok (h, Obs.hash64 v)) = _
    rw [digest64_ok cfg hs hm, R.ok_bind, obs, ev]
  | copy64 d i =>
    obtain ⟨hne, se, ev⟩ := hl
    obtain ⟨s, es, hs, hm⟩ := hr.r64 i se ev
    refine ⟨{ h with s64 := put h.s64 d (some s) }, ?_, ?_⟩
    rotate_left
    · rw [next, ev]; exact hr.put64 (s := s) (se := se) hs hm
    · rw [step, if_neg hne, look, es]; rfl
  | free64 i =>
    refine ⟨_, rfl, hr.r32, fun j se' e => ?_⟩
    dsimp only [next] at e
    dsimp only
    unfold put
    by_cases hj : j = i
    · rw [if_pos hj] at e; cases e
    · rw [if_neg hj] at e ⊢
      exact hr.r64 j se' e
  | updateNull32 i => exact ⟨h, rfl, hr⟩
  | updateNull64 i => exact ⟨h, rfl, hr⟩

theorem run_ok (cfg : Cfg) : ∀ (ops : List Op) {h : Heap} {v : View}, Rel h v → history v ops → ∃ h', run cfg h ops = .ok (h', observations v ops)
  | [], h, _, _, _ => ⟨h, rfl⟩
  | op :: ops, h, v, hr, hl => by
    obtain ⟨h1, e1, r1⟩ := step_ok cfg hr hl.1
    obtain ⟨h2, e2⟩ := run_ok cfg ops r1 hl.2
    refine ⟨h2, ?_⟩
    rw [run, e1, R.ok_bind]
    dsimp only
    rw [e2]; rfl

/-! ### canonical representation -/

def bytes32 (v : U32) : Mem := (List.range 4).map fun k => v.extractLsb' (8 * k) 8

theorem bytes32_append (a b c d : Byte) : bytes32 (a ++ b ++ c ++ d : BitVec 32) = [d, c, b, a] := by
  have e : ∀ v : U32, bytes32 v = (List.range 4).map fun k => BitVec.ofNat 8 (v.toNat / 256 ^ k) := fun v => by
    unfold bytes32
    apply List.map_congr_left
    intro k hk
    apply BitVec.eq_of_toNat_eq
    rw [BitVec.extractLsb'_toNat, BitVec.toNat_ofNat, Nat.shiftRight_eq_div_pow, Nat.pow_mul]
  have := a.isLt
  have := b.isLt
  have := c.isLt
  have := d.isLt
  rw [e, toNat4]
  simp only [show List.range 4 = [0, 1, 2, 3] from rfl, List.map_cons, List.map_nil]
  congr 1
  · apply BitVec.eq_of_toNat_eq; rw [BitVec.toNat_ofNat]; omega
  congr 1
  · apply BitVec.eq_of_toNat_eq; rw [BitVec.toNat_ofNat]; omega
  congr 1
  · apply BitVec.eq_of_toNat_eq; rw [BitVec.toNat_ofNat]; omega
  congr 1
  · apply BitVec.eq_of_toNat_eq; rw [BitVec.toNat_ofNat]; omega

theorem le32_bytes (v : U32) : v = (v.extractLsb' 24 8 ++ v.extractLsb' 16 8 ++ v.extractLsb' 8 8 ++ v.extractLsb' 0 8 : BitVec 32) := by
  apply BitVec.eq_of_toNat_eq
  have h := v.isLt
  rw [toNat4]
  simp only [BitVec.extractLsb'_toNat, Nat.shiftRight_eq_div_pow]
  omega

theorem canonical32_bytes (cfg : Cfg) (a b c d : Byte) : canonical32 cfg (a ++ b ++ c ++ d : BitVec 32) = [a, b, c, d] := by
  unfold canonical32 store32
  rw [swap32_bytes]
  cases cfg.little
  · simp only [Bool.false_eq_true, if_false]
    exact congrArg List.reverse (bytes32_append a b c d)
  · simp only [if_true]
    exact bytes32_append d c b a

theorem canonical64_bytes (cfg : Cfg) (a b c d e f g h : Byte) : canonical64 cfg (a ++ b ++ c ++ d ++ e ++ f ++ g ++ h : BitVec 64) = [a, b, c, d, e, f, g, h] := by
  unfold canonical64 store64
  rw [swap64_bytes]
  cases cfg.little
  · simp only [Bool.false_eq_true, if_false]
    rw [bytesOf_append]; rfl
  · simp only [if_true]
    rw [bytesOf_append]

theorem fromCanonical32_bytes (cfg : Cfg) (a b c d : Byte) : fromCanonical32 cfg [a, b, c, d] = .ok (a ++ b ++ c ++ d : BitVec 32) := by
  unfold fromCanonical32 read32
  show (Except.ok (if cfg.little then (d ++ c ++ b ++ a : BitVec 32) else (a ++ b ++ c ++ d : BitVec 32)) >>= fun v => Except.ok (if cfg.little then swap32 v else v) : R U32) = _
  rw [R.ok_bind]
  cases cfg.little
  · rfl
  · simp only [if_true]; rw [swap32_bytes]

theorem fromCanonical64_bytes (cfg : Cfg) (a b c d e f g h : Byte) : fromCanonical64 cfg [a, b, c, d, e, f, g, h] = .ok (a ++ b ++ c ++ d ++ e ++ f ++ g ++ h : BitVec 64) := by
  unfold fromCanonical64 read64
  show (Except.ok (if cfg.little then (h ++ g ++ f ++ e ++ d ++ c ++ b ++ a : BitVec 64) else (a ++ b ++ c ++ d ++ e ++ f ++ g ++ h : BitVec 64)) >>= fun v => Except.ok (if cfg.little then swap64 v else v) : R U64) = _
  rw [R.ok_bind]
  cases cfg.little
  · rfl
  · simp only [if_true]; rw [swap64_bytes]

theorem ext_ofNat (v : BitVec w) (k : Nat) : v.extractLsb' (8 * k) 8 = BitVec.ofNat 8 (v.toNat / 256 ^ k) := by
  apply BitVec.eq_of_toNat_eq
  rw [BitVec.extractLsb'_toNat, BitVec.toNat_ofNat, Nat.shiftRight_eq_div_pow, Nat.pow_mul]

theorem canonical32_eq (cfg : Cfg) (v : U32) : canonical32 cfg v = bigEndian v.toNat 4 := by
  have h := canonical32_bytes cfg (v.extractLsb' 24 8) (v.extractLsb' 16 8) (v.extractLsb' 8 8) (v.extractLsb' 0 8)
  rw [← le32_bytes v] at h
  rw [h, ext_ofNat v 3, ext_ofNat v 2, ext_ofNat v 1, ext_ofNat v 0]
  rfl

theorem canonical64_eq (cfg : Cfg) (v : U64) : canonical64 cfg v = bigEndian v.toNat 8 := by
  have h := canonical64_bytes cfg (v.extractLsb' 56 8) (v.extractLsb' 48 8) (v.extractLsb' 40 8) (v.extractLsb' 32 8) (v.extractLsb' 24 8) (v.extractLsb' 16 8) (v.extractLsb' 8 8) (v.extractLsb' 0 8)
  rw [← bytes_le v] at h
  rw [h, ext_ofNat v 7, ext_ofNat v 6, ext_ofNat v 5, ext_ofNat v 4, ext_ofNat v 3, ext_ofNat v 2, ext_ofNat v 1, ext_ofNat v 0]
  rfl

/-- Comparing the digits from the front is comparing the numbers. -/
theorem bigEndian_lt (n m : Nat) : ∀ k, bigEndian n k < bigEndian m k ↔ n % 256 ^ k < m % 256 ^ k
  | 0 => by simp [bigEndian, Nat.mod_one]
  | k + 1 => by
    rw [bigEndian, bigEndian, List.cons_lt_cons_iff, bigEndian_lt n m k, BitVec.lt_def, ← BitVec.toNat_inj, BitVec.toNat_ofNat, BitVec.toNat_ofNat]
    have e : ∀ x : Nat, x % 256 ^ (k + 1) = 256 ^ k * (x / 256 ^ k % 2 ^ 8) + x % 256 ^ k := fun x => by
      rw [Nat.pow_succ, Nat.mod_mul, Nat.add_comm]
    rw [e n, e m]
    have hn : n % 256 ^ k < 256 ^ k := Nat.mod_lt _ (Nat.pow_pos (by omega))
    have hm : m % 256 ^ k < 256 ^ k := Nat.mod_lt _ (Nat.pow_pos (by omega))
    generalize n % 256 ^ k = x at *
    generalize m % 256 ^ k = y at *
    generalize n / 256 ^ k % 2 ^ 8 = a
    generalize m / 256 ^ k % 2 ^ 8 = b
    generalize 256 ^ k = P at *
    constructor
    · rintro (h | ⟨h, h'⟩)
      · have : P * (a + 1) ≤ P * b := Nat.mul_le_mul_left _ h
        rw [Nat.mul_succ] at this
        omega
      · rw [h]; omega
    · intro h
      rcases Nat.lt_trichotomy a b with h1 | h1 | h1
      · exact .inl h1
      · exact .inr ⟨h1, by rw [h1] at h; omega⟩
      · have : P * (b + 1) ≤ P * a := Nat.mul_le_mul_left _ h1
        rw [Nat.mul_succ] at this
        omega

end Verif.Xxh64
