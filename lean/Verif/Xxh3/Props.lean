import Verif.Xxh3.Inj

/-! C85 – C88: XXH3. -/
namespace Verif.Xxh3
open Spec

/-- Some data for examples. -/
def sample (n : Nat) : Mem := (List.range n).map fun i => BitVec.ofNat 8 (i * 7 + 3)

def x86 : Cfg := { vec := .avx2, little := true, native := true, debug := false }
def ppc : Cfg := { vec := .scalar, little := false, native := false, debug := false }
def dbg : Cfg := { vec := .sse2, little := true, native := true, debug := true }

/-! ### C85 -/

/-- C85. `make_hash_xxh3` gives the hash XXH3 defines, for all data and seeds, on all machines: with the scalar code, SSE2, AVX2 or AVX512, in either byte order, with or without 128 bit
multiplication. It never reads outside of the data. -/
theorem C85_xxh3 (cfg : Cfg) (hd : cfg.debug = false) (data : Mem) (seed : U64) : make_hash_xxh3 cfg data seed = .ok (xxh3 seed data) :=
  withSeed_ok cfg (.inl hd) (Nat.le_refl _)

example : make_hash_xxh3 x86 (sample 300) 42#64 = .ok 0x6ae1b32dbdd37276#64 := by decide +kernel
example : make_hash_xxh3 ppc (sample 300) 42#64 = .ok 0x6ae1b32dbdd37276#64 := by decide +kernel
example : make_hash_xxh3 x86 [] 0#64 = .ok 0x776eddfb6bfd9195#64 := by decide +kernel

/-- C85. The same for the function without a seed and the one with a secret of one's own (of 136 bytes or more). -/
theorem C85_secret (cfg : Cfg) (hd : cfg.debug = false) (data secret : Mem) (hs : 136 ≤ secret.length) : withSecret cfg data data.length secret secret.length = .ok (xxh3Secret secret data) :=
  withSecret_ok cfg (.inl hd) (Nat.le_refl _) hs (Nat.le_refl _)

example : 136 ≤ (sample 150).length ∧ withSecret x86 (sample 40) 40 (sample 150) 150 = withSecret ppc (sample 40) 40 (sample 150) 150 := by decide +kernel

theorem C85_plain (cfg : Cfg) (hd : cfg.debug = false) (data : Mem) : hash64 cfg data data.length = .ok (xxh3 0#64 data) := by
  have h := withSeed_ok cfg (m := data) (seed := 0#64) (.inl hd) (Nat.le_refl data.length)
  rw [← xxh3] at h
  rw [← h]
  rfl

example : hash64 ppc (sample 50) 50 = make_hash_xxh3 x86 (sample 50) 0#64 := by decide +kernel

/-- C85. A secret too short is out of contract: without assertions memory behind it is read. -/
theorem C85_short_secret : withSecret ppc (sample 20) 20 (sample 20) 20 = .error .ub := by decide +kernel

/-! ### C86 -/

/-- C86. Different data of the same length of at most eight bytes have different hashes, whatever the seed. -/
theorem C86_no_collision (cfg : Cfg) (hd : cfg.debug = false) (seed : U64) (a b : Mem) (hl : a.length = b.length) (h8 : a.length ≤ 8) (hne : a ≠ b) :
    make_hash_xxh3 cfg a seed ≠ make_hash_xxh3 cfg b seed := by
  rw [C85_xxh3 cfg hd, C85_xxh3 cfg hd]
  intro e
  have e := Except.ok.inj e
  unfold xxh3 at e
  rw [if_pos (by omega), if_pos (by omega)] at e
  unfold short at e
  have h8' : b.length ≤ 8 := hl ▸ h8
  by_cases h0 : a.length = 0
  · exact hne ((List.length_eq_zero_iff.1 h0).trans (List.length_eq_zero_iff.1 (hl ▸ h0)).symm)
  have h0' : ¬ b.length = 0 := hl ▸ h0
  rw [if_neg h0, if_neg h0'] at e
  by_cases h3 : a.length ≤ 3
  · have h3' : b.length ≤ 3 := hl ▸ h3
    rw [if_pos h3, if_pos h3'] at e
    exact hne (upTo3_inj (by omega) h3 (by omega) (by omega) e)
  · have h3' : ¬ b.length ≤ 3 := hl ▸ h3
    rw [if_neg h3, if_neg h3', if_pos h8, if_pos h8'] at e
    exact hne (upTo8_inj hl (by omega) h8 e)

example : ([1#8, 2#8, 3#8, 4#8, 5#8] : Mem).length = ([1#8, 2#8, 3#8, 4#8, 6#8] : Mem).length ∧
    make_hash_xxh3 x86 [1#8, 2#8, 3#8, 4#8, 5#8] 7#64 ≠ make_hash_xxh3 x86 [1#8, 2#8, 3#8, 4#8, 6#8] 7#64 := by decide +kernel

/-- C86. Data of one to three bytes do not collide either if their lengths differ. -/
theorem C86_tiny (cfg : Cfg) (hd : cfg.debug = false) (seed : U64) (a b : Mem) (ha : a ≠ []) (hb : b ≠ []) (ha3 : a.length ≤ 3) (hb3 : b.length ≤ 3) (hne : a ≠ b) :
    make_hash_xxh3 cfg a seed ≠ make_hash_xxh3 cfg b seed := by
  have h1 : a.length ≠ 0 := fun h => ha (List.length_eq_zero_iff.1 h)
  have h2 : b.length ≠ 0 := fun h => hb (List.length_eq_zero_iff.1 h)
  rw [C85_xxh3 cfg hd, C85_xxh3 cfg hd]
  intro e
  have e := Except.ok.inj e
  unfold xxh3 at e
  rw [if_pos (by omega), if_pos (by omega)] at e
  unfold short at e
  rw [if_neg h1, if_neg h2, if_pos ha3, if_pos hb3] at e
  exact hne (upTo3_inj (by omega) ha3 (by omega) hb3 e)

example : make_hash_xxh3 ppc [0#8] 7#64 ≠ make_hash_xxh3 ppc [0#8, 0#8] 7#64 := by decide +kernel

/-- C86. Different seeds give different hashes of the same data of at most eight bytes. -/
theorem C86_seeds (cfg : Cfg) (hd : cfg.debug = false) (s t : U64) (a : Mem) (h8 : a.length ≤ 8) (hne : s ≠ t) : make_hash_xxh3 cfg a s ≠ make_hash_xxh3 cfg a t := by
  rw [C85_xxh3 cfg hd, C85_xxh3 cfg hd]
  intro e
  have e := Except.ok.inj e
  unfold xxh3 at e
  rw [if_pos (by omega), if_pos (by omega)] at e
  exact hne (short_seed_inj h8 e)

example : make_hash_xxh3 x86 (sample 8) 1#64 ≠ make_hash_xxh3 x86 (sample 8) 2#64 := by decide +kernel

/-- C86. It is not a hash against an opponent: for every seed there are 32 bytes of which eight do not count, so that 2^64 messages collide. -/
theorem C86_collisions (cfg : Cfg) (hd : cfg.debug = false) (seed : U64) (x y : U64) (rest : Mem) (hr : rest.length = 16) :
    make_hash_xxh3 cfg (toBytes (le64 kSecret 0 + seed) ++ toBytes x ++ rest) seed = make_hash_xxh3 cfg (toBytes (le64 kSecret 0 + seed) ++ toBytes y ++ rest) seed := by
  have key : ∀ z : U64, xxh3 seed (toBytes (le64 kSecret 0 + seed) ++ toBytes z ++ rest) =
      avalanche (BitVec.ofNat 64 32 * PRIME64_1 + mix kSecret seed rest 0 16) := by
    intro z
    have hl : (toBytes (le64 kSecret 0 + seed) ++ toBytes z ++ rest).length = 32 := by
      rw [List.length_append, List.length_append, toBytes_length, toBytes_length, hr]
    have h16 : (toBytes (le64 kSecret 0 + seed) ++ toBytes z).length = 16 := by rw [List.length_append, toBytes_length, toBytes_length]
    unfold xxh3 short
    rw [hl, if_pos (by omega), if_neg (by omega), if_neg (by omega), if_neg (by omega), if_neg (by omega), if_pos (by omega)]
    unfold upTo128
    rw [show (32 - 1) / 32 + 1 = 0 + 1 from rfl, sum_succ, sum_zero]
    have e1 : mix kSecret seed (toBytes (le64 kSecret 0 + seed) ++ toBytes z ++ rest) (16 * 0) (32 * 0) = 0#64 := by
      unfold mix
      rw [List.append_assoc, show 16 * 0 = 0 from rfl, le64_toBytes, BitVec.xor_self, fold_zero]
    have e2 : mix kSecret seed (toBytes (le64 kSecret 0 + seed) ++ toBytes z ++ rest) (32 - 16 * (0 + 1)) (32 * 0 + 16) = mix kSecret seed rest 0 16 := by
      unfold mix
      rw [le64_congr (m' := rest) (i' := 0) (fun j hj => by rw [at'_append_right (by rw [h16]; omega), h16]; congr 1; omega),
        le64_congr (i := 32 - 16 * (0 + 1) + 8) (m' := rest) (i' := 0 + 8) (fun j hj => by rw [at'_append_right (by rw [h16]; omega), h16]; congr 1; omega)]
    rw [e1, e2, BitVec.zero_add, BitVec.zero_add]
  rw [C85_xxh3 cfg hd, C85_xxh3 cfg hd, key, key]

example : toBytes 1#64 ≠ toBytes 2#64 ∧ make_hash_xxh3 x86 (toBytes (le64 kSecret 0 + 77#64) ++ toBytes 1#64 ++ sample 16) 77#64 =
    make_hash_xxh3 x86 (toBytes (le64 kSecret 0 + 77#64) ++ toBytes 2#64 ++ sample 16) 77#64 := by decide +kernel

/-! ### C87 -/

def noStates : Heap := fun _ => none
def noSessions : View := fun _ => none

/-- C87 in full: whatever a program does with its states, each digest is the hash of the data since the last reset, at once. -/
def StreamIsOneShot (cfg : Cfg) : Prop := ∀ ops, history legal noSessions ops → ∃ h, run cfg noStates ops = .ok (h, observations noSessions ops)

/-- C87. So it is if states with a seed are not copied and, at each digest, all updates since the reset were shorter than 256 bytes or the last 1 to 63 bytes do not stand alone in the buffer. -/
theorem C87_stream_partial (cfg : Cfg) (ops : List Op) (hl : history legal noSessions ops) (hs : history (safe cfg.debug) noSessions ops) :
    ∃ h, run cfg noStates ops = .ok (h, observations noSessions ops) :=
  run_ok cfg ops (fun _ _ e => by cases e) hl hs

/-- Two states, pieces of all sizes, a copy, and a state used again. -/
def busy : List Op :=
  [.reset 0, .resetSeed 1 9#64, .update 0 (sample 100), .update 1 (sample 255), .digest 0, .copy 2 0, .update 1 (sample 250), .digest 1, .update 2 (sample 2200), .digest 2, .free 0, .updateNull 1,
    .resetSecret 1 (sample 200), .update 1 (sample 700), .digest 1]

theorem legal_put {v : View} {i : Nat} {se : Option Sess} : (v.put i se) i = se := by simp [View.put]

example : history legal noSessions busy ∧ history (safe true) noSessions busy := by
  refine ⟨?_, ?_⟩
  · refine ⟨trivial, trivial, ⟨_, rfl, by decide +kernel⟩, ⟨_, rfl, by decide +kernel⟩, ⟨_, rfl⟩, ⟨by decide, _, rfl⟩, ⟨_, rfl, by decide +kernel⟩, ⟨_, rfl⟩, ⟨_, rfl, by decide +kernel⟩, ⟨_, rfl⟩, trivial, trivial,
      ⟨by decide +kernel, by decide +kernel⟩, ⟨_, rfl, by decide +kernel⟩, ⟨_, rfl⟩, trivial⟩
  · refine ⟨trivial, trivial, trivial, trivial, fun s e => ?_, fun s e x => ?_, trivial, fun s e => ?_, trivial, fun s e => ?_, trivial, trivial, trivial, trivial, fun s e => ?_, trivial⟩
    · cases e; exact ⟨.inr (by decide +kernel), .inl (by decide +kernel)⟩
    · cases e; intro h; cases h
    · cases e; exact ⟨.inr (by decide +kernel), .inl (by decide +kernel)⟩
    · cases e; exact ⟨.inr (by decide +kernel), .inr (by decide +kernel)⟩
    · cases e; exact ⟨.inr (by decide +kernel), .inr (by decide +kernel)⟩

/-- C87. How a message is cut into pieces does not matter, if they are shorter than 256 bytes. -/
theorem C87_pieces (cfg : Cfg) (hd : cfg.debug = false) (seed : U64) (pieces : List Mem) (hp : ∀ p ∈ pieces, p.length < 256) (ht : pieces.flatten.length < 2 ^ 64) :
    ∃ h os, run cfg noStates (.resetSeed 0 seed :: pieces.map (.update 0) ++ [.digest 0]) = .ok (h, os ++ [.hash (xxh3 seed pieces.flatten)]) := by
  have gen : ∀ (ps done : List Mem) (v : View), v 0 = some ⟨.seed seed, done⟩ → (∀ p ∈ done ++ ps, p.length < 256) → (done ++ ps).flatten.length < 2 ^ 64 →
      history legal v (ps.map (.update 0) ++ [.digest 0]) ∧ history (safe cfg.debug) v (ps.map (.update 0) ++ [.digest 0]) ∧
      ∃ os, observations v (ps.map (.update 0) ++ [.digest 0]) = os ++ [.hash (xxh3 seed (done ++ ps).flatten)] := by
    intro ps
    induction ps with
    | nil =>
      intro done v ev hp ht
      refine ⟨⟨⟨_, ev⟩, trivial⟩, ⟨fun s e => ?_, trivial⟩, [], ?_⟩
      · rw [ev] at e
        cases e
        exact ⟨.inl hd, .inl fun c hc => hp c (by rw [List.append_nil]; exact hc)⟩
      · rw [List.append_nil]
        show [obs v (.digest 0)] = _
        rw [obs, ev]; rfl
    | cons p ps ih =>
      intro done v ev hp ht
      have e0 : done ++ p :: ps = done ++ [p] ++ ps := by rw [List.append_assoc]; rfl
      have en : next v (.update 0 p) 0 = some ⟨.seed seed, done ++ [p]⟩ := by
        show (v.put 0 ((v 0).map (·.add p))) 0 = _
        rw [legal_put, ev]; rfl
      obtain ⟨h1, h2, os, h3⟩ := ih (done ++ [p]) (next v (.update 0 p)) en (by rw [← e0]; exact hp) (by rw [← e0]; exact ht)
      refine ⟨⟨⟨_, ev, ?_⟩, h1⟩, ⟨trivial, h2⟩, .status true :: os, ?_⟩
      · rw [e0, List.flatten_append, List.length_append, List.flatten_append, List.length_append, List.flatten_singleton] at ht
        show done.flatten.length + p.length < _
        omega
      · rw [e0]
        show obs v (.update 0 p) :: observations (next v (.update 0 p)) (ps.map (.update 0) ++ [.digest 0]) = _
        rw [h3]; rfl
  obtain ⟨h1, h2, os, h3⟩ := gen pieces [] (next noSessions (.resetSeed 0 seed)) rfl hp ht
  obtain ⟨h, e⟩ := C87_stream_partial cfg (.resetSeed 0 seed :: pieces.map (.update 0) ++ [.digest 0]) (show history legal noSessions (.resetSeed 0 seed :: (pieces.map (.update 0) ++ [.digest 0])) from ⟨trivial, h1⟩)
    (show history (safe cfg.debug) noSessions (.resetSeed 0 seed :: (pieces.map (.update 0) ++ [.digest 0])) from ⟨trivial, h2⟩)
  refine ⟨h, .status true :: os, ?_⟩
  rw [e]
  show Except.ok (h, Obs.status true :: observations (next noSessions (.resetSeed 0 seed)) (pieces.map (.update 0) ++ [.digest 0])) = _
  rw [h3]; rfl

example : (∀ p ∈ [sample 200, sample 255, [], sample 150], p.length < 256) ∧ [sample 200, sample 255, [], sample 150].flatten.length < 2 ^ 64 := by decide +kernel

/-- C87. Not in general: after one update of 300 bytes the digest is made from bytes that were never in the buffer. -/
theorem C87_stale_buffer :
    history legal noSessions [.reset 0, .update 0 (List.replicate 300 1#8), .digest 0] ∧
    (run x86 noStates [.reset 0, .update 0 (List.replicate 300 1#8), .digest 0]).map (·.2) = .ok [.status true, .status true, .hash 0x26720d11d388e3ed#64] ∧
    make_hash_xxh3 x86 (List.replicate 300 1#8) 0#64 = .ok 0x7b2081ef0a8041ee#64 := by
  refine ⟨⟨trivial, ⟨_, rfl, by decide +kernel⟩, ⟨_, rfl⟩, trivial⟩, by decide +kernel, by decide +kernel⟩

/-- C87. A copy of a state with a seed keeps using the secret inside the original: resetting that one changes the digest of the copy … -/
theorem C87_copy_seed :
    (run x86 noStates [.resetSeed 0 1#64, .copy 1 0, .update 1 (sample 256), .resetSeed 0 2#64, .digest 1]).map (·.2) ≠
      .ok (observations noSessions [.resetSeed 0 1#64, .copy 1 0, .update 1 (sample 256), .resetSeed 0 2#64, .digest 1]) := by decide +kernel

/-- … and after the original was freed, memory is read that is not there any more. -/
theorem C87_copy_dangles : (run x86 noStates [.resetSeed 0 1#64, .copy 1 0, .free 0, .update 1 (sample 10)]).map (·.2) = .error .ub := by decide +kernel

theorem C87_full_fails : ¬ StreamIsOneShot x86 := by
  intro h
  obtain ⟨h1, h2, h3⟩ := C87_stale_buffer
  obtain ⟨_, e⟩ := h _ h1
  have ho : ∀ m : Mem, observations noSessions [.reset 0, .update 0 m, .digest 0] = [.status true, .status true, .hash (xxh3 0#64 m)] := by
    intro m
    show [Obs.status true, Obs.status true, Obs.hash (xxh3 0#64 ([m].flatten))] = _
    rw [List.flatten_singleton]
  rw [e, ho] at h2
  rw [C85_xxh3 x86 rfl] at h3
  rw [Except.ok.inj h3] at h2
  have h4 : ([.status true, .status true, .hash 0x7b2081ef0a8041ee#64] : List Obs) = [.status true, .status true, .hash 0x26720d11d388e3ed#64] := Except.ok.inj h2
  exact absurd h4 (by decide)

/-! ### C88 -/

/-- C88. With the assertions of XXH3 enabled nothing changes for data of any length but eight. -/
theorem C88_assertions_partial (cfg : Cfg) (data : Mem) (seed : U64) (h8 : data.length ≠ 8) : make_hash_xxh3 cfg data seed = .ok (xxh3 seed data) :=
  withSeed_ok cfg (.inr h8) (Nat.le_refl _)

example : dbg.debug = true ∧ make_hash_xxh3 dbg (sample 100) 5#64 = make_hash_xxh3 ppc (sample 100) 5#64 := by decide +kernel

/-- C88. Eight bytes always fail. -/
theorem C88_eight_bytes (cfg : Cfg) (hd : cfg.debug = true) (data : Mem) (seed : U64) (h8 : data.length = 8) : make_hash_xxh3 cfg data seed = .error .assert := by
  unfold make_hash_xxh3 withSeed
  rw [h8, if_pos (by omega)]
  unfold len_0to16 len_4to8
  simp [xassert, hd]

example : make_hash_xxh3 dbg (sample 8) 0#64 = .error .assert ∧ make_hash_xxh3 x86 (sample 8) 0#64 = .ok (xxh3 0#64 (sample 8)) := by decide +kernel

end Verif.Xxh3
