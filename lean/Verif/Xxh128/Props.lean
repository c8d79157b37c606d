import Verif.Xxh128.Run
import Verif.Xxh3.Props

/-! C119 – C121: XXH128. -/
namespace Verif.Xxh128
open Xxh3
open Xxh3.Spec (View Sess Key next legal safe history)
open Verif.Xxh128.Spec (num short hashOf obs observations xxh128 xxh128Secret)
open Xxh64.Spec (bigEndian)

def x64 : Cfg := { vec := .avx2, little := true, native := true, debug := false, ptr32 := false }
def ppc32 : Cfg := { vec := .scalar, little := false, native := false, debug := true, ptr32 := true }

/-! ### C119 -/

/-- C119. `XXH128` gives the hash Spec.lean defines, for all data and seeds, on all machines: with the scalar code, SSE2, AVX2 or AVX512, in either byte order, with pointers of 32 or 64 bits, with or without
128 bit multiplication. It never reads outside of the data, and no assertion fails. -/
theorem C119_xxh128 (cfg : Cfg) (data : Mem) (seed : U64) : XXH128 cfg data seed = .ok (xxh128 seed data) :=
  withSeed_ok cfg (Nat.le_refl _)

example : XXH128 x64 (sample 300) 42#64 = XXH128 ppc32 (sample 300) 42#64 := by decide +kernel
example : XXH128 x64 (sample 8) 42#64 = XXH128 ppc32 (sample 8) 42#64 := by decide +kernel
example : XXH128 x64 (sample 13) 42#64 = XXH128 ppc32 (sample 13) 42#64 := by decide +kernel

/-- C119. The same without a seed … -/
theorem C119_plain (cfg : Cfg) (data : Mem) : hash128 cfg data data.length = .ok (xxh128 0#64 data) := by
  have h := withSeed_ok cfg (m := data) (seed := 0#64) (Nat.le_refl data.length)
  rw [← xxh128] at h
  rw [← h]
  rfl

example : hash128 ppc32 (sample 200) 200 = XXH128 x64 (sample 200) 0#64 := by decide +kernel

/-- … and with a secret of one's own, of 136 bytes or more. -/
theorem C119_secret (cfg : Cfg) (data secret : Mem) (hs : 136 ≤ secret.length) : withSecret cfg data data.length secret secret.length = .ok (xxh128Secret secret data) :=
  withSecret_ok cfg (Nat.le_refl _) hs (Nat.le_refl _)

example : 136 ≤ (sample 150).length ∧ withSecret x64 (sample 100) 100 (sample 150) 150 = withSecret ppc32 (sample 100) 100 (sample 150) 150 := by decide +kernel

/-- C119. A secret too short is out of contract: without assertions memory behind it is read. -/
theorem C119_short_secret : withSecret x64 (sample 20) 20 (sample 20) 20 = .error .ub := by decide +kernel

/-- C119. Different data of the same length of at most 16 bytes have different hashes, whatever the seed. -/
theorem C119_no_collision (cfg : Cfg) (seed : U64) (a b : Mem) (hl : a.length = b.length) (h16 : a.length ≤ 16) (hne : a ≠ b) : XXH128 cfg a seed ≠ XXH128 cfg b seed := by
  rw [C119_xxh128, C119_xxh128]
  intro e
  have e := Except.ok.inj e
  unfold xxh128 at e
  rw [if_pos (by omega), if_pos (by omega)] at e
  unfold short at e
  have h16' : b.length ≤ 16 := hl ▸ h16
  by_cases h0 : a.length = 0
  · exact hne ((List.length_eq_zero_iff.1 h0).trans (List.length_eq_zero_iff.1 (hl ▸ h0)).symm)
  have h0' : ¬ b.length = 0 := hl ▸ h0
  rw [if_neg h0, if_neg h0'] at e
  by_cases h3 : a.length ≤ 3
  · have h3' : b.length ≤ 3 := hl ▸ h3
    rw [if_pos h3, if_pos h3'] at e
    exact hne (upTo3_inj (by omega) h3 (by omega) (by omega) (congrArg Hash.low64 e))
  have h3' : ¬ b.length ≤ 3 := hl ▸ h3
  rw [if_neg h3, if_neg h3'] at e
  by_cases h8 : a.length ≤ 8
  · have h8' : b.length ≤ 8 := hl ▸ h8
    rw [if_pos h8, if_pos h8'] at e
    exact hne (upTo8_inj hl (by omega) h8 e)
  · have h8' : ¬ b.length ≤ 8 := hl ▸ h8
    rw [if_neg h8, if_neg h8', if_pos h16, if_pos h16'] at e
    exact hne (upTo16_inj hl (by omega) h16 e)

example : (sample 16).length = ((sample 16).set 9 0#8).length ∧ sample 16 ≠ (sample 16).set 9 0#8 ∧ XXH128 x64 (sample 16) 7#64 ≠ XXH128 x64 ((sample 16).set 9 0#8) 7#64 := by decide +kernel

/-- C119. Data of one to three bytes do not collide either if their lengths differ. -/
theorem C119_tiny (cfg : Cfg) (seed : U64) (a b : Mem) (ha : a ≠ []) (hb : b ≠ []) (ha3 : a.length ≤ 3) (hb3 : b.length ≤ 3) (hne : a ≠ b) : XXH128 cfg a seed ≠ XXH128 cfg b seed := by
  have h1 : a.length ≠ 0 := fun h => ha (List.length_eq_zero_iff.1 h)
  have h2 : b.length ≠ 0 := fun h => hb (List.length_eq_zero_iff.1 h)
  rw [C119_xxh128, C119_xxh128]
  intro e
  have e := Except.ok.inj e
  unfold xxh128 at e
  rw [if_pos (by omega), if_pos (by omega)] at e
  unfold short at e
  rw [if_neg h1, if_neg h2, if_pos ha3, if_pos hb3] at e
  exact hne (upTo3_inj (by omega) ha3 (by omega) hb3 (congrArg Hash.low64 e))

example : XXH128 ppc32 [0#8] 7#64 ≠ XXH128 ppc32 [0#8, 0#8] 7#64 := by decide +kernel

/-- C119. Different seeds give different hashes of the same data of at most 16 bytes. -/
theorem C119_seeds (cfg : Cfg) (s t : U64) (a : Mem) (h16 : a.length ≤ 16) (hne : s ≠ t) : XXH128 cfg a s ≠ XXH128 cfg a t := by
  rw [C119_xxh128, C119_xxh128]
  intro e
  have e := Except.ok.inj e
  unfold xxh128 at e
  rw [if_pos (by omega), if_pos (by omega)] at e
  exact hne (short_seed_inj h16 e)

example : XXH128 x64 (sample 12) 1#64 ≠ XXH128 x64 (sample 12) 2#64 := by decide +kernel

/-- C119. For one to three bytes the low half is the hash of the 64 bit variant, so its collisions are those. -/
theorem C119_low_half (cfg : Cfg) (old : Xxh3.Cfg) (hd : old.debug = false) (seed : U64) (a : Mem) (h0 : a ≠ []) (h3 : a.length ≤ 3) :
    ∃ h, XXH128 cfg a seed = .ok h ∧ make_hash_xxh3 old a seed = .ok h.low64 := by
  refine ⟨_, C119_xxh128 cfg a seed, ?_⟩
  rw [C85_xxh3 old hd]
  have h1 : a.length ≠ 0 := fun h => h0 (List.length_eq_zero_iff.1 h)
  unfold xxh128 Xxh3.Spec.xxh3
  rw [if_pos (by omega), if_pos (by omega)]
  unfold short Xxh3.Spec.short
  rw [if_neg h1, if_neg h1, if_pos h3, if_pos h3]
  rfl

example : (XXH128 x64 (sample 3) 5#64).map Hash.low64 = make_hash_xxh3 x86 (sample 3) 5#64 := by decide +kernel

/-! ### C120 -/

/-- C120 in full: whatever a program does with its states, each digest is the hash of the data since the last reset, at once. -/
def StreamIsOneShot (cfg : Cfg) : Prop := ∀ ops, history legal noSessions ops → ∃ h, run cfg noStates ops = .ok (h, observations noSessions ops)

/-- C120. So it is if states with a seed are not copied and, at each digest, all updates since the reset were shorter than 256 bytes or the last 1 to 63 bytes do not stand alone in the buffer. -/
theorem C120_stream_partial (cfg : Cfg) (ops : List Op) (hl : history legal noSessions ops) (hs : history (safe false) noSessions ops) :
    ∃ h, run cfg noStates ops = .ok (h, observations noSessions ops) :=
  run_ok cfg ops (fun _ _ e => by cases e) hl hs

example : history legal noSessions busy ∧ history (safe false) noSessions busy := by
  refine ⟨?_, ?_⟩
  · refine ⟨trivial, trivial, ⟨_, rfl, by decide +kernel⟩, ⟨_, rfl, by decide +kernel⟩, ⟨_, rfl⟩, ⟨by decide, _, rfl⟩, ⟨_, rfl, by decide +kernel⟩, ⟨_, rfl⟩, ⟨_, rfl, by decide +kernel⟩, ⟨_, rfl⟩, trivial, trivial,
      ⟨by decide +kernel, by decide +kernel⟩, ⟨_, rfl, by decide +kernel⟩, ⟨_, rfl⟩, trivial⟩
  · refine ⟨trivial, trivial, trivial, trivial, fun s e => ?_, fun s e x => ?_, trivial, fun s e => ?_, trivial, fun s e => ?_, trivial, trivial, trivial, trivial, fun s e => ?_, trivial⟩
    · cases e; exact ⟨.inl rfl, .inl (by decide +kernel)⟩
    · cases e; intro h; cases h
    · cases e; exact ⟨.inl rfl, .inl (by decide +kernel)⟩
    · cases e; exact ⟨.inl rfl, .inr (by decide +kernel)⟩
    · cases e; exact ⟨.inl rfl, .inr (by decide +kernel)⟩

/-- C120. How a message is cut into pieces does not matter, if they are shorter than 256 bytes. -/
theorem C120_pieces (cfg : Cfg) (seed : U64) (pieces : List Mem) (hp : ∀ p ∈ pieces, p.length < 256) (ht : pieces.flatten.length < 2 ^ 64) :
    ∃ h os, run cfg noStates (.resetSeed 0 seed :: pieces.map (.update 0) ++ [.digest 0]) = .ok (h, os ++ [.hash (xxh128 seed pieces.flatten)]) := by
  have gen : ∀ (ps done : List Mem) (v : View), v 0 = some ⟨.seed seed, done⟩ → (∀ p ∈ done ++ ps, p.length < 256) → (done ++ ps).flatten.length < 2 ^ 64 →
      history legal v (ps.map (.update 0) ++ [.digest 0]) ∧ history (safe false) v (ps.map (.update 0) ++ [.digest 0]) ∧
      ∃ os, observations v (ps.map (.update 0) ++ [.digest 0]) = os ++ [.hash (xxh128 seed (done ++ ps).flatten)] := by
    intro ps
    induction ps with
    | nil =>
      intro done v ev hp ht
      refine ⟨⟨⟨_, ev⟩, trivial⟩, ⟨fun s e => ?_, trivial⟩, [], ?_⟩
      · rw [ev] at e
        cases e
        exact ⟨.inl rfl, .inl fun c hc => hp c (by rw [List.append_nil]; exact hc)⟩
      · rw [List.append_nil]
        show [obs v (.digest 0)] = _
        rw [obs, ev]; rfl
    | cons p ps ih =>
      intro done v ev hp ht
      have e0 : done ++ p :: ps = done ++ [p] ++ ps := by rw [List.append_assoc]; rfl
      have en : next v (.update 0 p) 0 = some ⟨.seed seed, done ++ [p]⟩ := by
        show (v.put 0 ((v 0).map (·.add p))) 0 = _
        rw [legal_put, ev]; rfl
      obtain ⟨h1, h2, os, h3⟩ := ih (done ++ [p]) (next v (.update 0 p)) en (by rw [← e0]; exact hp) (by rw [← e0]; exact ht)
      refine ⟨⟨⟨_, ev, ?_⟩, h1⟩, ⟨trivial, h2⟩, .status true :: os, ?_⟩
      · rw [e0, List.flatten_append, List.length_append, List.flatten_append, List.length_append, List.flatten_singleton] at ht
        show done.flatten.length + p.length < _
        omega
      · rw [e0]
        show obs v (.update 0 p) :: observations (next v (.update 0 p)) (ps.map (.update 0) ++ [.digest 0]) = _
        rw [h3]; rfl
  obtain ⟨h1, h2, os, h3⟩ := gen pieces [] (next noSessions (.resetSeed 0 seed)) rfl hp ht
  obtain ⟨h, e⟩ := C120_stream_partial cfg (.resetSeed 0 seed :: pieces.map (.update 0) ++ [.digest 0]) (show history legal noSessions (.resetSeed 0 seed :: (pieces.map (.update 0) ++ [.digest 0])) from ⟨trivial, h1⟩)
    (show history (safe false) noSessions (.resetSeed 0 seed :: (pieces.map (.update 0) ++ [.digest 0])) from ⟨trivial, h2⟩)
  refine ⟨h, .status true :: os, ?_⟩
  rw [e]
  show Except.ok (h, Obs.status true :: observations (next noSessions (.resetSeed 0 seed)) (pieces.map (.update 0) ++ [.digest 0])) = _
  rw [h3]; rfl

example : (∀ p ∈ [sample 200, sample 255, [], sample 150], p.length < 256) ∧ [sample 200, sample 255, [], sample 150].flatten.length < 2 ^ 64 := by decide +kernel

/-- C120. Not in general: after one update of 300 bytes the digest is made from bytes that were never in the buffer. -/
theorem C120_stale_buffer :
    history legal noSessions [.reset 0, .update 0 (List.replicate 300 1#8), .digest 0] ∧
    (run x64 noStates [.reset 0, .update 0 (List.replicate 300 1#8), .digest 0]).map (·.2) ≠ (XXH128 x64 (List.replicate 300 1#8) 0#64).map fun h => [.status true, .status true, .hash h] := by
  refine ⟨⟨trivial, ⟨_, rfl, by decide +kernel⟩, ⟨_, rfl⟩, trivial⟩, by decide +kernel⟩

/-- C120. A copy of a state with a seed keeps using the secret inside the original; after the original was freed, memory is read that is not there any more. -/
theorem C120_copy_dangles : (run x64 noStates [.resetSeed 0 1#64, .copy 1 0, .free 0, .update 1 (sample 10)]).map (·.2) = .error .ub := by decide +kernel

theorem C120_full_fails : ¬ StreamIsOneShot x64 := by
  intro h
  obtain ⟨h1, h2⟩ := C120_stale_buffer
  obtain ⟨_, e⟩ := h _ h1
  have ho : ∀ m : Mem, observations noSessions [.reset 0, .update 0 m, .digest 0] = [.status true, .status true, .hash (xxh128 0#64 m)] := by
    intro m
    show [Obs.status true, Obs.status true, Obs.hash (xxh128 0#64 ([m].flatten))] = _
    rw [List.flatten_singleton]
  rw [e, ho, C119_xxh128] at h2
  exact h2 rfl

/-! ### C121 -/

/-- C121. `XXH128_isEqual` says whether two hashes are the same. -/
theorem C121_equal (cfg : Cfg) (a b : Hash) : isEqual cfg a b = true ↔ a = b := isEqual_iff cfg a b

example : isEqual x64 ⟨1#64, 2#64⟩ ⟨1#64, 2#64⟩ = true ∧ isEqual ppc32 ⟨1#64, 2#64⟩ ⟨2#64, 1#64⟩ = false := by decide +kernel

/-- C121. `XXH128_cmp` compares them as numbers of 128 bits: it is negative, zero or positive as `qsort` needs it. -/
theorem C121_cmp (a b : Hash) : cmp a b = if num a < num b then -1 else if num a = num b then 0 else 1 := cmp_eq a b

example : cmp ⟨9#64, 1#64⟩ ⟨3#64, 2#64⟩ = -1 ∧ cmp ⟨0x8000000000000000#64, 2#64⟩ ⟨1#64, 2#64⟩ = 1 := by decide +kernel

/-- C121. It agrees with `XXH128_isEqual`, and is a total order. -/
theorem C121_order (cfg : Cfg) (a b c : Hash) : (cmp a b = 0 ↔ isEqual cfg a b = true) ∧ cmp b a = - cmp a b ∧ (cmp a b ≤ 0 → cmp b c ≤ 0 → cmp a c ≤ 0) := by
  rw [C121_equal, C121_cmp, C121_cmp, C121_cmp, C121_cmp]
  have hi : a = b ↔ num a = num b := ⟨fun h => by rw [h], num_inj⟩
  rw [hi]
  generalize num a = x
  generalize num b = y
  generalize num c = z
  refine ⟨?_, ?_, ?_⟩
  · split
    · omega
    · split <;> omega
  · split
    · rw [if_neg (by omega), if_neg (by omega)]
    · split
      · rw [if_neg (by omega), if_pos (by omega)]; rfl
      · rw [if_pos (by omega)]; rfl
  · intro h1 h2
    by_cases h3 : x ≤ y ∧ y ≤ z
    · split
      · decide
      · rw [if_pos (by omega)]; decide
    · exfalso
      apply h3
      constructor
      · by_cases h : x < y
        · omega
        · by_cases h' : x = y
          · omega
          · rw [if_neg h, if_neg h'] at h1; exact absurd h1 (by decide)
      · by_cases h : y < z
        · omega
        · by_cases h' : y = z
          · omega
          · rw [if_neg h, if_neg h'] at h2; exact absurd h2 (by decide)

example : cmp ⟨1#64, 2#64⟩ ⟨2#64, 2#64⟩ = -1 ∧ cmp ⟨2#64, 2#64⟩ ⟨0#64, 3#64⟩ = -1 ∧ cmp ⟨1#64, 2#64⟩ ⟨0#64, 3#64⟩ = -1 := by decide +kernel

/-- C121. The canonical representation is the number with its highest byte first, on every machine; nothing else in memory changes. -/
theorem C121_canonical (cfg : Cfg) (h : Hash) (dst : Mem) (hd : 16 ≤ dst.length) : canonicalFromHash cfg dst h = .ok (bigEndian (num h) 16 ++ dst.drop 16) := canonicalFromHash_ok cfg h hd

example : canonicalFromHash x64 (sample 17) ⟨0x0102030405060708#64, 0xA1A2A3A4A5A6A7A8#64⟩ =
    .ok [0xA1#8, 0xA2#8, 0xA3#8, 0xA4#8, 0xA5#8, 0xA6#8, 0xA7#8, 0xA8#8, 1#8, 2#8, 3#8, 4#8, 5#8, 6#8, 7#8, 8#8, 115#8] := by decide +kernel

/-- C121. What one machine wrote, another one reads. -/
theorem C121_round_trip (writer reader : Cfg) (h : Hash) (dst : Mem) (hd : 16 ≤ dst.length) :
    (canonicalFromHash writer dst h >>= fun m => hashFromCanonical reader m) = .ok h := by
  rw [C121_canonical writer h dst hd, R.ok_bind, hashFromCanonical_ok]

example : (canonicalFromHash x64 (sample 16) ⟨5#64, 6#64⟩ >>= fun m => hashFromCanonical ppc32 m) = .ok ⟨5#64, 6#64⟩ := by decide +kernel

/-- C121. Comparing two canonical representations byte by byte is comparing the hashes. -/
theorem C121_canonical_order (a b : Hash) : bigEndian (num a) 16 < bigEndian (num b) 16 ↔ cmp a b < 0 := by
  rw [Xxh64.bigEndian_lt, C121_cmp]
  have hb : ∀ h : Hash, num h % 256 ^ 16 = num h := fun h => by
    have := h.low64.isLt
    have := h.high64.isLt
    refine Nat.mod_eq_of_lt ?_
    rw [show (256 : Nat) ^ 16 = 2 ^ 64 * 2 ^ 64 by decide]
    unfold num
    omega
  rw [hb, hb]
  split
  · exact ⟨fun _ => by decide, fun _ => by assumption⟩
  · split
    · exact ⟨fun h => by omega, fun h => absurd h (by decide)⟩
    · exact ⟨fun h => by omega, fun h => absurd h (by decide)⟩

example : cmp ⟨1#64, 2#64⟩ ⟨2#64, 2#64⟩ < 0 := by decide +kernel

end Verif.Xxh128
