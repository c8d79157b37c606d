import Verif.Base64.Lemmas

/-!
Properties C14 and C15: base64 encoding and decoding.

`junk` is the unspecified initial content of the local arrays; all theorems hold for every `junk`.
-/
namespace Verif.Base64

theorem encode_eq (junk : Byte × Byte × Byte) (b : List Byte) : encode junk b = .ok (encG b) := by
  unfold encode
  have := enc_ok b junk.1 junk.2.1 junk.2.2 []
  simpa using this

/-- C14: the encoder computes the RFC 4648 encoding. -/
theorem C14_encode_is_rfc4648 (junk : Byte × Byte × Byte) (b : List Byte) :
    encode junk b = .ok (rfcEncode b) := by
  rw [encode_eq, encG_eq]

/-- The RFC test vector "fooba" -> "Zm9vYmE=". -/
example : encode (1#8, 2#8, 3#8) ("fooba".toList.map fun c => BitVec.ofNat 8 c.toNat) =
    .ok ("Zm9vYmE=".toList.map fun c => BitVec.ofNat 8 c.toNat) := by decide +kernel

/-- C14: the encoding has length 4*ceil(n/3); it consists of alphabet characters followed by at most
two `=`. -/
theorem C14_encode_shape (junk : Byte × Byte × Byte) (b : List Byte) :
    ∃ cs pad, encode junk b = .ok (cs ++ List.replicate pad 61#8) ∧
      (∀ c ∈ cs, c ∈ alphabet) ∧ pad ≤ 2 ∧
      cs.length + pad = 4 * ((b.length + 2) / 3) := by
  have hlen := encG_length b
  rw [C14_encode_is_rfc4648]
  rw [← encG_eq] at hlen
  refine ⟨_, _, rfl, ?_, ?_, ?_⟩
  · intro c hc
    rw [List.mem_map] at hc
    obtain ⟨g, hg, rfl⟩ := hc
    have hb : ∀ (l : List Bool), bitsVal l < 2 ^ l.length := by
      intro l
      have gen : ∀ (l : List Bool) (acc : Nat),
          l.foldl (fun acc b => 2 * acc + b.toNat) acc < (acc + 1) * 2 ^ l.length := by
        intro l
        induction l with
        | nil => intro acc; simp
        | cons x l ih =>
          intro acc
          rw [List.foldl_cons, List.length_cons]
          refine Nat.lt_of_lt_of_le (ih _) ?_
          rw [Nat.pow_succ, Nat.mul_comm (2 ^ l.length) 2, ← Nat.mul_assoc]
          apply Nat.mul_le_mul_right
          have : x.toNat ≤ 1 := by cases x <;> simp
          omega
      have := gen l 0
      simpa [bitsVal] using this
    have hg6 : ∀ (l : List Bool) (g : List Bool), g ∈ groups6 l → g.length = 6 := by
      intro l
      induction hn : l.length using Nat.strongRecOn generalizing l with
      | ind n ih =>
        intro g hg
        match l with
        | [] => simp [groups6] at hg
        | [_] => simp [groups6] at hg; subst hg; rfl
        | [_, _] => simp [groups6] at hg; subst hg; rfl
        | [_, _, _] => simp [groups6] at hg; subst hg; rfl
        | [_, _, _, _] => simp [groups6] at hg; subst hg; rfl
        | [_, _, _, _, _] => simp [groups6] at hg; subst hg; rfl
        | _ :: _ :: _ :: _ :: _ :: _ :: rest =>
          simp only [groups6, List.mem_cons] at hg
          rcases hg with rfl | hg
          · rfl
          · exact ih rest.length (by simp only [List.length_cons] at hn; omega) rest rfl g hg
    have hv : bitsVal g < 64 := by
      have := hb g; rw [hg6 _ g hg] at this; exact this
    have := chr_mem hv
    simpa [chr] using this
  · omega
  · unfold rfcEncode at hlen
    rw [List.length_append, List.length_replicate] at hlen
    exact hlen

/-- C14: decoding an encoding gives the original bytes back, for every byte string whose encoding has
fewer than 2^31 characters. -/
theorem C14_decode_encode (junk : Byte × Byte × Byte) (junk' : Byte × Byte × Byte × Byte) (b : List Byte)
    (hb : 4 * ((b.length + 2) / 3) < 2 ^ 31) :
    (encode junk b >>= decode junk') = .ok b := by
  rw [encode_eq]
  simp only [R.ok_bind]
  unfold decode
  rw [toInt32_small (by rw [encG_length]; exact hb), decLoop_eq, dec_ok _ (prefix_all _), decG_encG]
  rfl

example : (encode (1#8, 2#8, 3#8) [0#8, 255#8, 16#8, 131#8, 7#8] >>= decode (9#8, 8#8, 7#8, 6#8)) =
    .ok [0#8, 255#8, 16#8, 131#8, 7#8] := C14_decode_encode _ _ _ (by decide)

/-- C15: for every text of fewer than 2^31 characters decoding succeeds without reading out of bounds, the
result is the RFC 4648 decoding of the longest prefix of alphabet characters, and its length is bounded.
Missing: longer texts (see below). -/
theorem C15_decode_total_partial (junk : Byte × Byte × Byte × Byte) (s : List Byte) (hs : s.length < 2 ^ 31) :
    decode junk s = .ok (rfcDecode (alphabetPrefix s)) ∧
    (rfcDecode (alphabetPrefix s)).length ≤ 3 * ((s.length + 3) / 4) := by
  constructor
  · unfold decode
    rw [toInt32_small hs, decLoop_eq, dec_ok _ (prefix_all _), decG_eq _ (prefix_all _)]
    rfl
  · rw [decG_eq _ (prefix_all _), decG_length]
    have : (alphabetPrefix s).length ≤ s.length := List.IsPrefix.length_le (List.takeWhile_prefix _)
    omega

/-- "Zm9v!Zm9v" decodes to "foo". -/
example : decode (9#8, 8#8, 7#8, 6#8) ("Zm9v!Zm9v".toList.map fun c => BitVec.ofNat 8 c.toNat) =
    .ok ("foo".toList.map fun c => BitVec.ofNat 8 c.toNat) := by decide +kernel

/-- C15 is false of the code for long texts: the length is stored in an `int`, so a text of 2^32
characters is decoded to nothing, whatever it contains. -/
theorem C15_decode_drops_long_text (junk : Byte × Byte × Byte × Byte) (s : List Byte) (hs : s.length = 2 ^ 32) :
    decode junk s = .ok [] := by
  unfold decode
  have h0 : toInt32 s.length = 0 := by rw [hs]; decide +kernel
  rw [h0]
  cases s with
  | nil => simp at hs
  | cons c cs =>
    unfold decLoop
    have : decInt 0 = .ok (-1) := by decide
    rw [this]
    simp [decTail]

/-- A text meeting the hypothesis for which the property demands a non-empty result. -/
theorem C15_decode_drops_long_text_witness :
    ∃ s : List Byte, s.length = 2 ^ 32 ∧ rfcDecode (alphabetPrefix s) ≠ [] := by
  refine ⟨List.replicate (2 ^ 32) 65#8, by simp only [List.length_replicate], ?_⟩
  rw [decG_eq _ (prefix_all _)]
  have hp : alphabetPrefix (List.replicate (2 ^ 32) 65#8) = List.replicate (2 ^ 32) 65#8 := by
    unfold alphabetPrefix
    have h65 : alphabet.contains 65#8 = true := by decide +kernel
    rw [List.takeWhile_replicate, if_pos h65]
  rw [hp]
  intro h
  have := decG_length (List.replicate (2 ^ 32) 65#8)
  rw [h, List.length_replicate, List.length_nil] at this
  omega

/-- C15: for a text of exactly 2^31 characters the first decrement of the (negative) length overflows an
`int`: undefined behaviour. -/
theorem C15_decode_overflow (junk : Byte × Byte × Byte × Byte) (s : List Byte) (hs : s.length = 2 ^ 31) :
    decode junk s = .error .ub := by
  unfold decode
  have h0 : toInt32 s.length = -2 ^ 31 := by rw [hs]; decide +kernel
  rw [h0]
  cases s with
  | nil => simp at hs
  | cons c cs =>
    unfold decLoop
    have : decInt (-2 ^ 31) = .error .ub := by decide
    rw [this]
    simp

example : ∃ s : List Byte, s.length = 2 ^ 31 := ⟨List.replicate (2 ^ 31) 65#8, by simp only [List.length_replicate]⟩

end Verif.Base64
