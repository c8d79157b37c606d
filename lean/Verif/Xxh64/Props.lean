import Verif.Xxh64.Run

/-! C96 to C98: XXH32 and XXH64 at once, in pieces, and their canonical representation. -/
namespace Verif.Xxh64
open Verif.Xxh3 (Byte U32 U64 Mem)
open Verif.Xxh3.Spec (at' le32 le64)
open Spec

/-- The text of published test vectors. -/
def text (s : String) : Mem := s.toList.map fun c => BitVec.ofNat 8 c.toNat

def little : Cfg := ⟨⟨.avx2, true, true, true⟩, false, false, false⟩
def small : Cfg := ⟨⟨.scalar, true, true, true⟩, true, true, false⟩
def bigArm : Cfg := ⟨⟨.scalar, false, false, true⟩, true, false, true⟩

/-! ### C96 -/

/-- C96. At every address, aligned or not, for every length and all ways to compile it the value is that of the published algorithm. Nothing else is read, no aligned read is misaligned, no assertion fails. -/
theorem C96_xxh64 (cfg : Cfg) (b : Block) (seed : U64) (len : Nat) (hl : len ≤ b.mem.length) : xxh64 cfg b len seed = .ok (value64 seed (b.mem.take len)) := by
  unfold xxh64
  split
  · rename_i h
    rw [Bool.and_eq_true, decide_eq_true_eq] at h
    exact endianAlign64_ok cfg seed hl (fun _ => h.2)
  · exact endianAlign64_ok cfg seed hl (fun h => by cases h)

theorem C96_xxh32 (cfg : Cfg) (b : Block) (seed : U32) (len : Nat) (hl : len ≤ b.mem.length) : xxh32 cfg b len seed = .ok (value32 seed (b.mem.take len)) := by
  unfold xxh32
  split
  · rename_i h
    rw [Bool.and_eq_true, decide_eq_true_eq] at h
    exact endianAlign32_ok cfg seed hl (fun _ => h.2)
  · exact endianAlign32_ok cfg seed hl (fun h => by cases h)

example : xxh64 little ⟨1, text "Nobody inspects the spammish repetition"⟩ 39 0#64 = .ok 0xfbcea83c8a378bf1#64 ∧
    xxh64 bigArm ⟨16, text "Nobody inspects the spammish repetition"⟩ 39 0#64 = .ok 0xfbcea83c8a378bf1#64 ∧
    xxh64 small ⟨3, text "abcdef"⟩ 3 0#64 = .ok 0x44bc2cf5ad770999#64 ∧ xxh64 small ⟨3, []⟩ 0 0#64 = .ok 0xef46db3751d8e999#64 := by decide +kernel

example : xxh32 little ⟨1, text "Nobody inspects the spammish repetition"⟩ 39 0#32 = .ok 0xe2293b2f#32 ∧
    xxh32 bigArm ⟨4, text "Nobody inspects the spammish repetition"⟩ 39 0#32 = .ok 0xe2293b2f#32 ∧
    xxh32 small ⟨3, text "abcdef"⟩ 3 0#32 = .ok 0x32d153ff#32 ∧ xxh32 small ⟨3, []⟩ 0 0#32 = .ok 0x02cc5d05#32 := by decide +kernel

/-- Reading further than the block is undefined. -/
example : xxh64 little ⟨0, text "abc"⟩ 4 0#64 = .error .ub := by decide +kernel

/-- C96. Two blocks of the same size that differ in exactly one byte, after the last full stripe, have different values. -/
theorem C96_one_byte64 (cfg : Cfg) (a b : Block) (seed : U64) (hl : a.mem.length = b.mem.length) (k : Nat) (hk : 32 * (a.mem.length / 32) ≤ k) (hk' : k < a.mem.length)
    (ho : ∀ j : Nat, j ≠ k → a.mem[j]? = b.mem[j]?) (hd : a.mem[k]? ≠ b.mem[k]?) : xxh64 cfg a a.mem.length seed ≠ xxh64 cfg b b.mem.length seed := by
  rw [C96_xxh64 cfg a seed _ (Nat.le_refl _), C96_xxh64 cfg b seed _ (Nat.le_refl _), List.take_length, List.take_length]
  intro e
  have := value64_byte hl hk hk' (fun j hj => by unfold at'; rw [List.getD_eq_getElem?_getD, List.getD_eq_getElem?_getD, ho j hj]) (Except.ok.inj e)
  unfold at' at this
  rw [List.getD_eq_getElem?_getD, List.getD_eq_getElem?_getD] at this
  rw [List.getElem?_eq_getElem hk', List.getElem?_eq_getElem (hl ▸ hk')] at this hd
  exact hd (congrArg some this)

theorem C96_one_byte32 (cfg : Cfg) (a b : Block) (seed : U32) (hl : a.mem.length = b.mem.length) (k : Nat) (hk : 16 * (a.mem.length / 16) ≤ k) (hk' : k < a.mem.length)
    (ho : ∀ j : Nat, j ≠ k → a.mem[j]? = b.mem[j]?) (hd : a.mem[k]? ≠ b.mem[k]?) : xxh32 cfg a a.mem.length seed ≠ xxh32 cfg b b.mem.length seed := by
  rw [C96_xxh32 cfg a seed _ (Nat.le_refl _), C96_xxh32 cfg b seed _ (Nat.le_refl _), List.take_length, List.take_length]
  intro e
  have := value32_byte hl hk hk' (fun j hj => by unfold at'; rw [List.getD_eq_getElem?_getD, List.getD_eq_getElem?_getD, ho j hj]) (Except.ok.inj e)
  unfold at' at this
  rw [List.getD_eq_getElem?_getD, List.getD_eq_getElem?_getD] at this
  rw [List.getElem?_eq_getElem hk', List.getElem?_eq_getElem (hl ▸ hk')] at this hd
  exact hd (congrArg some this)

example : xxh64 little ⟨0, text "Nobody inspects the spammish repetition"⟩ 39 7#64 ≠ xxh64 little ⟨5, text "Nobody inspects the spammish repetitiom"⟩ 39 7#64 ∧
    xxh32 little ⟨0, text "Nobody inspects the spammish repetition"⟩ 39 7#32 ≠ xxh32 little ⟨5, text "Nobody inspects the spammish repetitiom"⟩ 39 7#32 := by decide +kernel

/-- C96. Up to 31 bytes different seeds give different values. -/
theorem C96_seed64 (cfg : Cfg) (b : Block) (hl : b.mem.length < 32) (s t : U64) (h : xxh64 cfg b b.mem.length s = xxh64 cfg b b.mem.length t) : s = t := by
  rw [C96_xxh64 cfg b s _ (Nat.le_refl _), C96_xxh64 cfg b t _ (Nat.le_refl _), List.take_length] at h
  exact value64_seed hl (Except.ok.inj h)

theorem C96_seed32 (cfg : Cfg) (b : Block) (hl : b.mem.length < 16) (s t : U32) (h : xxh32 cfg b b.mem.length s = xxh32 cfg b b.mem.length t) : s = t := by
  rw [C96_xxh32 cfg b s _ (Nat.le_refl _), C96_xxh32 cfg b t _ (Nat.le_refl _), List.take_length] at h
  exact value32_seed hl (Except.ok.inj h)

example : xxh64 little ⟨0, text "abc"⟩ 3 1#64 ≠ xxh64 little ⟨0, text "abc"⟩ 3 2#64 ∧ xxh32 little ⟨0, text "abc"⟩ 3 1#32 ≠ xxh32 little ⟨0, text "abc"⟩ 3 2#32 := by decide +kernel

/-- C96. No two keys of 1, 4 or 8 bytes (of the same size) have the same value. -/
theorem C96_keys64 (cfg : Cfg) (a b : Block) (seed : U64) (hl : a.mem.length = b.mem.length) (h : a.mem.length = 1 ∨ a.mem.length = 4 ∨ a.mem.length = 8)
    (e : xxh64 cfg a a.mem.length seed = xxh64 cfg b b.mem.length seed) : a.mem = b.mem := by
  rw [C96_xxh64 cfg a seed _ (Nat.le_refl _), C96_xxh64 cfg b seed _ (Nat.le_refl _), List.take_length, List.take_length] at e
  exact value64_keys hl h (Except.ok.inj e)

theorem C96_keys32 (cfg : Cfg) (a b : Block) (seed : U32) (hl : a.mem.length = b.mem.length) (h : a.mem.length = 1 ∨ a.mem.length = 4)
    (e : xxh32 cfg a a.mem.length seed = xxh32 cfg b b.mem.length seed) : a.mem = b.mem := by
  rw [C96_xxh32 cfg a seed _ (Nat.le_refl _), C96_xxh32 cfg b seed _ (Nat.le_refl _), List.take_length, List.take_length] at e
  exact value32_keys hl h (Except.ok.inj e)

example : xxh64 bigArm ⟨1, text "abcdefgh"⟩ 8 0#64 ≠ xxh64 bigArm ⟨8, text "abcdefgi"⟩ 8 0#64 ∧ xxh32 bigArm ⟨1, text "abcd"⟩ 4 0#32 ≠ xxh32 bigArm ⟨8, text "bbcd"⟩ 4 0#32 := by decide +kernel

/-! ### C97 -/

def noStates : Heap := ⟨fun _ => none, fun _ => none⟩
def noSessions : View := ⟨fun _ => none, fun _ => none⟩

/-- C97. In every history of calls on any number of states every digest is the value of the data since the last reset (through copies), and every other call answers as it should. -/
theorem C97_stream (cfg : Cfg) (ops : List Op) (hl : history noSessions ops) : ∃ h, run cfg noStates ops = .ok (h, observations noSessions ops) :=
  run_ok cfg ops ⟨fun _ _ e => (by cases e), fun _ _ e => (by cases e)⟩ hl

def session : List Op :=
  [.reset64 0 7#64, .update64 0 ⟨1, text "Nobody inspects"⟩, .copy64 1 0, .update64 0 ⟨3, text " the spammish repetition, said the text"⟩, .updateNull64 0, .digest64 0, .reset32 0 7#32, .update64 1 ⟨2, text "!"⟩, .free64 0,
   .digest64 1, .update32 0 ⟨5, text "Nobody inspects the"⟩, .digest32 0, .update32 0 ⟨0, text " spammish repetition"⟩, .updateNull32 0, .digest32 0]

example : history noSessions session ∧ (run bigArm noStates session).map (·.2) = .ok (observations noSessions session) := by
  refine ⟨⟨trivial, ⟨_, rfl, by decide +kernel⟩, ⟨by decide, _, rfl⟩, ⟨_, rfl, by decide +kernel⟩, trivial, ⟨_, rfl⟩, trivial, ⟨_, rfl, by decide +kernel⟩, trivial, ⟨_, rfl⟩, ⟨_, rfl⟩, ⟨_, rfl⟩, ⟨_, rfl⟩, trivial, ⟨_, rfl⟩, trivial⟩, by decide +kernel⟩

/-- Without a reset memory is read that nobody has written. -/
example : (run little noStates [.update64 0 ⟨0, text "a"⟩]).map (·.2) = .error .ub ∧ (run little noStates [.reset64 0 0#64, .digest32 0]).map (·.2) = .error .ub := by decide +kernel

/-- C97. However the data is cut into pieces, and wherever they lie, the digest is that of the whole at once. -/
theorem C97_pieces64 (cfg : Cfg) (seed : U64) (pieces : List Block) (whole : Block) (hw : whole.mem = (pieces.map (·.mem)).flatten) (ht : whole.mem.length < 2 ^ 64) :
    ∃ h os x, run cfg noStates (.reset64 0 seed :: pieces.map (.update64 0) ++ [.digest64 0]) = .ok (h, os ++ [.hash64 x]) ∧ xxh64 cfg whole whole.mem.length seed = .ok x := by
  have gen : ∀ (ps : List Block) (m : Mem) (v : View), v.s64 0 = some ⟨seed, m⟩ → m.length + (ps.map (·.mem)).flatten.length < 2 ^ 64 →
      history v (ps.map (.update64 0) ++ [.digest64 0]) ∧
      ∃ os, observations v (ps.map (.update64 0) ++ [.digest64 0]) = os ++ [.hash64 (value64 seed (m ++ (ps.map (·.mem)).flatten))] := by
    intro ps
    induction ps with
    | nil =>
      intro m v hv _
      refine ⟨⟨⟨_, hv⟩, trivial⟩, [], ?_⟩
      show [obs v (.digest64 0)] = _
      rw [obs, hv]
      simp
    | cons p ps ih =>
      intro m v hv ht
      rw [List.map_cons, List.flatten_cons, List.length_append] at ht
      obtain ⟨h1, os, h2⟩ := ih (m ++ p.mem) (next v (.update64 0 p)) (by rw [next, hv]; rfl) (by rw [List.length_append]; omega)
      refine ⟨⟨⟨_, hv, by show m.length + _ < _; omega⟩, h1⟩, .status true :: os, ?_⟩
      show obs v (.update64 0 p) :: observations (next v (.update64 0 p)) (ps.map (.update64 0) ++ [.digest64 0]) = _
      rw [h2, List.map_cons, List.flatten_cons, List.append_assoc]; rfl
  obtain ⟨h1, os, h2⟩ := gen pieces [] (next noSessions (.reset64 0 seed)) rfl (by rw [← hw]; show 0 + _ < _; omega)
  obtain ⟨h, e⟩ := C97_stream cfg (.reset64 0 seed :: pieces.map (.update64 0) ++ [.digest64 0]) (show history noSessions (.reset64 0 seed :: (pieces.map (.update64 0) ++ [.digest64 0])) from ⟨trivial, h1⟩)
  refine ⟨h, .status true :: os, value64 seed whole.mem, ?_, by rw [C96_xxh64 cfg whole seed _ (Nat.le_refl _), List.take_length]⟩
  rw [e]
  show Except.ok (h, Obs.status true :: observations (next noSessions (.reset64 0 seed)) (pieces.map (.update64 0) ++ [.digest64 0])) = _
  rw [h2, hw]; rfl

/-- C97. The same for XXH32, for data of any size: the length counts modulo `2^32` there and here. -/
theorem C97_pieces32 (cfg : Cfg) (seed : U32) (pieces : List Block) (whole : Block) (hw : whole.mem = (pieces.map (·.mem)).flatten) :
    ∃ h os x, run cfg noStates (.reset32 0 seed :: pieces.map (.update32 0) ++ [.digest32 0]) = .ok (h, os ++ [.hash32 x]) ∧ xxh32 cfg whole whole.mem.length seed = .ok x := by
  have gen : ∀ (ps : List Block) (m : Mem) (v : View), v.s32 0 = some ⟨seed, m⟩ →
      history v (ps.map (.update32 0) ++ [.digest32 0]) ∧
      ∃ os, observations v (ps.map (.update32 0) ++ [.digest32 0]) = os ++ [.hash32 (value32 seed (m ++ (ps.map (·.mem)).flatten))] := by
    intro ps
    induction ps with
    | nil =>
      intro m v hv
      refine ⟨⟨⟨_, hv⟩, trivial⟩, [], ?_⟩
      show [obs v (.digest32 0)] = _
      rw [obs, hv]
      simp
    | cons p ps ih =>
      intro m v hv
      obtain ⟨h1, os, h2⟩ := ih (m ++ p.mem) (next v (.update32 0 p)) (by rw [next, hv]; rfl)
      refine ⟨⟨⟨_, hv⟩, h1⟩, .status true :: os, ?_⟩
      show obs v (.update32 0 p) :: observations (next v (.update32 0 p)) (ps.map (.update32 0) ++ [.digest32 0]) = _
      rw [h2, List.map_cons, List.flatten_cons, List.append_assoc]; rfl
  obtain ⟨h1, os, h2⟩ := gen pieces [] (next noSessions (.reset32 0 seed)) rfl
  obtain ⟨h, e⟩ := C97_stream cfg (.reset32 0 seed :: pieces.map (.update32 0) ++ [.digest32 0]) (show history noSessions (.reset32 0 seed :: (pieces.map (.update32 0) ++ [.digest32 0])) from ⟨trivial, h1⟩)
  refine ⟨h, .status true :: os, value32 seed whole.mem, ?_, by rw [C96_xxh32 cfg whole seed _ (Nat.le_refl _), List.take_length]⟩
  rw [e]
  show Except.ok (h, Obs.status true :: observations (next noSessions (.reset32 0 seed)) (pieces.map (.update32 0) ++ [.digest32 0])) = _
  rw [h2, hw]; rfl

example : text "Nobody inspects the spammish repetition" = ([⟨3, text "Nobody inspects the spammish rep"⟩, ⟨0, []⟩, ⟨9, text "etition"⟩].map Block.mem).flatten ∧
    (run little noStates [.reset32 0 0#32, .update32 0 ⟨3, text "Nobody inspects the spammish rep"⟩, .update32 0 ⟨0, []⟩, .update32 0 ⟨9, text "etition"⟩, .digest32 0]).map (·.2.getLast?) = .ok (some (.hash32 0xe2293b2f#32)) := by
  decide +kernel

/-! ### C98 -/

/-- C98. On every machine the canonical representation is the number with its highest byte first … -/
theorem C98_canonical64 (cfg : Cfg) (h : U64) : canonical64 cfg h = bigEndian h.toNat 8 := canonical64_eq cfg h
theorem C98_canonical32 (cfg : Cfg) (h : U32) : canonical32 cfg h = bigEndian h.toNat 4 := canonical32_eq cfg h

example : canonical64 little 0x0123456789abcdef#64 = [1#8, 0x23#8, 0x45#8, 0x67#8, 0x89#8, 0xab#8, 0xcd#8, 0xef#8] ∧ canonical32 bigArm 0x01234567#32 = [1#8, 0x23#8, 0x45#8, 0x67#8] ∧
    bigEndian 0x01234567 4 = [1#8, 0x23#8, 0x45#8, 0x67#8] := by decide +kernel

/-- C98. … so that what one machine has written any other reads as the same value … -/
theorem C98_exchange64 (one other : Cfg) (h : U64) : fromCanonical64 other (canonical64 one h) = .ok h := by
  have e := canonical64_bytes one (h.extractLsb' 56 8) (h.extractLsb' 48 8) (h.extractLsb' 40 8) (h.extractLsb' 32 8) (h.extractLsb' 24 8) (h.extractLsb' 16 8) (h.extractLsb' 8 8) (h.extractLsb' 0 8)
  rw [← Xxh3.bytes_le h] at e
  rw [e, fromCanonical64_bytes, ← Xxh3.bytes_le h]

theorem C98_exchange32 (one other : Cfg) (h : U32) : fromCanonical32 other (canonical32 one h) = .ok h := by
  have e := canonical32_bytes one (h.extractLsb' 24 8) (h.extractLsb' 16 8) (h.extractLsb' 8 8) (h.extractLsb' 0 8)
  rw [← le32_bytes h] at e
  rw [e, fromCanonical32_bytes, ← le32_bytes h]

example : fromCanonical64 bigArm (canonical64 little 0x0123456789abcdef#64) = .ok 0x0123456789abcdef#64 := by decide +kernel

/-- C98. … all representations are used … -/
theorem C98_onto64 (cfg : Cfg) (m : Mem) (hm : m.length = 8) : ∃ h, fromCanonical64 cfg m = .ok h ∧ canonical64 cfg h = m := by
  match m, hm with
  | [a, b, c, d, e, f, g, h], _ => exact ⟨_, fromCanonical64_bytes cfg a b c d e f g h, canonical64_bytes cfg a b c d e f g h⟩

theorem C98_onto32 (cfg : Cfg) (m : Mem) (hm : m.length = 4) : ∃ h, fromCanonical32 cfg m = .ok h ∧ canonical32 cfg h = m := by
  match m, hm with
  | [a, b, c, d], _ => exact ⟨_, fromCanonical32_bytes cfg a b c d, canonical32_bytes cfg a b c d⟩

example : fromCanonical32 little [1#8, 2#8, 3#8, 4#8] = .ok 0x01020304#32 ∧ fromCanonical32 little [1#8, 2#8, 3#8] = .error .ub := by decide +kernel

/-- C98. … and comparing the bytes (as `memcmp` does) is comparing the values. -/
theorem C98_order64 (cfg : Cfg) (g h : U64) : canonical64 cfg g < canonical64 cfg h ↔ g < h := by
  rw [canonical64_eq, canonical64_eq, bigEndian_lt, BitVec.lt_def, Nat.mod_eq_of_lt (show g.toNat < 256 ^ 8 by have := g.isLt; omega), Nat.mod_eq_of_lt (show h.toNat < 256 ^ 8 by have := h.isLt; omega)]

theorem C98_order32 (cfg : Cfg) (g h : U32) : canonical32 cfg g < canonical32 cfg h ↔ g < h := by
  rw [canonical32_eq, canonical32_eq, bigEndian_lt, BitVec.lt_def, Nat.mod_eq_of_lt (show g.toNat < 256 ^ 4 by have := g.isLt; omega), Nat.mod_eq_of_lt (show h.toNat < 256 ^ 4 by have := h.isLt; omega)]

example : canonical32 little 0x00ff00ff#32 < canonical32 little 0x01000000#32 := by decide +kernel

end Verif.Xxh64
