import Verif.Sha1.Model
import Verif.Sha1.Spec
import Verif.Bits.Props

/-! Lemmas for SHA-1: the unrolled `transform` computes the compression function. -/
namespace Verif.Sha1

open Verif.Bits (byteswap byteOf)

/-- Register with number `i`. -/
def reg : Nat → Reg
  | 0 => .a
  | 1 => .b
  | 2 => .c
  | 3 => .d
  | _ => .e

theorem reg_ne {i j : Nat} (hi : i < 5) (hj : j < 5) (h : i ≠ j) : reg i ≠ reg j := by
  have : ∀ i j : Fin 5, i ≠ j → reg i ≠ reg j := by decide
  exact this ⟨i, hi⟩ ⟨j, hj⟩ (fun h' => h (congrArg Fin.val h'))

/-- Which of the five functions is used in step `t`. -/
def kind (t : Nat) : Kind :=
  if t < 16 then .R0 else if t < 20 then .R1 else if t < 40 then .R2 else if t < 60 then .R3 else .R4

/-- The regular pattern behind the unrolled calls. -/
def gen (t : Nat) : Kind × Reg × Reg × Reg × Reg × Reg × Nat :=
  (kind t, reg (4 * t % 5), reg ((4 * t + 1) % 5), reg ((4 * t + 2) % 5), reg ((4 * t + 3) % 5), reg ((4 * t + 4) % 5), t % 16)

theorem calls_eq : calls = (List.range 80).map gen := by rfl

theorem rol_eq (x : Word) {n : Nat} (h : n < 32) : rol x n = x.rotateLeft n := by
  rw [BitVec.rotateLeft_def, Nat.mod_eq_of_lt h]; rfl

theorem ch_eq (x y z : Word) : (x &&& (y ^^^ z)) ^^^ z = (x &&& y) ^^^ (~~~x &&& z) := by
  apply BitVec.eq_of_getLsbD_eq
  intro i hi
  simp only [BitVec.getLsbD_xor, BitVec.getLsbD_and, BitVec.getLsbD_not, hi, decide_true, Bool.true_and]
  cases x.getLsbD i <;> cases y.getLsbD i <;> cases z.getLsbD i <;> rfl

theorem maj_eq (x y z : Word) : ((x ||| y) &&& z) ||| (x &&& y) = (x &&& y) ^^^ (x &&& z) ^^^ (y &&& z) := by
  apply BitVec.eq_of_getLsbD_eq
  intro i hi
  simp only [BitVec.getLsbD_xor, BitVec.getLsbD_and, BitVec.getLsbD_or]
  cases x.getLsbD i <;> cases y.getLsbD i <;> cases z.getLsbD i <;> rfl

/-! ### The message schedule -/

theorem schedule_length {m : List Word} (hm : m.length = 16) (n : Nat) : (Spec.schedule m n).length = 16 + n := by
  induction n with
  | zero => exact hm
  | succ n ih => simp only [Spec.schedule, List.length_append, ih, List.length_singleton]; omega

theorem schedule_stable {m : List Word} (hm : m.length = 16) (n k i : Nat) (hi : i < 16 + n) :
    (Spec.schedule m (n + k)).getD i 0 = (Spec.schedule m n).getD i 0 := by
  induction k with
  | zero => rfl
  | succ k ih =>
    rw [← ih, ← Nat.add_assoc]
    simp only [Spec.schedule]
    rw [List.getD_eq_getElem?_getD, List.getElem?_append_left (by rw [schedule_length hm]; omega), List.getD_eq_getElem?_getD]

/-- The recurrence of the schedule. -/
theorem schedule_rec {m : List Word} (hm : m.length = 16) {t : Nat} (h1 : 16 ≤ t) (h2 : t < 80) :
    (Spec.schedule m 64).getD t 0 = ((Spec.schedule m 64).getD (t - 3) 0 ^^^ (Spec.schedule m 64).getD (t - 8) 0 ^^^
      (Spec.schedule m 64).getD (t - 14) 0 ^^^ (Spec.schedule m 64).getD (t - 16) 0).rotateLeft 1 := by
  obtain ⟨n, rfl⟩ : ∃ n, t = n + 16 := ⟨t - 16, by omega⟩
  have e : (64 : Nat) = (n + 1) + (63 - n) := by omega
  have e' : (64 : Nat) = n + (64 - n) := by omega
  conv => lhs; rw [e, schedule_stable hm (n + 1) (63 - n) (n + 16) (by omega)]
  rw [show n + 16 - 3 = n + 13 by omega, show n + 16 - 8 = n + 8 by omega, show n + 16 - 14 = n + 2 by omega,
    show n + 16 - 16 = n by omega]
  conv =>
    rhs
    rw [e', schedule_stable hm n (64 - n) (n + 13) (by omega), schedule_stable hm n (64 - n) (n + 8) (by omega),
      schedule_stable hm n (64 - n) (n + 2) (by omega), schedule_stable hm n (64 - n) n (by omega)]
  simp only [Spec.schedule]
  rw [List.getD_eq_getElem?_getD, List.getElem?_append_right (by rw [schedule_length hm]; omega), schedule_length hm,
    show n + 16 - (16 + n) = 0 by omega]
  rfl

theorem and15 (i : Nat) : i &&& 15 = i % 16 := Nat.and_two_pow_sub_one_eq_mod i 4

/-! ### One step -/

/-- The relation between the code's variables after `t` calls and the standard's. -/
structure Rel (w : List Word) (t : Nat) (s : Regs × Block) (h : Spec.Hash) : Prop where
  a : s.1 (reg (4 * t % 5)) = h.a
  b : s.1 (reg ((4 * t + 1) % 5)) = h.b
  c : s.1 (reg ((4 * t + 2) % 5)) = h.c
  d : s.1 (reg ((4 * t + 3) % 5)) = h.d
  e : s.1 (reg ((4 * t + 4) % 5)) = h.e
  blk : ∀ i, Nat.max t 16 ≤ i + 16 → i < Nat.max t 16 → s.2 (i % 16) = w.getD i 0

theorem setReg_same (r : Regs) (x : Reg) (v : Word) : setReg r x v x = v := by simp [setReg]

theorem setReg_other (r : Regs) {x y : Reg} (v : Word) (h : y ≠ x) : setReg r x v y = r y := by simp [setReg, h]

/-- The common shape of the five functions: with `g` the value of the round function, `kk` the constant. -/
theorem step_core {w : List Word} {t : Nat} {s : Regs × Block} {h : Spec.Hash} (Q : Rel w t s h) {block : Block} {g kk : Word}
    (hg : g = Spec.f t h.b h.c h.d) (hk : kk = Spec.K t) (hblock : block (t % 16) = w.getD t 0)
    (hblk : ∀ i, Nat.max (t + 1) 16 ≤ i + 16 → i < Nat.max (t + 1) 16 → block (i % 16) = w.getD i 0) {r' : Regs}
    (hr' : r' = setReg s.1 (reg ((4 * t + 4) % 5))
      (s.1 (reg ((4 * t + 4) % 5)) + (g + block (t % 16) + kk + rol (s.1 (reg (4 * t % 5))) 5))) :
    Rel w (t + 1) (setReg r' (reg ((4 * t + 1) % 5)) (rol (r' (reg ((4 * t + 1) % 5))) 30), block) (Spec.round w t h) := by
  have e0 : 4 * (t + 1) % 5 = (4 * t + 4) % 5 := by omega
  have e1 : (4 * (t + 1) + 1) % 5 = 4 * t % 5 := by omega
  have e2 : (4 * (t + 1) + 2) % 5 = (4 * t + 1) % 5 := by omega
  have e3 : (4 * (t + 1) + 3) % 5 = (4 * t + 2) % 5 := by omega
  have e4 : (4 * (t + 1) + 4) % 5 = (4 * t + 3) % 5 := by omega
  have hb : r' (reg ((4 * t + 1) % 5)) = h.b := by
    rw [hr', setReg_other _ _ (reg_ne (by omega) (by omega) (by omega)), Q.b]
  refine ⟨?_, ?_, ?_, ?_, ?_, hblk⟩
  · simp only [e0]
    rw [setReg_other _ _ (reg_ne (by omega) (by omega) (by omega)), hr', setReg_same, Q.e, Q.a, hg, hk, hblock, rol_eq _ (by omega)]
    simp only [Spec.round]
    ac_rfl
  · simp only [e1]
    rw [setReg_other _ _ (reg_ne (by omega) (by omega) (by omega)), hr', setReg_other _ _ (reg_ne (by omega) (by omega) (by omega)), Q.a]
    rfl
  · simp only [e2]
    rw [setReg_same, hb, rol_eq _ (by omega)]
    rfl
  · simp only [e3]
    rw [setReg_other _ _ (reg_ne (by omega) (by omega) (by omega)), hr', setReg_other _ _ (reg_ne (by omega) (by omega) (by omega)), Q.c]
    rfl
  · simp only [e4]
    rw [setReg_other _ _ (reg_ne (by omega) (by omega) (by omega)), hr', setReg_other _ _ (reg_ne (by omega) (by omega) (by omega)), Q.d]
    rfl

/-- The block after `block[i] = blk(block, i)`. -/
theorem blk_ok {m : List Word} (hm : m.length = 16) {t : Nat} {s : Regs × Block} {h : Spec.Hash}
    (Q : Rel (Spec.schedule m 64) t s h) (h1 : 16 ≤ t) (h2 : t < 80) :
    blk s.2 (t % 16) = (Spec.schedule m 64).getD t 0 := by
  unfold blk
  rw [and15, and15, and15]
  have k : ∀ j, j ≤ 16 → 0 < j → s.2 ((t - j) % 16) = (Spec.schedule m 64).getD (t - j) 0 := by
    intro j hj hj0
    apply Q.blk
    · rw [show Nat.max t 16 = t from Nat.max_eq_left h1]; omega
    · rw [show Nat.max t 16 = t from Nat.max_eq_left h1]; omega
  rw [show (t % 16 + 13) % 16 = (t - 3) % 16 by omega, show (t % 16 + 8) % 16 = (t - 8) % 16 by omega,
    show (t % 16 + 2) % 16 = (t - 14) % 16 by omega]
  conv => lhs; rw [show t % 16 = (t - 16) % 16 by omega]
  rw [k 3 (by omega) (by omega), k 8 (by omega) (by omega), k 14 (by omega) (by omega), k 16 (by omega) (by omega), rol_eq _ (by omega),
    schedule_rec hm h1 h2]

theorem block_next {m : List Word} (hm : m.length = 16) {t : Nat} {s : Regs × Block} {h : Spec.Hash}
    (Q : Rel (Spec.schedule m 64) t s h) (h1 : 16 ≤ t) (h2 : t < 80) :
    setBlock s.2 (t % 16) (blk s.2 (t % 16)) (t % 16) = (Spec.schedule m 64).getD t 0 ∧
    ∀ i, Nat.max (t + 1) 16 ≤ i + 16 → i < Nat.max (t + 1) 16 →
      setBlock s.2 (t % 16) (blk s.2 (t % 16)) (i % 16) = (Spec.schedule m 64).getD i 0 := by
  have e := blk_ok hm Q h1 h2
  refine ⟨by simp only [setBlock, if_true]; exact e, ?_⟩
  rw [show Nat.max (t + 1) 16 = t + 1 from Nat.max_eq_left (by omega)]
  intro i hi1 hi2
  unfold setBlock
  by_cases hi : i = t
  · subst hi; rw [if_pos rfl]; exact e
  · rw [if_neg (by omega)]
    apply Q.blk
    · rw [show Nat.max t 16 = t from Nat.max_eq_left h1]; omega
    · rw [show Nat.max t 16 = t from Nat.max_eq_left h1]; omega

theorem exec_ok {m : List Word} (hm : m.length = 16) {t : Nat} {s : Regs × Block} {h : Spec.Hash}
    (Q : Rel (Spec.schedule m 64) t s h) (h2 : t < 80) :
    Rel (Spec.schedule m 64) (t + 1) (exec s (gen t)) (Spec.round (Spec.schedule m 64) t h) := by
  unfold gen kind
  by_cases c1 : t < 16
  · rw [if_pos c1]
    refine step_core Q (block := s.2) (g := _) (kk := _) ?_ ?_ ?_ ?_ rfl
    · rw [Q.b, Q.c, Q.d, ch_eq, Spec.f, if_pos (by omega)]
    · rw [Spec.K, if_pos (by omega)]
    · apply Q.blk
      · rw [show Nat.max t 16 = 16 from Nat.max_eq_right (by omega)]; omega
      · rw [show Nat.max t 16 = 16 from Nat.max_eq_right (by omega)]; omega
    · intro i hi1 hi2
      rw [show Nat.max (t + 1) 16 = 16 from Nat.max_eq_right (by omega)] at hi1 hi2
      apply Q.blk
      · rw [show Nat.max t 16 = 16 from Nat.max_eq_right (by omega)]; omega
      · rw [show Nat.max t 16 = 16 from Nat.max_eq_right (by omega)]; omega
  · rw [if_neg c1]
    obtain ⟨b1, b2⟩ := block_next hm Q (by omega) h2
    by_cases c2 : t < 20
    · rw [if_pos c2]
      refine step_core Q (g := _) (kk := _) ?_ ?_ b1 b2 rfl
      · rw [Q.b, Q.c, Q.d, ch_eq, Spec.f, if_pos (by omega)]
      · rw [Spec.K, if_pos (by omega)]
    · rw [if_neg c2]
      by_cases c3 : t < 40
      · rw [if_pos c3]
        refine step_core Q (g := _) (kk := _) ?_ ?_ b1 b2 rfl
        · rw [Q.b, Q.c, Q.d, Spec.f, if_neg (by omega), if_pos (by omega)]
        · rw [Spec.K, if_neg (by omega), if_pos (by omega)]
      · rw [if_neg c3]
        by_cases c4 : t < 60
        · rw [if_pos c4]
          refine step_core Q (g := _) (kk := _) ?_ ?_ b1 b2 rfl
          · rw [Q.b, Q.c, Q.d, maj_eq, Spec.f, if_neg (by omega), if_neg (by omega), if_pos (by omega)]
          · rw [Spec.K, if_neg (by omega), if_neg (by omega), if_pos (by omega)]
        · rw [if_neg c4]
          refine step_core Q (g := _) (kk := _) ?_ ?_ b1 b2 rfl
          · rw [Q.b, Q.c, Q.d, Spec.f, if_neg (by omega), if_neg (by omega), if_neg (by omega)]
          · rw [Spec.K, if_neg (by omega), if_neg (by omega), if_neg (by omega)]

theorem rounds_ok {m : List Word} (hm : m.length = 16) {s : Regs × Block} {h : Spec.Hash} (Q : Rel (Spec.schedule m 64) 0 s h)
    (n : Nat) (hn : n ≤ 80) :
    Rel (Spec.schedule m 64) n (((List.range n).map gen).foldl exec s) (Spec.rounds (Spec.schedule m 64) h n) := by
  induction n with
  | zero => exact Q
  | succ n ih =>
    rw [List.range_succ, List.map_append, List.foldl_append]
    exact exec_ok hm (ih (by omega)) (by omega)

/-! ### Words and bytes -/

theorem load_bit (bs : List Byte) (i j : Nat) (hj : j < 32) :
    (load32 bs i).getLsbD j = (bs.getD (i + j / 8) 0).getLsbD (j % 8) := by
  unfold load32
  have hz : ∀ (x : Byte) k, 8 ≤ k → x.getLsbD k = false := fun x k hk => BitVec.getLsbD_of_ge x k hk
  simp only [BitVec.getLsbD_or, BitVec.getLsbD_shiftLeft, BitVec.getLsbD_setWidth, hj, decide_true, Bool.true_and]
  have h32 : ∀ k, j - k < 32 := fun k => by omega
  simp only [h32, decide_true, Bool.true_and]
  rcases (show j / 8 = 0 ∨ j / 8 = 1 ∨ j / 8 = 2 ∨ j / 8 = 3 by omega) with q | q | q | q
  · rw [q, show j % 8 = j by omega]
    simp [show j < 8 by omega, show j < 16 by omega, show j < 24 by omega]
  · rw [q, show j % 8 = j - 8 by omega]
    simp [show ¬ j < 8 by omega, show j < 16 by omega, show j < 24 by omega, hz _ j (by omega)]
  · rw [q, show j % 8 = j - 16 by omega]
    simp [show ¬ j < 8 by omega, show ¬ j < 16 by omega, show j < 24 by omega, hz _ j (by omega), hz _ (j - 8) (by omega)]
  · rw [q, show j % 8 = j - 24 by omega]
    simp [show ¬ j < 8 by omega, show ¬ j < 16 by omega, show ¬ j < 24 by omega, hz _ j (by omega), hz _ (j - 8) (by omega),
      hz _ (j - 16) (by omega)]

theorem byteswap_load (bs : List Byte) (i : Nat) :
    byteswap (load32 bs i) = bs.getD i 0 ++ bs.getD (i + 1) 0 ++ bs.getD (i + 2) 0 ++ bs.getD (i + 3) 0 := by
  apply BitVec.eq_of_getLsbD_eq
  intro j hj
  rw [Bits.byteswap_bit _ (by decide) j hj, load_bit _ _ _ (by omega)]
  simp only [BitVec.getLsbD_append]
  rcases (show j / 8 = 0 ∨ j / 8 = 1 ∨ j / 8 = 2 ∨ j / 8 = 3 by omega) with q | q | q | q
  · rw [if_pos (show j < 8 by omega), show i + (8 * ((32 - 1 - j) / 8) + j % 8) / 8 = i + 3 by omega,
      show (8 * ((32 - 1 - j) / 8) + j % 8) % 8 = j by omega]
  · rw [if_neg (show ¬ j < 8 by omega), if_pos (show j - 8 < 8 by omega),
      show i + (8 * ((32 - 1 - j) / 8) + j % 8) / 8 = i + 2 by omega, show (8 * ((32 - 1 - j) / 8) + j % 8) % 8 = j - 8 by omega]
  · rw [if_neg (show ¬ j < 8 by omega), if_neg (show ¬ j - 8 < 8 by omega), if_pos (show j - 8 - 8 < 8 by omega),
      show i + (8 * ((32 - 1 - j) / 8) + j % 8) / 8 = i + 1 by omega, show (8 * ((32 - 1 - j) / 8) + j % 8) % 8 = j - 8 - 8 by omega]
  · rw [if_neg (show ¬ j < 8 by omega), if_neg (show ¬ j - 8 < 8 by omega), if_neg (show ¬ j - 8 - 8 < 8 by omega),
      show i + (8 * ((32 - 1 - j) / 8) + j % 8) / 8 = i by omega, show (8 * ((32 - 1 - j) / 8) + j % 8) % 8 = j - 8 - 8 - 8 by omega]

/-- The hash words of a digest. -/
def toHash (d : Digest) : Spec.Hash := ⟨d.d0, d.d1, d.d2, d.d3, d.d4⟩

theorem toHash_inj {d e : Digest} (h : toHash d = toHash e) : d = e := by
  cases d; cases e; simpa [toHash] using h

theorem transform_ok {d : Digest} {buf : List Byte} {off : Nat} (h : off + 64 ≤ buf.length) :
    ∃ d', transform d buf off = .ok d' ∧ toHash d' = Spec.compress (toHash d) (Spec.words ((buf.drop off).take 64)) := by
  have hlen : ((buf.drop off).take 64).length = 64 := by rw [List.length_take, List.length_drop]; omega
  unfold transform
  simp only [hlen, if_true]
  generalize (buf.drop off).take 64 = bs at hlen ⊢
  refine ⟨_, rfl, ?_⟩
  rw [calls_eq]
  have hm : (Spec.words bs).length = 16 := by simp [Spec.words]
  have hw : ∀ i, i < 16 → (Spec.words bs).getD i 0 = byteswap (load32 bs (4 * i)) := by
    intro i hi
    rw [byteswap_load, List.getD_eq_getElem?_getD]
    unfold Spec.words
    rw [List.getElem?_map, List.getElem?_range hi]
    rfl
  have Q := rounds_ok hm (n := 80) (h := toHash d) (s := (fun x => match x with | .a => d.d0 | .b => d.d1 | .c => d.d2 | .d => d.d3 | .e => d.d4,
      fun i => byteswap (load32 bs (4 * i)))) ⟨rfl, rfl, rfl, rfl, rfl, by
        intro i hi1 hi2
        rw [show Nat.max 0 16 = 16 from rfl] at hi2
        have e := schedule_stable hm 0 64 i (by omega)
        rw [Nat.zero_add] at e
        rw [e]
        show byteswap (load32 bs (4 * (i % 16))) = (Spec.words bs).getD i 0
        rw [Nat.mod_eq_of_lt hi2, hw i hi2]⟩ (Nat.le_refl _)
  generalize ((List.range 80).map gen).foldl exec _ = s at Q ⊢
  have qa := Q.a
  have qb := Q.b
  have qc := Q.c
  have qd := Q.d
  have qe := Q.e
  simp only [show 4 * 80 % 5 = 0 from rfl, show (4 * 80 + 1) % 5 = 1 from rfl, show (4 * 80 + 2) % 5 = 2 from rfl,
    show (4 * 80 + 3) % 5 = 3 from rfl, show (4 * 80 + 4) % 5 = 4 from rfl, reg] at qa qb qc qd qe
  rw [qa, qb, qc, qd, qe]
  rfl

end Verif.Sha1
