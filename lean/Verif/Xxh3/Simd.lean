import Verif.Xxh3.Short

/-! The vector instructions do the same as the scalar loops. -/
namespace Verif.Xxh3
open Spec

/-! ### registers hold 64 bit numbers -/

theorem join_split : ∀ xs : List U64, join (split xs) = xs
  | [] => rfl
  | x :: xs => by
    rw [split, join, join_split xs]
    congr 1
    apply BitVec.eq_of_toNat_eq
    have h := x.isLt
    have e : ((x >>> 32).setWidth 32 ++ x.setWidth 32 : BitVec 64).toNat = ((x >>> 32).setWidth 32).toNat * 2 ^ 32 + (x.setWidth 32).toNat := append_eq _ _
    rw [e, BitVec.toNat_setWidth, BitVec.toNat_setWidth, shr32]
    omega

/-- The numbers at `i`, `i + 8`, … -/
def words (m : Mem) (i : Nat) : Nat → List U64
  | 0 => []
  | n + 1 => le64 m i :: words m (i + 8) n

theorem toNat4 (a b c d : Byte) : (a ++ b ++ c ++ d : BitVec 32).toNat = ((a.toNat * 2 ^ 8 + b.toNat) * 2 ^ 8 + c.toNat) * 2 ^ 8 + d.toNat := by
  have e1 : (a ++ b ++ c ++ d : BitVec 32).toNat = (a ++ b ++ c : BitVec 24).toNat * 2 ^ 8 + d.toNat := append_eq _ _
  have e2 : (a ++ b ++ c : BitVec 24).toNat = (a ++ b : BitVec 16).toNat * 2 ^ 8 + c.toNat := append_eq _ _
  have e3 : (a ++ b : BitVec 16).toNat = a.toNat * 2 ^ 8 + b.toNat := append_eq _ _
  rw [e1, e2, e3]

theorem toNat8 (a b c d e f g h : Byte) : (a ++ b ++ c ++ d ++ e ++ f ++ g ++ h : BitVec 64).toNat =
    ((((a ++ b ++ c ++ d : BitVec 32).toNat * 2 ^ 8 + e.toNat) * 2 ^ 8 + f.toNat) * 2 ^ 8 + g.toNat) * 2 ^ 8 + h.toNat := by
  have e1 : (a ++ b ++ c ++ d ++ e ++ f ++ g ++ h : BitVec 64).toNat = (a ++ b ++ c ++ d ++ e ++ f ++ g : BitVec 56).toNat * 2 ^ 8 + h.toNat := append_eq _ _
  have e2 : (a ++ b ++ c ++ d ++ e ++ f ++ g : BitVec 56).toNat = (a ++ b ++ c ++ d ++ e ++ f : BitVec 48).toNat * 2 ^ 8 + g.toNat := append_eq _ _
  have e3 : (a ++ b ++ c ++ d ++ e ++ f : BitVec 48).toNat = (a ++ b ++ c ++ d ++ e : BitVec 40).toNat * 2 ^ 8 + f.toNat := append_eq _ _
  have e4 : (a ++ b ++ c ++ d ++ e : BitVec 40).toNat = (a ++ b ++ c ++ d : BitVec 32).toNat * 2 ^ 8 + e.toNat := append_eq _ _
  rw [e1, e2, e3, e4]

theorem le64_eq (m : Mem) (i : Nat) : le64 m i = (le32 m (i + 4) ++ le32 m i : BitVec 64) := by
  apply BitVec.eq_of_toNat_eq
  have e : (le32 m (i + 4) ++ le32 m i : BitVec 64).toNat = (le32 m (i + 4)).toNat * 2 ^ 32 + (le32 m i).toNat := append_eq _ _
  rw [e]
  unfold le64 le32
  rw [toNat8, toNat4, toNat4]
  omega

theorem le64_lo (m : Mem) (i : Nat) : (le64 m i).setWidth 32 = le32 m i := by
  rw [le64_eq]
  apply BitVec.eq_of_toNat_eq
  rw [BitVec.toNat_setWidth]
  have e : (le32 m (i + 4) ++ le32 m i : BitVec 64).toNat = (le32 m (i + 4)).toNat * 2 ^ 32 + (le32 m i).toNat := append_eq _ _
  have := (le32 m i).isLt
  rw [e]; omega

theorem le64_hi (m : Mem) (i : Nat) : (le64 m i >>> 32).setWidth 32 = le32 m (i + 4) := by
  rw [le64_eq]
  apply BitVec.eq_of_toNat_eq
  rw [BitVec.toNat_setWidth, shr32]
  have e : (le32 m (i + 4) ++ le32 m i : BitVec 64).toNat = (le32 m (i + 4)).toNat * 2 ^ 32 + (le32 m i).toNat := append_eq _ _
  have := (le32 m i).isLt
  have := (le32 m (i + 4)).isLt
  rw [e]; omega

theorem loadu_one {m : Mem} {i n : Nat} {r : Reg} (h : i + 4 ≤ m.length) (hr : loadu m (i + 4) n = .ok r) : loadu m i (n + 1) = .ok (le32 m i :: r) := by
  rw [loadu, rd8_ok (by omega), rd8_ok (by omega), rd8_ok (by omega), rd8_ok (by omega)]
  simp only [R.ok_bind]
  rw [hr, R.ok_bind]
  rfl

theorem loadu_ok {m : Mem} : ∀ (w i : Nat), i + 8 * w ≤ m.length → loadu m i (2 * w) = .ok (split (words m i w))
  | 0, i, _ => rfl
  | w + 1, i, h => by
    have := loadu_ok (m := m) w (i + 8) (by omega)
    rw [show 2 * (w + 1) = 2 * w + 1 + 1 by omega, loadu_one (by omega) (loadu_one (by omega) this), words, split, le64_lo, le64_hi]

theorem words_length (m : Mem) : ∀ (w i : Nat), (words m i w).length = w
  | 0, _ => rfl
  | w + 1, i => by simp [words, words_length m w]

theorem xorR_split : ∀ xs ys : List U64, xorR (split xs) (split ys) = split (List.zipWith (· ^^^ ·) xs ys)
  | [], _ => by simp [split, xorR]
  | _ :: _, [] => by simp [split, xorR]
  | x :: xs, y :: ys => by
    have := xorR_split xs ys
    unfold xorR at this ⊢
    simp only [split, List.zipWith_cons_cons, this, BitVec.setWidth_xor, BitVec.ushiftRight_xor_distrib]

theorem add64_split (xs ys : List U64) : add64 (split xs) (split ys) = split (List.zipWith (· + ·) xs ys) := by
  unfold add64; rw [join_split, join_split]

/-- Lower half times upper half. -/
def mulLH (x : U64) : U64 := BitVec.ofNat 64 ((x.toNat % 2 ^ 32) * (x.toNat / 2 ^ 32))

theorem low_append (a b : U32) : ((a ++ b : BitVec 64).setWidth 32) = b := by
  apply BitVec.eq_of_toNat_eq
  rw [BitVec.toNat_setWidth]
  have e : (a ++ b : BitVec 64).toNat = a.toNat * 2 ^ 32 + b.toNat := append_eq _ _
  have := b.isLt
  rw [e]; omega

theorem mul_hi_lo (x : U64) : ((x.setWidth 32).setWidth 64 * ((x >>> 32).setWidth 32).setWidth 64 : U64) = mulLH x := by
  apply BitVec.eq_of_toNat_eq
  have h := x.isLt
  have := mult32to64_toNat x (x >>> 32)
  unfold mult32to64 at this
  rw [this, shr32, mulLH, BitVec.toNat_ofNat, Nat.mod_eq_of_lt (show x.toNat / 2 ^ 32 < 2 ^ 32 by omega), Nat.mod_eq_of_lt (a := x.toNat % 2 ^ 32 * (x.toNat / 2 ^ 32))]
  have := lo_hi_mul (x.toNat % 2 ^ 32) (x.toNat / 2 ^ 32) (Nat.mod_lt _ (by decide)) (by omega)
  omega

theorem mul_shuffle : ∀ (n : Nat) (xs : List U64), xs.length = 2 * n → mulEpu32 (split xs) (shuffle 0 3 0 1 (split xs)) = split (xs.map mulLH)
  | 0, xs, h => by
    have : xs = [] := List.length_eq_zero_iff.1 (by omega)
    subst this; rfl
  | n + 1, x :: y :: xs, h => by
    have ih := mul_shuffle n xs (by simp at h; omega)
    have e := congrArg join ih
    unfold mulEpu32 at e ih ⊢
    rw [join_split, join_split] at e
    rw [join_split] at e ih ⊢
    simp only [split, shuffle, join, List.zipWith_cons_cons, List.map_cons, e, List.get]
    rw [low_append, low_append, mul_hi_lo, mul_hi_lo]
  | n + 1, [x], h => by simp at h; omega
  | n + 1, [], h => by simp at h

theorem shuffle_swap : ∀ (n : Nat) (xs : List U64), xs.length = 2 * n →
    shuffle 1 0 3 2 (split xs) = split ((List.range n).flatMap fun k => [xs.getD (2 * k + 1) 0#64, xs.getD (2 * k) 0#64])
  | 0, xs, h => by
    have : xs = [] := List.length_eq_zero_iff.1 (by omega)
    subst this; rfl
  | n + 1, x :: y :: xs, h => by
    have ih := shuffle_swap n xs (by simp at h; omega)
    rw [List.range_succ_eq_map, List.flatMap_cons, List.flatMap_map]
    simp only [split, shuffle, ih, List.get, Nat.mul_zero, Nat.zero_add, List.getD_cons_succ, List.getD_cons_zero, List.cons_append, List.nil_append]
    congr 5
  | n + 1, [x], h => by simp at h; omega
  | n + 1, [], h => by simp at h

/-- What one register step adds. -/
def addend (wd : Width) (n : Nat) (ds : List U64) : List U64 :=
  match wd with
  | .bits64 => ds
  | .bits128 => (List.range n).flatMap fun k => [ds.getD (2 * k + 1) 0#64, ds.getD (2 * k) 0#64]

theorem accSimd_step {wd : Width} {n : Nat} {m sec : Mem} {i s r k : Nat} {acc : Acc} (hi : i + 8 * (2 * n) * r + 8 * (2 * n) ≤ m.length)
    (hs : s + 8 * (2 * n) * r + 8 * (2 * n) ≤ sec.length) (ha : (r + 1) * (2 * n) ≤ acc.length) :
    accSimd wd (2 * n) m i sec s r (k + 1) acc = accSimd wd (2 * n) m i sec s (r + 1) k
      (acc.take (r * (2 * n)) ++
        List.zipWith (· + ·) ((List.zipWith (· ^^^ ·) (words m (i + 8 * (2 * n) * r) (2 * n)) (words sec (s + 8 * (2 * n) * r) (2 * n))).map mulLH)
          (List.zipWith (· + ·) ((acc.drop (r * (2 * n))).take (2 * n)) (addend wd n (words m (i + 8 * (2 * n) * r) (2 * n)))) ++
        acc.drop ((r + 1) * (2 * n))) := by
  rw [accSimd, loadu_ok _ _ hi, loadu_ok _ _ hs]
  simp only [R.ok_bind]
  unfold loadA
  rw [if_pos ha]
  simp only [R.ok_bind]
  rw [xorR_split, mul_shuffle n _ (by simp [words_length])]
  unfold storeA
  cases wd
  · simp only [addend]
    rw [add64_split, add64_split, join_split]
  · simp only [addend]
    rw [shuffle_swap n _ (words_length _ _ _), add64_split, add64_split, join_split]

theorem mul_prime : ∀ xs : List U64, mulEpu32 (split xs) (List.replicate (2 * xs.length) PRIME32_1) =
    split (xs.map fun x => (x.setWidth 32).setWidth 64 * (PRIME32_1.setWidth 64 : U64))
  | [] => rfl
  | x :: xs => by
    have ih := mul_prime xs
    have e := congrArg join ih
    unfold mulEpu32 at e ⊢
    rw [join_split, join_split] at e
    rw [join_split] at e ⊢
    simp only [List.length_cons, show 2 * (xs.length + 1) = 2 * xs.length + 1 + 1 by omega, List.replicate_succ, join, List.zipWith_cons_cons, e, List.map_cons]
    rw [low_append]

theorem mul_prime_hi : ∀ (n : Nat) (xs : List U64), xs.length = 2 * n → mulEpu32 (shuffle 0 3 0 1 (split xs)) (List.replicate (2 * (2 * n)) PRIME32_1) =
    split (xs.map fun x => ((x >>> 32).setWidth 32).setWidth 64 * (PRIME32_1.setWidth 64 : U64))
  | 0, xs, h => by
    have : xs = [] := List.length_eq_zero_iff.1 (by omega)
    subst this; rfl
  | n + 1, x :: y :: xs, h => by
    have ih := mul_prime_hi n xs (by simp at h; omega)
    have e := congrArg join ih
    unfold mulEpu32 at e ih ⊢
    rw [join_split, join_split] at e
    simp only [split, shuffle, show 2 * (2 * (n + 1)) = 2 * (2 * n) + 1 + 1 + 1 + 1 by omega, List.replicate_succ, join, List.zipWith_cons_cons, List.map_cons, e, List.get]
    simp only [low_append]
  | n + 1, [x], h => by simp at h; omega
  | n + 1, [], h => by simp at h

theorem mul_parts (x : U64) :
    ((x.setWidth 32).setWidth 64 * (PRIME32_1.setWidth 64 : U64) + (((x >>> 32).setWidth 32).setWidth 64 * (PRIME32_1.setWidth 64 : U64)) <<< 32 : U64) = x * 0x9E3779B1#64 := by
  have h := x.isLt
  have ep : (PRIME32_1.setWidth 64 : U64).toNat = 0x9E3779B1 := by decide
  apply BitVec.eq_of_toNat_eq
  rw [BitVec.toNat_add, BitVec.toNat_shiftLeft, BitVec.toNat_mul, BitVec.toNat_mul, BitVec.toNat_mul, ep, Nat.shiftLeft_eq]
  simp only [BitVec.toNat_setWidth]
  rw [shr32]
  have : (0x9E3779B1#64).toNat = 0x9E3779B1 := by decide
  rw [this]
  omega

theorem scrSimd_step {n : Nat} {sec : Mem} {s r k : Nat} {acc : Acc} (hs : s + 8 * (2 * n) * r + 8 * (2 * n) ≤ sec.length) (ha : (r + 1) * (2 * n) ≤ acc.length) :
    scrSimd (2 * n) sec s r (k + 1) acc = scrSimd (2 * n) sec s (r + 1) k
      (acc.take (r * (2 * n)) ++
        (List.zipWith (· ^^^ ·) (((acc.drop (r * (2 * n))).take (2 * n)).map fun a => xorshift64 a 47) (words sec (s + 8 * (2 * n) * r) (2 * n))).map (fun x => x * 0x9E3779B1#64) ++
        acc.drop ((r + 1) * (2 * n))) := by
  have hl : ((acc.drop (r * (2 * n))).take (2 * n)).length = 2 * n := by
    simp only [List.length_take, List.length_drop]
    have : (r + 1) * (2 * n) = r * (2 * n) + 2 * n := by rw [Nat.add_mul, Nat.one_mul]
    omega
  rw [scrSimd, loadu_ok _ _ hs]
  unfold loadA
  rw [if_pos ha]
  simp only [R.ok_bind]
  unfold srli64 slli64
  rw [join_split, xorR_split, xorR_split]
  generalize hx : List.zipWith (fun x1 x2 => x1 ^^^ x2) (List.zipWith (fun x1 x2 => x1 ^^^ x2) ((acc.drop (r * (2 * n))).take (2 * n))
    (((acc.drop (r * (2 * n))).take (2 * n)).map fun (a : U64) => a >>> 47)) (words sec (s + 8 * (2 * n) * r) (2 * n)) = xs
  have hxl : xs.length = 2 * n := by rw [← hx]; simp only [List.length_zipWith, List.length_map, hl, words_length, Nat.min_self]
  have e1 := mul_prime xs
  rw [hxl] at e1
  rw [e1, mul_prime_hi n xs hxl, join_split, add64_split]
  unfold storeA
  rw [join_split]
  have e2 : List.zipWith (· + ·) (xs.map fun x => (x.setWidth 32).setWidth 64 * (PRIME32_1.setWidth 64 : U64))
      ((xs.map fun x => ((x >>> 32).setWidth 32).setWidth 64 * (PRIME32_1.setWidth 64 : U64)).map fun (a : U64) => a <<< 32) = xs.map fun x => x * 0x9E3779B1#64 := by
    rw [List.map_map, List.zipWith_map, List.zipWith_self]
    apply List.map_congr_left
    intro x _
    exact mul_parts x
  rw [e2, ← hx]
  have e3 : ∀ l : List U64, List.zipWith (fun x1 x2 => x1 ^^^ x2) l (l.map fun (a : U64) => a >>> 47) = l.map fun a => xorshift64 a 47 := by
    intro l
    rw [List.zipWith_map_right, List.zipWith_self]
    rfl
  rw [e3]

/-! ### all variants -/

theorem explicit {acc : Acc} (h : acc.length = 8) : ∃ a0 a1 a2 a3 a4 a5 a6 a7, acc = [a0, a1, a2, a3, a4, a5, a6, a7] := by
  match acc, h with
  | [a0, a1, a2, a3, a4, a5, a6, a7], _ => exact ⟨_, _, _, _, _, _, _, _, rfl⟩

theorem mult_key (x : U64) : mult32to64 (x &&& 0xFFFFFFFF#64) (x >>> 32) = mulLH x := by
  apply BitVec.eq_of_toNat_eq
  have h := x.isLt
  rw [mult32to64_toNat, and32, shr32, mulLH, BitVec.toNat_ofNat, Nat.mod_mod, Nat.mod_eq_of_lt (show x.toNat / 2 ^ 32 < 2 ^ 32 by omega), Nat.mod_eq_of_lt (a := x.toNat % 2 ^ 32 * (x.toNat / 2 ^ 32))]
  have := lo_hi_mul (x.toNat % 2 ^ 32) (x.toNat / 2 ^ 32) (Nat.mod_lt _ (by decide)) (by omega)
  omega

theorem absorb_eq (wd : Width) (sec : Mem) (m : Mem) (i s : Nat) (acc : Acc) : absorb wd sec acc m i s = lanes fun k =>
    acc.getD k 0#64 + le64 m (i + 8 * (match wd with | .bits64 => k | .bits128 => k ^^^ 1)) + mulLH (le64 m (i + 8 * k) ^^^ le64 sec (s + 8 * k)) := rfl

theorem step64 {cfg : Cfg} {m sec : Mem} {i s k n : Nat} {acc : Acc} {a : U64} (hm : i + 8 * k + 8 ≤ m.length) (hs : s + 8 * k + 8 ≤ sec.length) (ha : acc[k]? = some a) :
    accScalar cfg .bits64 m i sec s k (n + 1) acc =
      accScalar cfg .bits64 m i sec s (k + 1) n (acc.set k (a + le64 m (i + 8 * k) + mulLH (le64 m (i + 8 * k) ^^^ le64 sec (s + 8 * k)))) := by
  have hk : k < acc.length := by rw [List.getElem?_eq_some_iff] at ha; exact ha.1
  rw [accScalar, readLE64_ok cfg hm, R.ok_bind, Nat.mul_comm k 8, readLE64_ok cfg hs, R.ok_bind]
  dsimp only
  unfold addA getA
  rw [ha]
  simp only [R.ok_bind, List.getElem?_set_self hk, List.set_set, mult_key]

theorem step128 {cfg : Cfg} {m sec : Mem} {i s k n : Nat} {acc : Acc} {a b : U64} (hm : i + 8 * k + 8 ≤ m.length) (hs : s + 8 * k + 8 ≤ sec.length) (hk : (k ^^^ 1) ≠ k)
    (ha : acc[k]? = some a) (hb : acc[k ^^^ 1]? = some b) :
    accScalar cfg .bits128 m i sec s k (n + 1) acc =
      accScalar cfg .bits128 m i sec s (k + 1) n ((acc.set (k ^^^ 1) (b + le64 m (i + 8 * k))).set k (a + mulLH (le64 m (i + 8 * k) ^^^ le64 sec (s + 8 * k)))) := by
  rw [accScalar, readLE64_ok cfg hm, R.ok_bind, Nat.mul_comm k 8, readLE64_ok cfg hs, R.ok_bind]
  dsimp only
  unfold addA getA
  rw [hb]
  simp only [R.ok_bind, List.getElem?_set_ne hk, ha, mult_key]

theorem add_swap (a p d : U64) : a + p + d = a + d + p := by
  rw [BitVec.add_assoc, BitVec.add_comm p d, BitVec.add_assoc]

theorem list8 {a0 a1 a2 a3 a4 a5 a6 a7 b0 b1 b2 b3 b4 b5 b6 b7 : U64} (h0 : a0 = b0) (h1 : a1 = b1) (h2 : a2 = b2) (h3 : a3 = b3) (h4 : a4 = b4) (h5 : a5 = b5) (h6 : a6 = b6)
    (h7 : a7 = b7) : [a0, a1, a2, a3, a4, a5, a6, a7] = [b0, b1, b2, b3, b4, b5, b6, b7] := by
  rw [h0, h1, h2, h3, h4, h5, h6, h7]

theorem accScalar_ok {cfg : Cfg} {wd : Width} {m sec : Mem} {i s : Nat} {acc : Acc} (ha : acc.length = 8) (hm : i + 64 ≤ m.length) (hs : s + 64 ≤ sec.length) :
    accScalar cfg wd m i sec s 0 8 acc = .ok (absorb wd sec acc m i s) := by
  obtain ⟨a0, a1, a2, a3, a4, a5, a6, a7, rfl⟩ := explicit ha
  rw [absorb_eq]
  cases wd
  · rw [step64 (a := a0) (by omega) (by omega) rfl, step64 (a := a1) (by omega) (by omega) rfl, step64 (a := a2) (by omega) (by omega) rfl,
      step64 (a := a3) (by omega) (by omega) rfl, step64 (a := a4) (by omega) (by omega) rfl, step64 (a := a5) (by omega) (by omega) rfl,
      step64 (a := a6) (by omega) (by omega) rfl, step64 (a := a7) (by omega) (by omega) rfl]
    rfl
  · rw [step128 (a := a0) (b := a1) (by omega) (by omega) (by decide) rfl rfl]
    simp only [Nat.zero_xor, List.set_cons_succ, List.set_cons_zero]
    rw [step128 (k := 0 + 1) (b := a0 + _) (a := a1 + _) (by omega) (by omega) (by decide) rfl rfl]
    rw [show (0 + 1) ^^^ 1 = 0 from rfl]
    simp only [List.set_cons_succ, List.set_cons_zero]
    rw [step128 (k := 2) (a := a2) (b := a3) (by omega) (by omega) (by decide) rfl rfl]
    rw [show 2 ^^^ 1 = 3 from rfl]
    simp only [List.set_cons_succ, List.set_cons_zero]
    rw [step128 (k := 2 + 1) (b := a2 + _) (a := a3 + _) (by omega) (by omega) (by decide) rfl rfl]
    rw [show (2 + 1) ^^^ 1 = 2 from rfl]
    simp only [List.set_cons_succ, List.set_cons_zero]
    rw [step128 (k := 4) (a := a4) (b := a5) (by omega) (by omega) (by decide) rfl rfl]
    rw [show 4 ^^^ 1 = 5 from rfl]
    simp only [List.set_cons_succ, List.set_cons_zero]
    rw [step128 (k := 4 + 1) (b := a4 + _) (a := a5 + _) (by omega) (by omega) (by decide) rfl rfl]
    rw [show (4 + 1) ^^^ 1 = 4 from rfl]
    simp only [List.set_cons_succ, List.set_cons_zero]
    rw [step128 (k := 6) (a := a6) (b := a7) (by omega) (by omega) (by decide) rfl rfl]
    rw [show 6 ^^^ 1 = 7 from rfl]
    simp only [List.set_cons_succ, List.set_cons_zero]
    rw [step128 (k := 6 + 1) (b := a6 + _) (a := a7 + _) (by omega) (by omega) (by decide) rfl rfl]
    rw [show (6 + 1) ^^^ 1 = 6 from rfl]
    simp only [List.set_cons_succ, List.set_cons_zero, accScalar, lanes]
    exact congrArg Except.ok (list8 (add_swap _ _ _) rfl (add_swap _ _ _) rfl (add_swap _ _ _) rfl (add_swap _ _ _) rfl)

theorem accumulate_512_ok (cfg : Cfg) {wd : Width} {m sec : Mem} {i s : Nat} {acc : Acc} (ha : acc.length = 8) (hm : i + 64 ≤ m.length) (hs : s + 64 ≤ sec.length) :
    accumulate_512 cfg wd acc m i sec s = .ok (absorb wd sec acc m i s) := by
  have hv : ∀ (p a d : U64), p + (a + d) = a + d + p := fun p a d => BitVec.add_comm _ _
  unfold accumulate_512
  cases hc : cfg.vec
  · exact accScalar_ok ha hm hs
  · obtain ⟨a0, a1, a2, a3, a4, a5, a6, a7, rfl⟩ := explicit ha
    dsimp only
    rw [absorb_eq]
    cases wd
    · refine (accSimd_step (n := 1) (r := 0) (by omega) (by omega) (by show _ ≤ 8; omega)).trans ?_
      show accSimd .bits64 (2 * 1) m i sec s 1 3 [_, _, a2, a3, a4, a5, a6, a7] = _
      refine (accSimd_step (n := 1) (r := 1) (by omega) (by omega) (by show _ ≤ 8; omega)).trans ?_
      show accSimd .bits64 (2 * 1) m i sec s 2 2 [_, _, _, _, a4, a5, a6, a7] = _
      refine (accSimd_step (n := 1) (r := 2) (by omega) (by omega) (by show _ ≤ 8; omega)).trans ?_
      show accSimd .bits64 (2 * 1) m i sec s 3 1 [_, _, _, _, _, _, a6, a7] = _
      refine (accSimd_step (n := 1) (r := 3) (by omega) (by omega) (by show _ ≤ 8; omega)).trans ?_
      exact congrArg Except.ok (list8 (hv _ _ _) (hv _ _ _) (hv _ _ _) (hv _ _ _) (hv _ _ _) (hv _ _ _) (hv _ _ _) (hv _ _ _))
    · refine (accSimd_step (n := 1) (r := 0) (by omega) (by omega) (by show _ ≤ 8; omega)).trans ?_
      show accSimd .bits128 (2 * 1) m i sec s 1 3 [_, _, a2, a3, a4, a5, a6, a7] = _
      refine (accSimd_step (n := 1) (r := 1) (by omega) (by omega) (by show _ ≤ 8; omega)).trans ?_
      show accSimd .bits128 (2 * 1) m i sec s 2 2 [_, _, _, _, a4, a5, a6, a7] = _
      refine (accSimd_step (n := 1) (r := 2) (by omega) (by omega) (by show _ ≤ 8; omega)).trans ?_
      show accSimd .bits128 (2 * 1) m i sec s 3 1 [_, _, _, _, _, _, a6, a7] = _
      refine (accSimd_step (n := 1) (r := 3) (by omega) (by omega) (by show _ ≤ 8; omega)).trans ?_
      exact congrArg Except.ok (list8 (hv _ _ _) (hv _ _ _) (hv _ _ _) (hv _ _ _) (hv _ _ _) (hv _ _ _) (hv _ _ _) (hv _ _ _))
  · obtain ⟨a0, a1, a2, a3, a4, a5, a6, a7, rfl⟩ := explicit ha
    dsimp only
    rw [absorb_eq]
    cases wd
    · refine (accSimd_step (n := 2) (r := 0) (by omega) (by omega) (by show _ ≤ 8; omega)).trans ?_
      show accSimd .bits64 (2 * 2) m i sec s 1 1 [_, _, _, _, a4, a5, a6, a7] = _
      refine (accSimd_step (n := 2) (r := 1) (by omega) (by omega) (by show _ ≤ 8; omega)).trans ?_
      exact congrArg Except.ok (list8 (hv _ _ _) (hv _ _ _) (hv _ _ _) (hv _ _ _) (hv _ _ _) (hv _ _ _) (hv _ _ _) (hv _ _ _))
    · refine (accSimd_step (n := 2) (r := 0) (by omega) (by omega) (by show _ ≤ 8; omega)).trans ?_
      show accSimd .bits128 (2 * 2) m i sec s 1 1 [_, _, _, _, a4, a5, a6, a7] = _
      refine (accSimd_step (n := 2) (r := 1) (by omega) (by omega) (by show _ ≤ 8; omega)).trans ?_
      exact congrArg Except.ok (list8 (hv _ _ _) (hv _ _ _) (hv _ _ _) (hv _ _ _) (hv _ _ _) (hv _ _ _) (hv _ _ _) (hv _ _ _))
  · obtain ⟨a0, a1, a2, a3, a4, a5, a6, a7, rfl⟩ := explicit ha
    dsimp only
    rw [absorb_eq]
    cases wd
    · refine (accSimd_step (n := 4) (r := 0) (by omega) (by omega) (by show _ ≤ 8; omega)).trans ?_
      exact congrArg Except.ok (list8 (hv _ _ _) (hv _ _ _) (hv _ _ _) (hv _ _ _) (hv _ _ _) (hv _ _ _) (hv _ _ _) (hv _ _ _))
    · refine (accSimd_step (n := 4) (r := 0) (by omega) (by omega) (by show _ ≤ 8; omega)).trans ?_
      exact congrArg Except.ok (list8 (hv _ _ _) (hv _ _ _) (hv _ _ _) (hv _ _ _) (hv _ _ _) (hv _ _ _) (hv _ _ _) (hv _ _ _))

theorem scrScalar_step {cfg : Cfg} {sec : Mem} {s k n : Nat} {acc : Acc} {a : U64} (hs : s + 8 * k + 8 ≤ sec.length) (ha : acc[k]? = some a) :
    scrScalar cfg sec s k (n + 1) acc = scrScalar cfg sec s (k + 1) n (acc.set k ((xorshift64 a 47 ^^^ le64 sec (s + 8 * k)) * 0x9E3779B1#64)) := by
  rw [scrScalar, readLE64_ok cfg hs, R.ok_bind]
  unfold getA
  rw [ha]
  simp only [R.ok_bind]
  rw [show (PRIME32_1.setWidth 64 : U64) = 0x9E3779B1#64 by decide]

theorem scrambleAcc_ok (cfg : Cfg) {sec : Mem} {s : Nat} {acc : Acc} (ha : acc.length = 8) (hs : s + 64 ≤ sec.length) :
    scrambleAcc cfg acc sec s = .ok (scramble sec acc s) := by
  unfold scrambleAcc
  obtain ⟨a0, a1, a2, a3, a4, a5, a6, a7, rfl⟩ := explicit ha
  cases hc : cfg.vec
  · dsimp only
    rw [scrScalar_step (a := a0) (by omega) rfl, scrScalar_step (a := a1) (by omega) rfl, scrScalar_step (a := a2) (by omega) rfl, scrScalar_step (a := a3) (by omega) rfl, scrScalar_step (a := a4) (by omega) rfl, scrScalar_step (a := a5) (by omega) rfl, scrScalar_step (a := a6) (by omega) rfl, scrScalar_step (a := a7) (by omega) rfl]
    rfl
  · dsimp only
    refine (scrSimd_step (n := 1) (r := 0) (by omega) (by show _ ≤ 8; omega)).trans ?_
    show scrSimd (2 * 1) sec s 1 3 [_, _, a2, a3, a4, a5, a6, a7] = _
    refine (scrSimd_step (n := 1) (r := 1) (by omega) (by show _ ≤ 8; omega)).trans ?_
    show scrSimd (2 * 1) sec s 2 2 [_, _, _, _, a4, a5, a6, a7] = _
    refine (scrSimd_step (n := 1) (r := 2) (by omega) (by show _ ≤ 8; omega)).trans ?_
    show scrSimd (2 * 1) sec s 3 1 [_, _, _, _, _, _, a6, a7] = _
    refine (scrSimd_step (n := 1) (r := 3) (by omega) (by show _ ≤ 8; omega)).trans ?_
    rfl
  · dsimp only
    refine (scrSimd_step (n := 2) (r := 0) (by omega) (by show _ ≤ 8; omega)).trans ?_
    show scrSimd (2 * 2) sec s 1 1 [_, _, _, _, a4, a5, a6, a7] = _
    refine (scrSimd_step (n := 2) (r := 1) (by omega) (by show _ ≤ 8; omega)).trans ?_
    rfl
  · dsimp only
    refine (scrSimd_step (n := 4) (r := 0) (by omega) (by show _ ≤ 8; omega)).trans ?_
    rfl

end Verif.Xxh3
