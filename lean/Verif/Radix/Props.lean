import Verif.Radix.Model

/-! C31: the radix sort sorts. -/
namespace Verif.Radix

/-! ### a pass is a stable distribution by digit -/

/-- The elements with digit `b`, in order. -/
def bucket (shift : Nat) (l : List (BitVec 32)) (b : Nat) : List (BitVec 32) := l.filter (fun x => digit shift x = b)

/-- The buckets below `m`, one after the other. -/
def buckets (shift : Nat) (l : List (BitVec 32)) : Nat → List (BitVec 32)
  | 0 => []
  | m + 1 => buckets shift l m ++ bucket shift l m

theorem buckets_succ (shift : Nat) (l : List (BitVec 32)) (m : Nat) : buckets shift l (m + 1) = buckets shift l m ++ bucket shift l m := rfl

theorem digit_lt (shift : Nat) (x : BitVec 32) : digit shift x < 256 := by
  unfold digit
  rw [BitVec.toNat_and]
  have : (x >>> shift).toNat &&& (0xff#32).toNat ≤ (0xff#32).toNat := Nat.and_le_right
  have e : (0xff#32).toNat = 255 := rfl
  omega

theorem bucket_snoc (shift : Nat) (l : List (BitVec 32)) (x : BitVec 32) (b : Nat) :
    bucket shift (l ++ [x]) b = if digit shift x = b then bucket shift l b ++ [x] else bucket shift l b := by
  unfold bucket
  rw [List.filter_append]
  by_cases h : digit shift x = b
  · simp [h]
  · simp [h]

theorem bucket_cons (shift : Nat) (l : List (BitVec 32)) (x : BitVec 32) (b : Nat) :
    (bucket shift (x :: l) b).length = (bucket shift l b).length + if digit shift x = b then 1 else 0 := by
  unfold bucket
  rw [List.filter_cons]
  by_cases h : digit shift x = b
  · simp [h]
  · simp [h]

theorem bucket_append (shift : Nat) (l r : List (BitVec 32)) (b : Nat) : bucket shift (l ++ r) b = bucket shift l b ++ bucket shift r b := List.filter_append ..

theorem count_ok (shift : Nat) : ∀ (l : List (BitVec 32)) (idx : Index) (b : Nat), countLoop shift l idx b = idx b + (bucket shift l b).length
  | [], idx, b => rfl
  | x :: xs, idx, b => by
    unfold countLoop
    rw [count_ok shift xs, bucket_cons]
    unfold Index.set
    by_cases h : digit shift x = b
    · subst h
      simp only [if_true]
      omega
    · rw [if_neg (fun e => h e.symm), if_neg h]
      omega

theorem prefix_ok (shift : Nat) (l : List (BitVec 32)) : ∀ (k i : Nat) (idx : Index), (∀ j, i ≤ j → idx j = (bucket shift l j).length) →
    ∀ b, prefixLoop k i (buckets shift l i).length idx b = if i ≤ b ∧ b < i + k then (buckets shift l b).length else idx b
  | 0, i, idx, _, b => by
    unfold prefixLoop
    rw [if_neg (by omega)]
  | k + 1, i, idx, h, b => by
    unfold prefixLoop
    have e : (buckets shift l i).length + idx i = (buckets shift l (i + 1)).length := by
      rw [h i (Nat.le_refl _), buckets_succ, List.length_append]
    rw [e, prefix_ok shift l k (i + 1)]
    · unfold Index.set
      by_cases e1 : b = i
      · subst e1
        rw [if_neg (by omega), if_pos rfl, if_pos (by omega)]
      · rw [if_neg e1]
        by_cases e2 : i + 1 ≤ b ∧ b < i + 1 + k
        · rw [if_pos e2, if_pos (by omega)]
        · rw [if_neg e2, if_neg (by omega)]
    · intro j hj
      unfold Index.set
      rw [if_neg (by omega)]
      exact h j (by omega)

theorem buckets_mono (shift : Nat) (l : List (BitVec 32)) {a b : Nat} (h : a < b) : (buckets shift l a).length + (bucket shift l a).length ≤ (buckets shift l b).length := by
  induction b with
  | zero => omega
  | succ b ih =>
    rw [buckets_succ, List.length_append]
    by_cases e : a = b
    · subst e; omega
    · have := ih (by omega); omega

/-- What the distribution has done after the elements of `p`. -/
structure Placed (shift : Nat) (all p : List (BitVec 32)) (idx : Index) (dst : List (BitVec 32)) : Prop where
  len : dst.length = (buckets shift all 256).length
  idx : ∀ b, b < 256 → idx b = (buckets shift all b).length + (bucket shift p b).length
  at_ : ∀ b, b < 256 → ∀ k, k < (bucket shift p b).length → dst[(buckets shift all b).length + k]? = (bucket shift p b)[k]?

theorem move_ok (shift : Nat) (all : List (BitVec 32)) : ∀ (rest p : List (BitVec 32)) (idx : Index) (dst : List (BitVec 32)), p ++ rest = all → Placed shift all p idx dst →
    ∃ dst', moveLoop shift rest idx dst = .ok dst' ∧ ∃ idx', Placed shift all all idx' dst'
  | [], p, idx, dst, e, P => by
    rw [List.append_nil] at e
    subst e
    exact ⟨dst, rfl, idx, P⟩
  | x :: rest, p, idx, dst, e, P => by
    have hd := digit_lt shift x
    have hi := P.idx _ hd
    have hall : ∀ b, (bucket shift all b).length = (bucket shift p b).length + (bucket shift (x :: rest) b).length := by
      intro b
      rw [← e, bucket_append, List.length_append]
    have hx := hall (digit shift x)
    rw [bucket_cons, if_pos rfl] at hx
    have hpos : idx (digit shift x) < dst.length := by
      have := buckets_mono shift all hd
      rw [P.len]
      omega
    unfold moveLoop put
    rw [if_pos hpos]
    simp only [R.ok_bind]
    refine move_ok shift all rest (p ++ [x]) _ _ (by simpa using e) ⟨?_, ?_, ?_⟩
    · rw [List.length_set]
      exact P.len
    · intro b hb
      rw [bucket_snoc]
      unfold Index.set
      by_cases h : b = digit shift x
      · subst h
        rw [if_pos rfl, if_pos rfl, List.length_append, hi]
        simp only [List.length_singleton]
        omega
      · rw [if_neg h, if_neg (fun e => h e.symm)]
        exact P.idx b hb
    · intro b hb k hk
      rw [bucket_snoc] at hk ⊢
      by_cases h : digit shift x = b
      · subst h
        rw [if_pos rfl] at hk ⊢
        rw [List.length_append, List.length_singleton] at hk
        by_cases ek : k = (bucket shift p (digit shift x)).length
        · subst ek
          rw [← hi, List.getElem?_set_self hpos]
          simp
        · rw [List.getElem?_set_ne (by omega), List.getElem?_append_left (by omega)]
          exact P.at_ _ hb k (by omega)
      · rw [if_neg h] at hk ⊢
        have h3 := hall b
        have hne : idx (digit shift x) ≠ (buckets shift all b).length + k := by
          rcases Nat.lt_or_gt_of_ne h with h | h
          · have := buckets_mono shift all h
            omega
          · have := buckets_mono shift all h
            omega
        rw [List.getElem?_set_ne hne]
        exact P.at_ b hb k hk

theorem Placed.take {shift : Nat} {all : List (BitVec 32)} {idx : Index} {dst : List (BitVec 32)} (P : Placed shift all all idx dst) :
    ∀ m, m ≤ 256 → dst.take (buckets shift all m).length = buckets shift all m
  | 0, _ => by simp [buckets]
  | m + 1, h => by
    have ih := P.take m (by omega)
    have hlen : (buckets shift all (m + 1)).length ≤ dst.length := by
      rw [P.len]
      by_cases e : m + 1 = 256
      · rw [e]
        exact Nat.le_refl _
      · have := buckets_mono shift all (show m + 1 < 256 by omega)
        omega
    rw [buckets_succ, List.length_append] at hlen
    rw [buckets_succ, List.length_append]
    rw [List.take_add, ih]
    congr 1
    apply List.ext_getElem?
    intro k
    by_cases hk : k < (bucket shift all m).length
    · rw [List.getElem?_take_of_lt hk, List.getElem?_drop]
      exact P.at_ m (by omega) k hk
    · rw [List.getElem?_eq_none (by rw [List.length_take]; omega), List.getElem?_eq_none (by omega)]

theorem count_buckets (shift : Nat) (l : List (BitVec 32)) (a : BitVec 32) : ∀ m, (buckets shift l m).count a = if digit shift a < m then l.count a else 0
  | 0 => by simp [buckets]
  | m + 1 => by
    rw [buckets_succ, List.count_append, count_buckets shift l a m]
    by_cases h : digit shift a = m
    · have : (bucket shift l m).count a = l.count a := List.count_filter (by simp [h])
      rw [this, if_neg (by omega), if_pos (by omega)]
      omega
    · have : (bucket shift l m).count a = 0 := by
        rw [List.count_eq_zero]
        intro hm
        have := (List.mem_filter.mp hm).2
        simp only [decide_eq_true_eq] at this
        exact h this
      rw [this]
      by_cases h2 : digit shift a < m
      · rw [if_pos h2, if_pos (by omega)]
        rfl
      · rw [if_neg h2, if_neg (by omega)]

theorem buckets_perm (shift : Nat) (l : List (BitVec 32)) : (buckets shift l 256).Perm l := by
  rw [List.perm_iff_count]
  intro a
  rw [count_buckets, if_pos (digit_lt shift a)]

/-- A pass distributes the elements by digit and keeps the order within a digit. -/
theorem pass_ok (src dst : List (BitVec 32)) (shift : Nat) (h : dst.length = src.length) : pass src dst shift = .ok (buckets shift src 256) := by
  unfold pass
  have h0 : Placed shift src [] (prefixLoop 256 0 0 (countLoop shift src (fun _ => 0))) dst := by
    refine ⟨by rw [h, (buckets_perm shift src).length_eq], ?_, ?_⟩
    · intro b hb
      have := prefix_ok shift src 256 0 (countLoop shift src (fun _ => 0)) (fun j _ => by rw [count_ok]; omega) b
      rw [if_pos (by omega)] at this
      exact this
    · intro b hb k hk
      exact absurd hk (by simp [bucket])
  obtain ⟨dst', e, idx', P⟩ := move_ok shift src src [] _ _ rfl h0
  rw [e]
  refine congrArg Except.ok ?_
  have := P.take 256 (Nat.le_refl _)
  rw [← P.len, List.take_length] at this
  exact this

/-! ### four passes sort -/

/-- The value of the low `8 * k` bits. -/
def low (k : Nat) (x : BitVec 32) : Nat := x.toNat % 2 ^ (8 * k)

theorem digit_eq (k : Nat) (x : BitVec 32) : digit (k * 8) x = x.toNat / 2 ^ (8 * k) % 256 := by
  unfold digit
  rw [BitVec.toNat_and, BitVec.toNat_ushiftRight, Nat.shiftRight_eq_div_pow, Nat.mul_comm k 8]
  have e : (0xff#32).toNat = 2 ^ 8 - 1 := rfl
  rw [e, Nat.and_two_pow_sub_one_eq_mod]

theorem low_succ (k : Nat) (x : BitVec 32) : low (k + 1) x = low k x + 2 ^ (8 * k) * digit (k * 8) x := by
  rw [digit_eq]
  unfold low
  rw [Nat.mul_add, Nat.pow_add, Nat.mod_mul]

theorem low_lt (k : Nat) (x : BitVec 32) : low k x < 2 ^ (8 * k) := Nat.mod_lt _ (Nat.two_pow_pos _)

/-- If the low digits are sorted, then after a pass over the next digit one digit more is. -/
theorem sorted_buckets (k : Nat) (l : List (BitVec 32)) (h : l.Pairwise (fun x y => low k x ≤ low k y)) :
    ∀ m, (buckets (k * 8) l m).Pairwise (fun x y => low (k + 1) x ≤ low (k + 1) y) ∧ ∀ x ∈ buckets (k * 8) l m, digit (k * 8) x < m
  | 0 => by simp [buckets]
  | m + 1 => by
    obtain ⟨h1, h2⟩ := sorted_buckets k l h m
    have hb : ∀ x ∈ bucket (k * 8) l m, digit (k * 8) x = m := by
      intro x hx
      have := (List.mem_filter.mp hx).2
      simpa using this
    rw [buckets_succ]
    refine ⟨List.pairwise_append.mpr ⟨h1, ?_, ?_⟩, ?_⟩
    · refine List.Pairwise.imp_of_mem ?_ (h.filter _)
      intro x y hx hy hxy
      rw [low_succ, low_succ, hb x hx, hb y hy]
      omega
    · intro x hx y hy
      rw [low_succ, low_succ, hb y hy]
      have h3 := h2 x hx
      have h4 := low_lt k x
      have h5 : 2 ^ (8 * k) * (digit (k * 8) x + 1) ≤ 2 ^ (8 * k) * m := Nat.mul_le_mul_left _ h3
      rw [Nat.mul_add] at h5
      omega
    · intro x hx
      rcases List.mem_append.mp hx with hx | hx
      · have := h2 x hx; omega
      · have := hb x hx; omega

theorem low_four (x : BitVec 32) : low 4 x = x.toNat := Nat.mod_eq_of_lt x.isLt

/-- **C31**: the radix sort leaves the sorted permutation of the input in the input buffer; it writes only inside the two buffers. -/
theorem C31_radix_sort (a temp : List (BitVec 32)) (h : temp.length = a.length) :
    ∃ a' temp', radixSort a temp = .ok (a', temp') ∧ a'.Perm a ∧ a'.Pairwise (fun x y => x.toNat ≤ y.toNat) := by
  have p1 := buckets_perm (0 * 8) a
  have s1 := (sorted_buckets 0 a (List.pairwise_of_forall (fun x y => by simp [low, Nat.mod_one])) 256).1
  generalize hb1 : buckets (0 * 8) a 256 = b1 at p1 s1
  have p2 := buckets_perm (1 * 8) b1
  have s2 := (sorted_buckets 1 b1 s1 256).1
  generalize hb2 : buckets (1 * 8) b1 256 = b2 at p2 s2
  have p3 := buckets_perm (2 * 8) b2
  have s3 := (sorted_buckets 2 b2 s2 256).1
  generalize hb3 : buckets (2 * 8) b2 256 = b3 at p3 s3
  have p4 := buckets_perm (3 * 8) b3
  have s4 := (sorted_buckets 3 b3 s3 256).1
  generalize hb4 : buckets (3 * 8) b3 256 = b4 at p4 s4
  have l1 := p1.length_eq
  have l2 := p2.length_eq
  have l3 := p3.length_eq
  refine ⟨b4, b3, ?_, p4.trans (p3.trans (p2.trans p1)), ?_⟩
  · unfold radixSort
    rw [pass_ok a temp _ h]
    simp only [R.ok_bind]
    rw [hb1, pass_ok b1 a _ (by omega)]
    simp only [R.ok_bind]
    rw [hb2, pass_ok b2 b1 _ (by omega)]
    simp only [R.ok_bind]
    rw [hb3, pass_ok b3 b2 _ (by omega)]
    simp only [R.ok_bind]
    rw [hb4]
  · refine s4.imp ?_
    intro x y hxy
    rw [low_four, low_four] at hxy
    exact hxy

/-- The result is determined by that: it is the sorted input, whatever was in the temporary buffer. -/
theorem C31_unique (a t1 t2 : List (BitVec 32)) (h1 : t1.length = a.length) (h2 : t2.length = a.length) :
    ∃ a' t1' t2', radixSort a t1 = .ok (a', t1') ∧ radixSort a t2 = .ok (a', t2') := by
  obtain ⟨a1, t1', e1, p1, s1⟩ := C31_radix_sort a t1 h1
  obtain ⟨a2, t2', e2, p2, s2⟩ := C31_radix_sort a t2 h2
  have : a1 = a2 := by
    refine List.Perm.eq_of_pairwise ?_ s1 s2 (p1.trans p2.symm)
    intro x y _ _ h h'
    exact BitVec.eq_of_toNat_eq (Nat.le_antisymm h h')
  subst this
  exact ⟨a1, t1', t2', e1, e2⟩

example : radixSort [0x01020304#32, 0xffffffff#32, 7#32, 0x01020303#32, 7#32, 0x10000#32] [0, 0, 0, 0, 0, 0] =
    .ok ([7#32, 7#32, 0x10000#32, 0x01020303#32, 0x01020304#32, 0xffffffff#32], [7#32, 7#32, 0x10000#32, 0x01020303#32, 0x01020304#32, 0xffffffff#32]) := by
  decide +kernel

/-- A temporary buffer that is too small is overrun. -/
example : radixSort [2#32, 1#32] [0] = .error .ub := by decide +kernel

end Verif.Radix
