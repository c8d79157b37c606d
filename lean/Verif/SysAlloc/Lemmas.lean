import Verif.SysAlloc.Spec
import Verif.Alloc.Lemmas

/-! The invariant of a program that uses the system allocator. -/
namespace Verif.SysAlloc
open Verif.Bits Verif.Alloc Spec

theorem has_iff {h : Heap} {a n : Nat} : h.has a n = true ↔ ∃ b ∈ h.blocks, b.addr ≤ a ∧ a + n ≤ b.addr + b.size := by
  simp [Heap.has, List.any_eq_true]

/-- Blocks without common bytes and with different addresses. -/
def Apart (b c : Blk) : Prop := b.addr + max b.size 1 ≤ c.addr ∨ c.addr + max c.size 1 ≤ b.addr

theorem Apart.symm {b c : Blk} (h : Apart b c) : Apart c b := Or.symm h

/-- The blocks of the C library. -/
structure Blocks (h : Heap) : Prop where
  range : ∀ b ∈ h.blocks, 0 < b.addr ∧ b.addr + b.size < 2 ^ 64
  apart : h.blocks.Pairwise Apart

theorem Blocks.ne {h : Heap} (H : Blocks h) {b c : Blk} (hb : b ∈ h.blocks) (hc : c ∈ h.blocks) (e : b ≠ c) : Apart b c := by
  have := H.apart
  revert hb hc
  generalize h.blocks = l at this
  clear H
  induction l with
  | nil => intro hb; cases hb
  | cons x l ih =>
    intro hb hc
    rw [List.pairwise_cons] at this
    rcases List.mem_cons.mp hb with h1 | h1 <;> rcases List.mem_cons.mp hc with h2 | h2
    · exact absurd (h1.trans h2.symm) e
    · subst h1; exact this.1 c h2
    · subst h2; exact (this.1 b h1).symm
    · exact ih this.2 h1 h2

theorem Blocks.addr_ne {h : Heap} (H : Blocks h) {b c : Blk} (hb : b ∈ h.blocks) (hc : c ∈ h.blocks) (e : b ≠ c) : b.addr ≠ c.addr := by
  have := H.ne hb hc e
  unfold Apart at this
  omega

/-- Buffer `b` at address `a` in block `k`. -/
structure Owned (p : Plat) (h : Heap) (b : Buf) (a : Nat) (k : Blk) : Prop where
  mem : k ∈ h.blocks
  lo : k.addr ≤ a
  hi : a + b.bytes.length ≤ k.addr + k.size
  linux : p = .linux → k.addr = a
  portable : p = .portable → k.addr + 16 ≤ a ∧ (Alloc.read64 h.mem (a - 8)).toNat = k.addr ∧
    (Alloc.read64 h.mem (a - 16)).toNat = b.bytes.length ∧ k.addr + max k.size 1 > a
  align : b.align ∣ a ∧ 8 ∣ a ∧ (16 ≤ b.bytes.length → 16 ∣ a)
  content : ∀ (off : Nat) (v : BitVec 8), b.bytes[off]? = some (some v) → h.mem (a + off) = v

/-- Changes outside of the block do not matter. -/
theorem Owned.frame {p : Plat} {h h' : Heap} {b : Buf} {a : Nat} {k : Blk} (o : Owned p h b a k) (hk : k ∈ h'.blocks)
    (hm : ∀ x, k.addr ≤ x → x < k.addr + k.size → h'.mem x = h.mem x) : Owned p h' b a k where
  mem := hk
  lo := o.lo
  hi := o.hi
  linux := o.linux
  portable := by
    intro hp
    obtain ⟨h1, h2, h3, h4⟩ := o.portable hp
    have := o.hi
    refine ⟨h1, ?_, ?_, h4⟩
    · rw [← h2, Alloc.read64_congr (m := h'.mem) (m' := h.mem) (fun x h5 h6 => hm x (by omega) (by omega))]
    · rw [← h3, Alloc.read64_congr (m := h'.mem) (m' := h.mem) (fun x h5 h6 => hm x (by omega) (by omega))]
  align := o.align
  content := by
    intro off v hv
    have hl : off < b.bytes.length := (List.getElem?_eq_some_iff.mp hv).1
    have := o.hi
    have := o.lo
    rw [hm _ (by omega) (by omega)]
    exact o.content off v hv

/-- The invariant, for any set of variables. -/
structure Inv {ι : Type} (p : Plat) (h : Heap) (vars : ι → Option Nat) (s : ι → Option Buf) (k : ι → Blk) : Prop where
  blocks : Blocks h
  null : ∀ i, s i = none → vars i = none
  live : ∀ i b, s i = some b → ∃ a, vars i = some a ∧ Owned p h b a (k i)
  inj : ∀ i j b c, s i = some b → s j = some c → i ≠ j → k i ≠ k j
  all : ∀ b ∈ h.blocks, ∃ i c, s i = some c ∧ k i = b

variable {ι κ : Type} {p : Plat} {h h' : Heap} {vars : ι → Option Nat} {s : ι → Option Buf} {k : ι → Blk}

/-- Other names for the variables. -/
theorem Inv.comp (I : Inv p h vars s k) (f : κ → ι) (hi : ∀ x y, f x = f y → x = y) (hc : ∀ x, s x ≠ none → ∃ y, f y = x) :
    Inv p h (fun x => vars (f x)) (fun x => s (f x)) (fun x => k (f x)) where
  blocks := I.blocks
  null := fun i hi => I.null _ hi
  live := fun i b hb => I.live _ b hb
  inj := fun i j b c h1 h2 h3 => I.inj _ _ b c h1 h2 (fun e => h3 (hi _ _ e))
  all := by
    intro b hb
    obtain ⟨i, c, h1, h2⟩ := I.all b hb
    obtain ⟨y, rfl⟩ := hc i (by rw [h1]; simp)
    exact ⟨y, c, h1, h2⟩

/-- One more variable, null. -/
theorem Inv.extend (I : Inv p h vars s k) :
    Inv p h (fun x : Option ι => x.bind vars) (fun x : Option ι => x.bind s) (fun x : Option ι => x.elim ⟨0, 0⟩ k) where
  blocks := I.blocks
  null := fun i hi => by
    cases i with
    | none => rfl
    | some i => exact I.null i hi
  live := fun i b hb => by
    cases i with
    | none => cases hb
    | some i => exact I.live i b hb
  inj := fun i j b c h1 h2 h3 => by
    cases i with
    | none => cases h1
    | some i =>
      cases j with
      | none => cases h2
      | some j => exact I.inj i j b c h1 h2 (fun e => h3 (by rw [e]))
  all := by
    intro b hb
    obtain ⟨i, c, h1, h2⟩ := I.all b hb
    exact ⟨some i, c, h1, h2⟩

variable [DecidableEq ι]

/-- Replace the value for one variable. -/
def put {β : Type} (f : ι → β) (i : ι) (x : β) : ι → β := fun j => if j = i then x else f j

omit [DecidableEq ι] in
/-- Memory is changed inside of one buffer's block only. -/
theorem Inv.change (I : Inv p h vars s k) {i : ι} {b : Buf} {a : Nat} (hb : s i = some b) (hv : vars i = some a)
    (hbl : h'.blocks = h.blocks) (hm : ∀ x, (x < (k i).addr ∨ (k i).addr + (k i).size ≤ x) → h'.mem x = h.mem x) {s' : ι → Option Buf}
    (hs : ∀ j, j ≠ i → s' j = s j) {b' : Buf} (hi : s' i = some b') (o : Owned p h' b' a (k i)) : Inv p h' vars s' k where
  blocks := ⟨by rw [hbl]; exact I.blocks.range, by rw [hbl]; exact I.blocks.apart⟩
  null := fun j hj => by
    have : j ≠ i := by rintro rfl; rw [hi] at hj; cases hj
    rw [hs j this] at hj
    exact I.null j hj
  live := fun j c hc => by
    by_cases e : j = i
    · subst e
      rw [hi] at hc
      cases hc
      exact ⟨a, hv, o⟩
    · rw [hs j e] at hc
      obtain ⟨d, h1, h2⟩ := I.live j c hc
      refine ⟨d, h1, h2.frame (by rw [hbl]; exact h2.mem) ?_⟩
      obtain ⟨a', ha', o'⟩ := I.live i b hb
      have := I.blocks.ne h2.mem o'.mem (I.inj j i c b hc hb e)
      intro x h3 h4
      apply hm
      unfold Apart at this
      omega
  inj := by
    intro x y c d h1 h2 h3
    have key : ∀ z e, s' z = some e → ∃ e', s z = some e' := by
      intro z e hz
      by_cases ez : z = i
      · exact ⟨b, by rw [ez]; exact hb⟩
      · exact ⟨e, by rw [← hs z ez]; exact hz⟩
    obtain ⟨c', hc'⟩ := key x c h1
    obtain ⟨d', hd'⟩ := key y d h2
    exact I.inj x y c' d' hc' hd' h3
  all := by
    intro c hc
    rw [hbl] at hc
    obtain ⟨j, d, h1, h2⟩ := I.all c hc
    by_cases e : j = i
    · exact ⟨i, b', hi, by rw [← e]; exact h2⟩
    · exact ⟨j, d, by rw [hs j e]; exact h1, h2⟩

/-- A new buffer. -/
theorem Inv.add (I : Inv p h vars s k) {i : ι} (hi : s i = none) {b : Buf} {a : Nat} {c : Blk} (hf : Fresh h c.addr c.size)
    (hbl : h'.blocks = c :: h.blocks) (hm : ∀ x, (x < c.addr ∨ c.addr + c.size ≤ x) → h'.mem x = h.mem x) (o : Owned p h' b a c) :
    Inv p h' (put vars i (some a)) (put s i (some b)) (put k i c) where
  blocks := by
    constructor
    · intro x hx
      rw [hbl] at hx
      rcases List.mem_cons.mp hx with hx | hx
      · subst hx; exact ⟨hf.1, hf.2.1⟩
      · exact I.blocks.range x hx
    · rw [hbl, List.pairwise_cons]
      exact ⟨fun x hx => hf.2.2 x hx, I.blocks.apart⟩
  null := by
    intro j hj
    unfold put at hj ⊢
    by_cases e : j = i
    · rw [if_pos e] at hj; cases hj
    · rw [if_neg e] at hj ⊢; exact I.null j hj
  live := by
    intro j d hj
    unfold put at hj ⊢
    by_cases e : j = i
    · rw [if_pos e] at hj; cases hj
      exact ⟨a, if_pos e, by rw [if_pos e]; exact o⟩
    · rw [if_neg e] at hj
      obtain ⟨q, h1, h2⟩ := I.live j d hj
      refine ⟨q, by rw [if_neg e]; exact h1, ?_⟩
      rw [if_neg e]
      refine h2.frame (by rw [hbl]; exact List.mem_cons_of_mem _ h2.mem) ?_
      intro x h3 h4
      apply hm
      have := hf.2.2 _ h2.mem
      omega
  inj := by
    intro x y d e h1 h2 h3
    unfold put at h1 h2 ⊢
    have key : ∀ z d, s z = some d → k z ≠ c := by
      intro z d hz e
      obtain ⟨q, -, h5⟩ := I.live z d hz
      have := hf.2.2 _ h5.mem
      rw [e] at this
      omega
    by_cases ex : x = i
    · by_cases ey : y = i
      · exact absurd (ex.trans ey.symm) h3
      · rw [if_neg ey] at h2 ⊢; rw [if_pos ex]
        exact (key y e h2).symm
    · rw [if_neg ex] at h1 ⊢
      by_cases ey : y = i
      · rw [if_pos ey]; exact key x d h1
      · rw [if_neg ey] at h2 ⊢; exact I.inj x y d e h1 h2 h3
  all := by
    intro x hx
    rw [hbl] at hx
    unfold put
    rcases List.mem_cons.mp hx with hx | hx
    · exact ⟨i, b, by simp, by simp [hx]⟩
    · obtain ⟨j, d, h1, h2⟩ := I.all x hx
      have e : j ≠ i := by rintro rfl; rw [hi] at h1; cases h1
      exact ⟨j, d, by simp [e, h1], by simp [e, h2]⟩

/-- A buffer is given back. -/
theorem Inv.del (I : Inv p h vars s k) {i : ι} {b : Buf} (hb : s i = some b)
    (hbl : h' = { h with blocks := h.blocks.filter fun c => decide (c.addr ≠ (k i).addr) }) :
    Inv p h' (put vars i none) (put s i none) k := by
  obtain ⟨a, hv, o⟩ := I.live i b hb
  subst hbl
  refine ⟨⟨?_, ?_⟩, ?_, ?_, ?_, ?_⟩
  · intro x hx
    exact I.blocks.range x (List.mem_filter.mp hx).1
  · exact I.blocks.apart.sublist List.filter_sublist
  · intro j hj
    unfold put at hj ⊢
    by_cases e : j = i
    · rw [if_pos e]
    · rw [if_neg e] at hj ⊢; exact I.null j hj
  · intro j d hj
    unfold put at hj ⊢
    by_cases e : j = i
    · rw [if_pos e] at hj; cases hj
    · rw [if_neg e] at hj ⊢
      obtain ⟨q, h1, h2⟩ := I.live j d hj
      refine ⟨q, h1, h2.frame ?_ (fun _ _ _ => rfl)⟩
      rw [List.mem_filter]
      exact ⟨h2.mem, by simpa using I.blocks.addr_ne h2.mem o.mem (I.inj j i d b hj hb e)⟩
  · intro x y d e h1 h2 h3
    unfold put at h1 h2
    by_cases ex : x = i
    · rw [if_pos ex] at h1; cases h1
    · by_cases ey : y = i
      · rw [if_pos ey] at h2; cases h2
      · rw [if_neg ex] at h1; rw [if_neg ey] at h2
        exact I.inj x y d e h1 h2 h3
  · intro x hx
    rw [List.mem_filter] at hx
    obtain ⟨hx, hne⟩ := hx
    obtain ⟨j, d, h1, h2⟩ := I.all x hx
    have e : j ≠ i := by
      rintro rfl
      rw [h2] at hne
      simp at hne
    exact ⟨j, d, by simp [put, e, h1], h2⟩

/-! ### the allocator's functions -/

theorem atLeast_ge (al n : BitVec 64) : 8 ≤ (atLeast al n).toNat ∧ (16 ≤ n.toNat → 16 ≤ (atLeast al n).toNat) ∧ al.toNat ≤ (atLeast al n).toNat := by
  unfold atLeast
  by_cases hn : n ≥ 16#64
  · have hn' : 16 ≤ n.toNat := by simpa [BitVec.le_def] using hn
    rw [if_pos hn]
    by_cases ha : al < 16#64
    · rw [if_pos ha]
      have : al.toNat < 16 := by simpa [BitVec.lt_def] using ha
      simp; omega
    · rw [if_neg ha]
      have : ¬ al.toNat < 16 := by simpa [BitVec.lt_def] using ha
      omega
  · have hn' : ¬ 16 ≤ n.toNat := by simpa [BitVec.le_def] using hn
    rw [if_neg hn]
    by_cases ha : al < 8#64
    · rw [if_pos ha]
      have : al.toNat < 8 := by simpa [BitVec.lt_def] using ha
      simp; omega
    · rw [if_neg ha]
      have : ¬ al.toNat < 8 := by simpa [BitVec.lt_def] using ha
      omega

theorem atLeast_pow2 {al : BitVec 64} (n : BitVec 64) (ha : IsPowerOfTwo al.toNat) : IsPowerOfTwo (atLeast al n).toNat := by
  unfold atLeast
  by_cases hn : n ≥ 16#64
  · rw [if_pos hn]
    split
    · exact ⟨4, rfl⟩
    · exact ha
  · rw [if_neg hn]
    split
    · exact ⟨3, rfl⟩
    · exact ha

theorem atLeast_le (al n : BitVec 64) : (atLeast al n).toNat ≤ max al.toNat 16 := by
  unfold atLeast
  by_cases hn : n ≥ 16#64
  · rw [if_pos hn]
    split
    · simp; omega
    · omega
  · rw [if_neg hn]
    split
    · simp; omega
    · omega

theorem atLeast_idem (al n : BitVec 64) : atLeast (atLeast al n) n = atLeast al n := by
  have h := atLeast_ge al n
  generalize atLeast al n = x at h
  unfold atLeast
  by_cases hn : n ≥ 16#64
  · rw [if_pos hn, if_neg]
    have hn' : 16 ≤ n.toNat := by simpa [BitVec.le_def] using hn
    rw [BitVec.lt_def]
    have := h.2.1 hn'
    simp; omega
  · rw [if_neg hn, if_neg]
    rw [BitVec.lt_def]
    have := h.1
    simp; omega

theorem pow2_dvd {a b : Nat} (ha : IsPowerOfTwo a) (hb : IsPowerOfTwo b) (h : a ≤ b) : a ∣ b := by
  obtain ⟨i, rfl⟩ := ha
  obtain ⟨j, rfl⟩ := hb
  exact Nat.pow_dvd_pow 2 ((Nat.pow_le_pow_iff_right (by decide)).mp h)

theorem atLeast_dvd {al n : BitVec 64} (ha : IsPowerOfTwo al.toNat) {a : Nat} (hd : (atLeast al n).toNat ∣ a) :
    al.toNat ∣ a ∧ 8 ∣ a ∧ (16 ≤ n.toNat → 16 ∣ a) := by
  have h := atLeast_ge al n
  have hp := atLeast_pow2 n ha
  refine ⟨Nat.dvd_trans (pow2_dvd ha hp h.2.2) hd, Nat.dvd_trans (pow2_dvd ⟨3, rfl⟩ hp h.1) hd, fun hn => ?_⟩
  exact Nat.dvd_trans (pow2_dvd ⟨4, rfl⟩ hp (h.2.1 hn)) hd

theorem length_fresh (n : Nat) : (fresh n).length = n := by simp [fresh]

theorem fresh_get {n off : Nat} {v : BitVec 8} : (fresh n)[off]? ≠ some (some v) := by
  simp [fresh, List.getElem?_replicate]

theorem sysMalloc_ok {L : CLib} (hL : CLib.Good L) (H : Blocks h) {n al : BitVec 64} (ha : IsPowerOfTwo al.toNat)
    (hsm : p = .portable → n.toNat ≤ 2 ^ 62 ∧ al.toNat ≤ 2 ^ 62) :
    sysMalloc L p h n al = .ok (h, none) ∨
    ∃ h' a c, sysMalloc L p h n al = .ok (h', some a) ∧ Fresh h c.addr c.size ∧ h'.blocks = c :: h.blocks ∧
      (∀ x, (x < c.addr ∨ c.addr + c.size ≤ x) → h'.mem x = h.mem x) ∧ Owned p h' ⟨al.toNat, fresh n.toNat⟩ a c := by
  have hp2 := atLeast_pow2 n ha
  have hle := atLeast_le al n
  have hge := atLeast_ge al n
  have hdv := fun {a : Nat} => atLeast_dvd (al := al) (n := n) ha (a := a)
  unfold sysMalloc
  generalize atLeast al n = x at hp2 hle hge hdv ⊢
  cases p with
  | linux =>
    dsimp only
    cases e : L.alignedAlloc h x.toNat n.toNat with
    | none => exact Or.inl rfl
    | some q =>
      obtain ⟨a, u⟩ := q
      obtain ⟨h1, h2, h3⟩ := hL.alignedAlloc h x.toNat n.toNat a u hp2 e
      refine Or.inr ⟨h.add a u, a, ⟨a, u⟩, rfl, h1, rfl, fun _ _ => rfl, ?_⟩
      refine ⟨by simp [Heap.add], Nat.le_refl _, ?_, fun _ => rfl, by simp, ?_, ?_⟩
      · simpa [length_fresh] using h2
      · simpa [length_fresh] using hdv h3
      · intro off v hv; exact absurd hv fresh_get
  | portable =>
    obtain ⟨hn, hal⟩ := hsm rfl
    have hx : x.toNat ≤ 2 ^ 62 := by omega
    have e1 : (n + x + 8#64 + 8#64).toNat = n.toNat + x.toNat + 16 := by
      simp only [BitVec.toNat_add, BitVec.toNat_ofNat]; omega
    dsimp only
    rw [e1]
    cases e : L.malloc h (n.toNat + x.toNat + 16) with
    | none => exact Or.inl rfl
    | some q =>
      obtain ⟨h1, h2⟩ := hL.malloc h _ q e
      obtain ⟨h3, h4, h5⟩ := h1
      refine Or.inr ?_
      dsimp only
      have eq : (BitVec.ofNat 64 q).toNat = q := by rw [BitVec.toNat_ofNat]; omega
      have e2 : (BitVec.ofNat 64 q + 8#64 + 8#64).toNat = q + 16 := by
        simp only [BitVec.toNat_add, BitVec.toNat_ofNat]; omega
      have e3 := toNat_alignUp (v := BitVec.ofNat 64 q + 8#64 + 8#64) hp2 (by rw [e2]; omega)
      rw [e2] at e3
      have g1 := alignUpN_ge (q + 16) x.toNat (pow2_pos hp2)
      have g2 := alignUpN_le (q + 16) x.toNat
      have g3 := alignUpN_dvd (q + 16) x.toNat
      rw [← e3] at g1 g2 g3
      generalize alignUp (BitVec.ofNat 64 q + 8#64 + 8#64) x = r at g1 g2 g3 ⊢
      have hr8 : 8 ∣ r.toNat := (hdv g3).2.1
      have s1 : (r - 8#64).toNat = r.toNat - 8 := by
        rw [BitVec.toNat_sub_of_le (by rw [BitVec.le_def]; simp; omega)]; rfl
      have s2 : (r - 8#64 - 8#64).toNat = r.toNat - 16 := by
        rw [BitVec.toNat_sub_of_le (by rw [BitVec.le_def, s1]; simp; omega), s1]; simp; omega
      rw [s1, s2]
      have w1 : (h.add q (n.toNat + x.toNat + 16)).has (r.toNat - 8) 8 = true := by
        rw [has_iff]; exact ⟨_, by simp [Heap.add]; exact Or.inl rfl, by dsimp only; omega, by dsimp only; omega⟩
      unfold Heap.write64
      rw [if_pos w1]
      simp only [R.ok_bind]
      rw [if_pos (by
        rw [has_iff]; exact ⟨⟨q, n.toNat + x.toNat + 16⟩, by simp [Heap.add], by dsimp only; omega, by dsimp only; omega⟩)]
      simp only [R.ok_bind]
      refine ⟨_, r.toNat, ⟨q, n.toNat + x.toNat + 16⟩, rfl, ⟨h3, h4, h5⟩, rfl, ?_, ?_⟩
      · intro y hy
        dsimp only at hy ⊢
        rw [Alloc.write64_out (by omega), Alloc.write64_out (by omega)]
        rfl
      · refine ⟨by simp [Heap.add], by dsimp only; omega, ?_, by simp, ?_, ?_, ?_⟩
        · dsimp only; rw [length_fresh]; omega
        · intro _
          refine ⟨by dsimp only; omega, ?_, ?_, by dsimp only; omega⟩
          · rw [Alloc.read64_congr (m' := Alloc.write64 h.mem (r.toNat - 8) (BitVec.ofNat 64 q)) (fun y y1 y2 => by
              exact Alloc.write64_out (by omega)), Alloc.read64_write, eq]
          · rw [Alloc.read64_write, length_fresh]
        · simpa [length_fresh] using hdv g3
        · intro off v hv; exact absurd hv fresh_get

omit [DecidableEq ι] in
theorem sysMsize_ok {b : Buf} {a : Nat} {c : Blk} (H : Blocks h) (o : Owned p h b a c) :
    ∃ n, sysMsize p h (some a) = .ok n ∧ b.bytes.length ≤ n ∧ (p = .portable → n = b.bytes.length) ∧ a + n ≤ c.addr + c.size := by
  cases p with
  | linux =>
    have hl := o.linux rfl
    have hi := o.hi
    unfold sysMsize usable
    have hf : h.blocks.find? (fun b => decide (b.addr = a)) = some c := by
      rw [List.find?_eq_some_iff_append]
      obtain ⟨l1, l2, hl12⟩ := List.append_of_mem o.mem
      refine ⟨by simpa using hl, l1, l2, hl12, ?_⟩
      intro d hd
      have hne := H.apart
      rw [hl12, List.pairwise_append] at hne
      have := hne.2.2 d hd c (by simp)
      unfold Apart at this
      simp; omega
    dsimp only
    rw [hf]
    exact ⟨c.size, rfl, by omega, by simp, by omega⟩
  | portable =>
    obtain ⟨h1, h2, h3, h4⟩ := o.portable rfl
    have hi := o.hi
    have hlo := o.lo
    unfold sysMsize Heap.read64
    dsimp only
    rw [if_pos (has_iff.mpr ⟨c, o.mem, by omega, by omega⟩)]
    refine ⟨_, rfl, ?_, fun _ => ?_, ?_⟩
    · rw [show a - 8 - 8 = a - 16 by omega, h3]; exact Nat.le_refl _
    · rw [show a - 8 - 8 = a - 16 by omega, h3]
    · rw [show a - 8 - 8 = a - 16 by omega, h3]; exact hi

omit [DecidableEq ι] in
theorem sysFree_ok {b : Buf} {a : Nat} {c : Blk} (o : Owned p h b a c) :
    sysFree p h (some a) = .ok { h with blocks := h.blocks.filter fun d => decide (d.addr ≠ c.addr) } := by
  have hrel : h.release c.addr = .ok { h with blocks := h.blocks.filter fun d => decide (d.addr ≠ c.addr) } := by
    unfold Heap.release
    rw [if_pos (by rw [List.any_eq_true]; exact ⟨c, o.mem, by simp⟩)]
  cases p with
  | linux =>
    have hl := o.linux rfl
    unfold sysFree
    dsimp only
    rw [← hl]; exact hrel
  | portable =>
    obtain ⟨h1, h2, h3, h4⟩ := o.portable rfl
    have hi := o.hi
    unfold sysFree Heap.read64
    dsimp only
    rw [if_pos (has_iff.mpr ⟨c, o.mem, by omega, by omega⟩)]
    simp only [R.ok_bind]
    rw [h2]; exact hrel

end Verif.SysAlloc
