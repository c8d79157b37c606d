import Verif.SysAlloc.Lemmas

/-! `system_realloc` keeps the invariant. -/
namespace Verif.SysAlloc
open Verif.Bits Verif.Alloc Spec

theorem put_same {ι β : Type} [DecidableEq ι] (f : ι → β) (i : ι) (x : β) : put f i x i = x := by simp [put]
theorem put_ne {ι β : Type} [DecidableEq ι] (f : ι → β) {i j : ι} (x : β) (h : j ≠ i) : put f i x j = f j := by simp [put, h]

/-- The content after a change of size. -/
def kept (b : Buf) (n al : Nat) : Buf := ⟨al, b.bytes.take n ++ fresh (n - b.bytes.length)⟩

theorem length_kept (b : Buf) (n al : Nat) : (kept b n al).bytes.length = n := by
  simp [kept, fresh]; omega

theorem kept_get {b : Buf} {n al off : Nat} {v : BitVec 8} (h : (kept b n al).bytes[off]? = some (some v)) :
    off < n ∧ off < b.bytes.length ∧ b.bytes[off]? = some (some v) := by
  have hl : off < n := by
    have := (List.getElem?_eq_some_iff.mp h).1
    rwa [length_kept] at this
  unfold kept at h
  dsimp only at h
  by_cases ho : off < b.bytes.length
  · rw [List.getElem?_append_left (by simp; omega), List.getElem?_take_of_lt hl] at h
    exact ⟨hl, ho, h⟩
  · rw [List.getElem?_append_right (by simp; omega)] at h
    exact absurd h fresh_get

/-- The copy: buffer `b` at `a` in block `c`, the new one at `r` in block `d`. -/
theorem moveOver_ok {p : Plat} {h : Heap} (H : Blocks h) {b : Buf} {n al : BitVec 64} {a r : Nat} {c d : Blk} (o : Owned p h b a c)
    (q : Owned p h ⟨al.toNat, fresh n.toNat⟩ r d) (hcd : c ≠ d) :
    ∃ h', sysMoveOver p h (some r) (some a) n = .ok h' ∧ h'.blocks = h.blocks ∧
      (∀ x, (x < d.addr ∨ d.addr + d.size ≤ x) → h'.mem x = h.mem x) ∧ Owned p h' (kept b n.toNat al.toNat) r d := by
  obtain ⟨old, e, h1, -, h2⟩ := sysMsize_ok H o
  have hap := H.ne o.mem q.mem hcd
  unfold Apart at hap
  have q1 := q.hi
  have q2 := q.lo
  have o2 := o.lo
  simp only [length_fresh] at q1
  unfold sysMoveOver
  simp only [e, R.ok_bind]
  have hm : (if old < n.toNat then old else n.toNat) ≤ old ∧ (if old < n.toNat then old else n.toNat) ≤ n.toNat ∧
      ((if old < n.toNat then old else n.toNat) = old ∨ (if old < n.toNat then old else n.toNat) = n.toNat) := by
    split <;> omega
  generalize (if old < n.toNat then old else n.toNat) = m at hm ⊢
  unfold Heap.copy
  rw [if_pos ⟨has_iff.mpr ⟨d, q.mem, by omega, by omega⟩, has_iff.mpr ⟨c, o.mem, by omega, by omega⟩, by omega⟩]
  refine ⟨_, rfl, rfl, ?_, ?_⟩
  · intro x hx
    exact Alloc.copy_out (by omega)
  · have out : ∀ x, x < r → Alloc.copy h.mem r a m x = h.mem x := fun x hx => Alloc.copy_out (by omega)
    refine ⟨q.mem, q.lo, ?_, q.linux, ?_, ?_, ?_⟩
    · rw [length_kept]; exact q1
    · intro hp
      obtain ⟨p1, p2, p3, p4⟩ := q.portable hp
      refine ⟨p1, ?_, ?_, p4⟩
      · rw [← p2, Alloc.read64_congr (m' := h.mem) (fun x x1 x2 => out x (by omega))]
      · rw [length_kept]
        simp only [length_fresh] at p3
        rw [← p3, Alloc.read64_congr (m' := h.mem) (fun x x1 x2 => out x (by omega))]
    · have := q.align
      simp only [length_fresh] at this
      rw [length_kept]
      exact this
    · intro off v hv
      obtain ⟨k1, k2, k3⟩ := kept_get hv
      have : off < m := by omega
      show Alloc.copy h.mem r a m (r + off) = v
      rw [Alloc.copy_in this]
      exact o.content off v k3

theorem sysMalloc_atLeast (L : CLib) (p : Plat) (h : Heap) (n al : BitVec 64) : sysMalloc L p h n (atLeast al n) = sysMalloc L p h n al := by
  unfold sysMalloc
  rw [atLeast_idem]

theorem bv_pos {n : BitVec 64} (h : n ≠ 0) : n > 0#64 := by
  have : n.toNat ≠ 0 := fun e => h (BitVec.eq_of_toNat_eq (by simpa using e))
  show (0#64).toNat < n.toNat
  simp; omega

theorem bv_ne {n : BitVec 64} (h : n ≠ 0) : n.toNat ≠ 0 := fun e => h (BitVec.eq_of_toNat_eq (by simpa using e))

variable {L : CLib} {p : Plat} {h : Heap} {vars : Nat → Option Nat} {s : Nat → Option Buf} {k : Nat → Blk}

/-- Size 0: the buffer is given back. -/
theorem sysRealloc_zero (I : Inv p h vars s k) (i : Nat) (al : BitVec 64) :
    ∃ h', sysRealloc L p h (vars i) 0 al = .ok (h', none) ∧ Inv p h' (put vars i none) (put s i none) k := by
  unfold sysRealloc
  rw [if_neg (by decide)]
  cases hb : s i with
  | none =>
    have hv := I.null i hb
    rw [hv]
    refine ⟨h, rfl, ?_⟩
    have e1 : put vars i none = vars := by
      funext j; unfold put; split
      · next e => rw [e, hv]
      · rfl
    have e2 : put s i none = s := by
      funext j; unfold put; split
      · next e => rw [e, hb]
      · rfl
    rw [e1, e2]; exact I
  | some b =>
    obtain ⟨a, hv, o⟩ := I.live i b hb
    rw [hv, sysFree_ok o]
    exact ⟨_, rfl, I.del hb rfl⟩

/-- Other sizes. -/
theorem sysRealloc_ok (hL : CLib.Good L) (I : Inv p h vars s k) (i : Nat) {n al : BitVec 64} (hn : n ≠ 0) (ha : IsPowerOfTwo al.toNat)
    (hsm : p = .portable → n.toNat ≤ 2 ^ 62 ∧ al.toNat ≤ 2 ^ 62) (hg : ¬ (vars i ≠ none ∧ n ≠ 0 ∧ Refused L p h n al)) :
    (s i = none ∧ Refused L p h n al ∧ sysRealloc L p h (vars i) n al = .ok (h, none)) ∨
    ∃ h' a k', sysRealloc L p h (vars i) n al = .ok (h', some a) ∧
      Inv p h' (put vars i (some a)) (put s i (step.resized (s i) n.toNat al.toNat)) k' := by
  unfold sysRealloc
  rw [if_pos (bv_pos hn), sysMalloc_atLeast]
  cases hb : s i with
  | none =>
    have hv := I.null i hb
    rw [hv]
    rcases sysMalloc_ok hL I.blocks ha hsm with e | ⟨h1, a, c, e, hf, hbl, hm, o⟩
    · rw [e]
      exact Or.inl ⟨rfl, ⟨h, e⟩, rfl⟩
    · rw [e]
      refine Or.inr ⟨h1, a, put k i c, rfl, ?_⟩
      have hr : step.resized none n.toNat al.toNat = some ⟨al.toNat, fresh n.toNat⟩ := by simp [step.resized, bv_ne hn]
      rw [hr]
      exact I.add hb hf hbl hm o
  | some b =>
    obtain ⟨a, hv, o⟩ := I.live i b hb
    rw [hv] at hg ⊢
    rcases sysMalloc_ok hL I.blocks ha hsm with e | ⟨h1, r, c, e, hf, hbl, hm, q⟩
    · exact absurd ⟨by simp, hn, ⟨h, e⟩⟩ hg
    · refine Or.inr ?_
      rw [e]
      have J := I.extend.add (i := none) rfl hf hbl hm q
      have hsi : put (fun x : Option Nat => x.bind s) none (some ⟨al.toNat, fresh n.toNat⟩) (some i) = some b := by
        rw [put_ne _ _ (by simp)]; exact hb
      have hvi : put (fun x : Option Nat => x.bind vars) none (some r) (some i) = some a := by
        rw [put_ne _ _ (by simp)]; exact hv
      obtain ⟨a', hv', o1⟩ := J.live (some i) b hsi
      obtain rfl : a = a' := by rw [hvi] at hv'; exact Option.some.inj hv'
      have hk : put (fun x : Option Nat => x.elim ⟨0, 0⟩ k) none c (some i) = k i := by rw [put_ne _ _ (by simp)]; rfl
      rw [hk] at o1
      have hne : k i ≠ c := by
        intro e
        have := hf.2.2 _ o.mem
        rw [e] at this
        omega
      obtain ⟨h2, e2, hbl2, hm2, q2⟩ := moveOver_ok (n := n) (al := al) J.blocks o1 q hne
      have hkn : put (fun x : Option Nat => x.elim ⟨0, 0⟩ k) none c none = c := put_same _ _ _
      have K := J.change (i := none) (h' := h2) (b := ⟨al.toNat, fresh n.toNat⟩) (a := r) (put_same _ _ _) (put_same _ _ _) hbl2
        (by rw [hkn]; exact hm2) (s' := put (fun x : Option Nat => x.bind s) none (some (kept b n.toNat al.toNat)))
        (by intro j hj; rw [put_ne _ _ hj, put_ne _ _ hj]) (put_same _ _ _) (by rw [hkn]; exact q2)
      have o2 : Owned p h2 b a (k i) := by
        refine o1.frame (by rw [hbl2]; exact o1.mem) ?_
        intro x x1 x2
        apply hm2
        have := J.blocks.ne o1.mem q.mem hne
        unfold Apart at this
        omega
      simp only [R.ok_bind, e2, sysFree_ok o2]
      have M := K.del (i := some i) (b := b) (by rw [put_ne _ _ (by simp)]; exact hb) (h' := _) rfl
      rw [hk] at M
      have N := M.comp (fun j : Nat => if j = i then (none : Option Nat) else some j) (by
          intro x y hxy
          by_cases ex : x = i
          · by_cases ey : y = i
            · rw [ex, ey]
            · simp [ex, ey] at hxy
          · by_cases ey : y = i
            · simp [ex, ey] at hxy
            · simpa [ex, ey] using hxy) (by
          intro x hx
          cases x with
          | none => exact ⟨i, by simp⟩
          | some j =>
            refine ⟨j, ?_⟩
            have : j ≠ i := by
              rintro rfl
              exact hx (put_same _ _ _)
            simp [this])
      have hr : step.resized (some b) n.toNat al.toNat = some (kept b n.toNat al.toNat) := by simp [step.resized, bv_ne hn, kept]
      rw [hr]
      have g1 : (fun x => put (put (fun x : Option Nat => x.bind vars) none (some r)) (some i) none (if x = i then (none : Option Nat) else some x)) =
          put vars i (some r) := by
        funext j
        by_cases e : j = i
        · simp [put, e]
        · simp [put, e]
      have g2 : (fun x => put (put (fun x : Option Nat => x.bind s) none (some (kept b n.toNat al.toNat))) (some i) none
          (if x = i then (none : Option Nat) else some x)) = put s i (some (kept b n.toNat al.toNat)) := by
        funext j
        by_cases e : j = i
        · simp [put, e]
        · simp [put, e]
      rw [g1, g2] at N
      exact ⟨_, r, _, rfl, N⟩

end Verif.SysAlloc
