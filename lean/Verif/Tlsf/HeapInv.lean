import Verif.Tlsf.Heap
import Verif.Tlsf.MapProps
/-!
# The invariant of the TLSF heap

The memory is described by a list `L` of blocks, in the order of their addresses inside each pool, and by the contents of the free lists.
`P` is a set of addresses whose words have to keep the values of a given memory `m0` (the payloads of the blocks in use).
-/
namespace Verif.Tlsf
open Spec

/-- What the proof knows about a block. `lo` and `hi` are the addresses of the first block and of the sentinel of its pool. -/
structure Blk where
  addr : Nat
  size : Nat
  free : Bool
  pfree : Bool
  /-- the block is in a free list -/
  listed : Bool
  /-- the `prev_phys_block` field of the next block points to the block -/
  linked : Bool
  lo : Nat
  hi : Nat

/-- The size word of the block. -/
def Blk.hdr (b : Blk) : Nat := b.size + b.free.toNat + 2 * b.pfree.toNat

structure BOk (C : Cfg) (P : Nat → Prop) (m : Nat → Nat) (b : Blk) : Prop where
  al : b.addr % 8 = 0
  sal : b.size % 8 = 0
  min : b.size = 0 ∨ 24 ≤ b.size
  pos : 0 < b.addr
  lo : b.lo ≤ b.addr
  hi0 : b.size = 0 → b.addr = b.hi
  hi : b.size ≠ 0 → b.addr + 8 + b.size ≤ b.hi
  rng : b.hi ≤ b.lo + 2 ^ 32
  top : b.hi + 16 ≤ 2 ^ 64
  ok : ∀ a, b.addr + 8 ≤ a → a < b.addr + 16 + b.size → C.ok a = true
  ctl : b.addr + 16 + b.size ≤ C.ctl ∨ C.ctl + 32 ≤ b.addr + 8
  hdr : m (b.addr + 8) = b.hdr
  lnk : b.linked = true → b.size ≠ 0 ∧ m (b.addr + 8 + b.size) = b.addr
  lst : b.listed = true → b.free = true
  fr : b.free = true → b.size ≠ 0
  qh : ¬ P (b.addr + 8)
  q : b.free = true → ∀ a, b.addr + 8 ≤ a → a < b.addr + 16 + b.size → ¬ P a

/-- Two blocks have no byte in common. -/
def Sep (x y : Blk) : Prop := x.addr + 16 + x.size ≤ y.addr + 8 ∨ y.addr + 16 + y.size ≤ x.addr + 8

/-- What has to follow a block in its pool. -/
def Blk.nxt (b : Blk) : Option (Nat × Nat × Nat) := if b.size = 0 then none else some (b.addr + 8 + b.size, b.lo, b.hi)

/-- Each block begins where the one before it ends, up to the sentinel of size 0. -/
def Tile : Option (Nat × Nat × Nat) → List Blk → Option (Nat × Nat × Nat) → Prop
  | e, [], e' => e = e'
  | e, b :: t, e' => (∀ v, e = some v → v = (b.addr, b.lo, b.hi)) ∧ (e = none → b.addr = b.lo) ∧ Tile b.nxt t e'

/-- A doubly linked list in memory. -/
def DLL (m : Nat → Nat) (ctl : Nat) : Nat → List Nat → Prop
  | _, [] => True
  | p, x :: t => m (x + 24) = p ∧ m (x + 16) = t.headD ctl ∧ DLL m ctl x t

/-- The free lists and the bitmaps. -/
structure Lists (C : Cfg) (s : St) (L : List Blk) (F : Nat → Nat → List Nat) : Prop where
  hd : ∀ i j, i < 25 → j < 32 → s.heads i j = (F i j).headD C.ctl
  dll : ∀ i j, i < 25 → j < 32 → DLL s.mem C.ctl C.ctl (F i j)
  nd : ∀ i j, i < 25 → j < 32 → (F i j).Nodup
  mem : ∀ i j x, i < 25 → j < 32 → (x ∈ F i j ↔ ∃ b ∈ L, b.addr = x ∧ b.listed = true ∧ InClass i j b.size)
  slb : ∀ i j, i < 25 → j < 32 → ((s.sl i).getLsbD j = true ↔ F i j ≠ [])
  flb : ∀ i, i < 25 → (s.fl.getLsbD i = true ↔ s.sl i ≠ 0#32)
  flhi : ∀ i, 25 ≤ i → s.fl.getLsbD i = false

/-- The invariant. -/
structure H (C : Cfg) (P : Nat → Prop) (m0 : Nat → Nat) (s : St) (L : List Blk) : Prop where
  cpos : C.ctl ≠ 0
  cal : C.ctl % 8 = 0
  cok : C.ok (C.ctl + 16) = true ∧ C.ok (C.ctl + 24) = true
  cq : ¬ P (C.ctl + 16) ∧ ¬ P (C.ctl + 24)
  blk : ∀ b ∈ L, BOk C P s.mem b
  sep : L.Pairwise Sep
  tile : Tile none L none
  keep : ∀ a, P a → s.mem a = m0 a
  lists : ∃ F, Lists C s L F

/-! ### Small facts -/

theorem updM_same (m : Nat → Nat) (a v : Nat) : updM m a v a = v := by simp [updM]
theorem updM_ne {m : Nat → Nat} {a v x : Nat} (h : x ≠ a) : updM m a v x = m x := by simp [updM, h]

theorem wSize_hdr {b : Blk} (h : b.size % 8 = 0) : wSize b.hdr = b.size := by
  unfold wSize Blk.hdr
  have := Bool.toNat_lt b.free
  have := Bool.toNat_lt b.pfree
  omega

theorem wFree_hdr {b : Blk} (h : b.size % 8 = 0) : wFree b.hdr = b.free := by
  unfold wFree Blk.hdr
  cases hf : b.free <;> cases hp : b.pfree <;> simp <;> omega

theorem wPrevFree_hdr {b : Blk} (h : b.size % 8 = 0) : wPrevFree b.hdr = b.pfree := by
  unfold wPrevFree Blk.hdr
  cases hf : b.free <;> cases hp : b.pfree <;> simp <;> omega

theorem wSetFree_hdr {b : Blk} (h : b.size % 8 = 0) : wSetFree b.hdr = Blk.hdr { b with free := true } := by
  unfold wSetFree Blk.hdr
  cases hf : b.free <;> cases hp : b.pfree <;> simp <;> omega

theorem wSetUsed_hdr {b : Blk} (h : b.size % 8 = 0) : wSetUsed b.hdr = Blk.hdr { b with free := false } := by
  unfold wSetUsed Blk.hdr
  cases hf : b.free <;> cases hp : b.pfree <;> simp <;> omega

theorem wSetPrevFree_hdr {b : Blk} (h : b.size % 8 = 0) : wSetPrevFree b.hdr = Blk.hdr { b with pfree := true } := by
  unfold wSetPrevFree Blk.hdr
  cases hf : b.free <;> cases hp : b.pfree <;> simp <;> omega

theorem wSetPrevUsed_hdr {b : Blk} (h : b.size % 8 = 0) : wSetPrevUsed b.hdr = Blk.hdr { b with pfree := false } := by
  unfold wSetPrevUsed Blk.hdr
  cases hf : b.free <;> cases hp : b.pfree <;> simp <;> omega

theorem wSetSize_hdr {b : Blk} (h : b.size % 8 = 0) (z : Nat) : wSetSize b.hdr z = Blk.hdr { b with size := z } := by
  unfold wSetSize Blk.hdr
  cases hf : b.free <;> cases hp : b.pfree <;> simp <;> omega

/-- The flags found in any word. -/
theorem wSetSize_any (w z : Nat) (addr : Nat) (lo hi : Nat) :
    wSetSize w z = Blk.hdr ⟨addr, z, wFree w, wPrevFree w, false, false, lo, hi⟩ := by
  unfold wSetSize Blk.hdr wFree wPrevFree
  rcases Nat.mod_two_eq_zero_or_one w with h | h <;> rcases Nat.mod_two_eq_zero_or_one (w / 2) with h' | h' <;>
    simp [h, h'] <;> omega

theorem Sep.symm {x y : Blk} (h : Sep x y) : Sep y x := Or.symm h

theorem sep_mid {L1 L2 : List Blk} {b : Blk} (h : (L1 ++ b :: L2).Pairwise Sep) :
    (∀ x ∈ L1, Sep x b) ∧ (∀ x ∈ L2, Sep x b) := by
  rw [List.pairwise_append, List.pairwise_cons] at h
  exact ⟨fun x hx => h.2.2 x hx b List.mem_cons_self, fun x hx => (h.2.1.1 x hx).symm⟩

theorem tile_append {e e' : Option (Nat × Nat × Nat)} {l1 l2 : List Blk} :
    Tile e (l1 ++ l2) e' ↔ ∃ m, Tile e l1 m ∧ Tile m l2 e' := by
  induction l1 generalizing e with
  | nil =>
    constructor
    · intro h; exact ⟨e, rfl, h⟩
    · rintro ⟨m, h, h'⟩; rw [show e = m from h]; exact h'
  | cons b t ih =>
    constructor
    · rintro ⟨h, h', h''⟩
      obtain ⟨m, a, c⟩ := ih.mp h''
      exact ⟨m, ⟨h, h', a⟩, c⟩
    · rintro ⟨m, ⟨h, h', a⟩, c⟩
      exact ⟨h, h', ih.mpr ⟨m, a, c⟩⟩

/-- What follows a block. -/
theorem tile_next {e e' : Option (Nat × Nat × Nat)} {L1 L2 : List Blk} {b : Blk} (h : Tile e (L1 ++ b :: L2) none) (hb : b.size ≠ 0) :
    ∃ n L3, L2 = n :: L3 ∧ n.addr = b.addr + 8 + b.size ∧ n.lo = b.lo ∧ n.hi = b.hi := by
  obtain ⟨m, _, _, _, h3⟩ := tile_append.mp h
  unfold Blk.nxt at h3
  rw [if_neg hb] at h3
  cases L2 with
  | nil => exact absurd h3 (by simp [Tile])
  | cons n L3 =>
    have := h3.1 _ rfl
    simp only [Prod.mk.injEq] at this
    exact ⟨n, L3, rfl, this.1.symm, this.2.1.symm, this.2.2.symm⟩

theorem DLL_congr {m m' : Nat → Nat} {ctl : Nat} {p : Nat} {l : List Nat} (h : DLL m ctl p l)
    (hm : ∀ x ∈ l, m' (x + 16) = m (x + 16) ∧ m' (x + 24) = m (x + 24)) : DLL m' ctl p l := by
  induction l generalizing p with
  | nil => trivial
  | cons x t ih =>
    obtain ⟨a, b, c⟩ := h
    have hx := hm x List.mem_cons_self
    exact ⟨hx.2.trans a, hx.1.trans b, ih c fun y hy => hm y (List.mem_cons_of_mem _ hy)⟩

/-! ### Replacing a few blocks by others -/

/-- The general step: the blocks `mid` are replaced by `mid'` inside the addresses from `A` to `Z`, the rest is left alone. -/
theorem H_replace' {C : Cfg} {P : Nat → Prop} {m0 : Nat → Nat} {s : St} {pre mid mid' post : List Blk} {m' : Nat → Nat} {A Z : Nat}
    (h : H C P m0 s (pre ++ (mid ++ post)))
    (hout : ∀ x ∈ pre ++ post, x.addr + 16 + x.size ≤ A ∨ Z ≤ x.addr + 8)
    (hctl : Z ≤ C.ctl ∨ C.ctl + 32 ≤ A)
    (hin : ∀ x ∈ mid', A ≤ x.addr + 8 ∧ x.addr + 16 + x.size ≤ Z)
    (hch : ∀ a, (a < A ∨ Z ≤ a) → m' a = s.mem a)
    (hP : ∀ a, P a → m' a = s.mem a)
    (hblk : ∀ x ∈ mid', BOk C P m' x)
    (hsep : mid'.Pairwise Sep)
    (htile : Tile none (pre ++ (mid' ++ post)) none)
    (hl1 : ∀ x ∈ mid, x.listed = true → ∃ y ∈ mid', y.addr = x.addr ∧ y.listed = true ∧ y.size = x.size)
    (hl2 : ∀ x ∈ mid', x.listed = true → ∃ y ∈ mid, y.addr = x.addr ∧ y.listed = true ∧ y.size = x.size)
    (hf : ∀ x ∈ mid, x.listed = true → m' (x.addr + 16) = s.mem (x.addr + 16) ∧ m' (x.addr + 24) = s.mem (x.addr + 24)) :
    H C P m0 { s with mem := m' } (pre ++ (mid' ++ post)) := by
  obtain ⟨F, hF⟩ := h.lists
  have hlist : ∀ (x i j : Nat), (∃ b ∈ pre ++ (mid ++ post), b.addr = x ∧ b.listed = true ∧ InClass i j b.size) ↔
      (∃ b ∈ pre ++ (mid' ++ post), b.addr = x ∧ b.listed = true ∧ InClass i j b.size) := by
    intro x i j
    constructor
    · rintro ⟨b, hb, h1, h2, h3⟩
      rw [List.mem_append, List.mem_append] at hb
      rcases hb with hb | hb | hb
      · exact ⟨b, by simp [hb], h1, h2, h3⟩
      · obtain ⟨y, hy, e1, e2, e3⟩ := hl1 b hb h2
        exact ⟨y, by simp [hy], e1.trans h1, e2, by rw [e3]; exact h3⟩
      · exact ⟨b, by simp [hb], h1, h2, h3⟩
    · rintro ⟨b, hb, h1, h2, h3⟩
      rw [List.mem_append, List.mem_append] at hb
      rcases hb with hb | hb | hb
      · exact ⟨b, by simp [hb], h1, h2, h3⟩
      · obtain ⟨y, hy, e1, e2, e3⟩ := hl2 b hb h2
        exact ⟨y, by simp [hy], e1.trans h1, e2, by rw [e3]; exact h3⟩
      · exact ⟨b, by simp [hb], h1, h2, h3⟩
  have hsame : ∀ x ∈ pre ++ post, ∀ a, x.addr + 8 ≤ a → a < x.addr + 16 + x.size → m' a = s.mem a := by
    intro x hx a h1 h2
    refine hch a ?_
    have := hout x hx
    omega
  refine ⟨h.cpos, h.cal, h.cok, h.cq, ?_, ?_, ?_, ?_, F, ?_⟩
  · intro b hb
    have hb' : b ∈ pre ++ post ∨ b ∈ mid' := by
      rw [List.mem_append, List.mem_append] at hb
      rw [List.mem_append]
      rcases hb with hb | hb | hb
      · exact Or.inl (Or.inl hb)
      · exact Or.inr hb
      · exact Or.inl (Or.inr hb)
    rcases hb' with hb' | hb'
    · have hbL : b ∈ pre ++ (mid ++ post) := by
        rw [List.mem_append] at hb'
        rcases hb' with hb' | hb' <;> simp [hb']
      have k := h.blk b hbL
      refine ⟨k.al, k.sal, k.min, k.pos, k.lo, k.hi0, k.hi, k.rng, k.top, k.ok, k.ctl, ?_, ?_, k.lst, k.fr, k.qh, k.q⟩
      · rw [← k.hdr]
        exact hsame b hb' _ (by omega) (by omega)
      · intro hl
        obtain ⟨k1, k2⟩ := k.lnk hl
        refine ⟨k1, (hsame b hb' _ (by omega) (by omega)).trans k2⟩
    · exact hblk b hb'
  · have hs := h.sep
    rw [List.pairwise_append, List.pairwise_append] at hs ⊢
    obtain ⟨s1, ⟨s2, s3, s4⟩, s5⟩ := hs
    refine ⟨s1, ⟨hsep, s3, ?_⟩, ?_⟩
    · intro x hx y hy
      have := hin x hx
      have := hout y (by simp [hy])
      unfold Sep
      omega
    · intro x hx y hy
      rcases List.mem_append.mp hy with hy | hy
      · have := hin y hy
        have := hout x (by simp [hx])
        unfold Sep
        omega
      · exact s5 x hx y (by simp [hy])
  · exact htile
  · intro a ha
    exact (hP a ha).trans (h.keep a ha)
  · refine ⟨hF.hd, ?_, hF.nd, ?_, hF.slb, hF.flb, hF.flhi⟩
    · intro i j hi hj
      refine DLL_congr (hF.dll i j hi hj) ?_
      intro x hx
      obtain ⟨b, hb, h1, h2, h3⟩ := (hF.mem i j x hi hj).mp hx
      subst h1
      rw [List.mem_append, List.mem_append] at hb
      have hb' : b ∈ pre ++ post ∨ b ∈ mid := by
        rw [List.mem_append]
        rcases hb with hb | hb | hb
        · exact Or.inl (Or.inl hb)
        · exact Or.inr hb
        · exact Or.inl (Or.inr hb)
      rcases hb' with hb' | hb'
      · have hbL : b ∈ pre ++ (mid ++ post) := by
          rw [List.mem_append] at hb'
          rcases hb' with hb' | hb' <;> simp [hb']
        have k := h.blk b hbL
        have k1 := k.fr (k.lst h2)
        have k2 := k.min
        exact ⟨hsame b hb' _ (by omega) (by omega), hsame b hb' _ (by omega) (by omega)⟩
      · exact hf b hb' h2
    · intro i j x hi hj
      rw [hF.mem i j x hi hj]
      exact hlist x i j

/-- The same when the new blocks continue what comes before them just as the old ones did. -/
theorem H_replace {C : Cfg} {P : Nat → Prop} {m0 : Nat → Nat} {s : St} {pre mid mid' post : List Blk} {m' : Nat → Nat} {A Z : Nat}
    (h : H C P m0 s (pre ++ (mid ++ post)))
    (hout : ∀ x ∈ pre ++ post, x.addr + 16 + x.size ≤ A ∨ Z ≤ x.addr + 8)
    (hctl : Z ≤ C.ctl ∨ C.ctl + 32 ≤ A)
    (hin : ∀ x ∈ mid', A ≤ x.addr + 8 ∧ x.addr + 16 + x.size ≤ Z)
    (hch : ∀ a, (a < A ∨ Z ≤ a) → m' a = s.mem a)
    (hP : ∀ a, P a → m' a = s.mem a)
    (hblk : ∀ x ∈ mid', BOk C P m' x)
    (hsep : mid'.Pairwise Sep)
    (htile : ∀ e e', Tile e mid e' → Tile e mid' e')
    (hl1 : ∀ x ∈ mid, x.listed = true → ∃ y ∈ mid', y.addr = x.addr ∧ y.listed = true ∧ y.size = x.size)
    (hl2 : ∀ x ∈ mid', x.listed = true → ∃ y ∈ mid, y.addr = x.addr ∧ y.listed = true ∧ y.size = x.size)
    (hf : ∀ x ∈ mid, x.listed = true → m' (x.addr + 16) = s.mem (x.addr + 16) ∧ m' (x.addr + 24) = s.mem (x.addr + 24)) :
    H C P m0 { s with mem := m' } (pre ++ (mid' ++ post)) := by
  refine H_replace' h hout hctl hin hch hP hblk hsep ?_ hl1 hl2 hf
  obtain ⟨e1, t1, t2⟩ := tile_append.mp h.tile
  obtain ⟨e2, t3, t4⟩ := tile_append.mp t2
  exact tile_append.mpr ⟨e1, t1, tile_append.mpr ⟨e2, htile _ _ t3, t4⟩⟩

end Verif.Tlsf
