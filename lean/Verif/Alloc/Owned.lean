import Verif.Alloc.Word
import Verif.Alloc.Spec

/-! Blocks with a size in front of them, and what is written to them. -/
namespace Verif.Alloc
open Verif.Alloc.Spec

/-- A block in use, and what its users last wrote to it, by offset (ghost). -/
structure Owned where
  block : Block
  val : Nat → Option (BitVec 8)

/-- A write to address `x`, as seen by a block. -/
def Owned.write (x : Nat) (v : BitVec 8) (g : Owned) : Owned := { block := g.block, val := fun i => if g.block.addr + i = x then some v else g.val i }

/-- A block together with its header. -/
def ext (b : Block) : Block := { addr := b.addr - 8, size := b.size + 8, align := 1 }

theorem Disjoint_symm {b c : Block} (h : b.Disjoint c) : c.Disjoint b := Or.symm h

/-- A block is aligned and inside, and its header has its size. -/
structure BlockOk (lo hi : Nat) (m : Mem) (b : Block) : Prop where
  low : lo + 8 ≤ b.addr
  high : b.addr + b.size ≤ hi
  aligned : b.align ∣ b.addr
  header : read64 m (b.addr - 8) = BitVec.ofNat 64 b.size

/-- Moreover it still has what was written to it. -/
structure Known (lo hi : Nat) (m : Mem) (g : Owned) : Prop where
  ok : BlockOk lo hi m g.block
  val : ∀ i, i < g.block.size → ∀ v, g.val i = some v → m (g.block.addr + i) = v

/-- Memory agrees on a piece. -/
def Same (m m' : Mem) (b : Block) : Prop := ∀ x, b.addr ≤ x → x < b.addr + b.size → m x = m' x

theorem BlockOk_congr {lo hi : Nat} {m m' : Mem} {b : Block} (h : BlockOk lo hi m b) (e : Same m m' (ext b)) : BlockOk lo hi m' b where
  low := h.low
  high := h.high
  aligned := h.aligned
  header := by
    have := h.low
    rw [← h.header]
    refine read64_congr (fun x h1 h2 => (e x h1 ?_).symm)
    change x < b.addr - 8 + (b.size + 8)
    omega

theorem Known_congr {lo hi : Nat} {m m' : Mem} {g : Owned} (h : Known lo hi m g) (e : Same m m' (ext g.block)) : Known lo hi m' g where
  ok := BlockOk_congr h.ok e
  val := fun i hi v hv => by
    have := h.ok.low
    rw [← h.val i hi v hv]
    refine (e _ ?_ ?_).symm
    · change g.block.addr - 8 ≤ _
      omega
    · change _ < g.block.addr - 8 + (g.block.size + 8)
      omega

/-- Memory changes inside of one piece only. -/
def Only (m m' : Mem) (R : Block) : Prop := ∀ x, ¬ (R.addr ≤ x ∧ x < R.addr + R.size) → m x = m' x

theorem Same_of_Only {m m' : Mem} {R b : Block} (h : Only m m' R) (hd : R.Disjoint b) : Same m m' b := fun x h1 h2 => h x (by
  unfold Block.Disjoint at hd
  omega)

theorem perm_eraseIdx {α : Type} : ∀ {l : List α} {k : Nat} (h : k < l.length), (l[k] :: l.eraseIdx k).Perm l
  | [], _, h => absurd h (by simp)
  | a :: l, 0, _ => List.Perm.refl _
  | a :: l, k + 1, h => by
    have h' : k < l.length := by simpa using h
    exact (List.Perm.swap a l[k] (l.eraseIdx k)).trans ((perm_eraseIdx h').cons a)

theorem pairwise_mem {l : List Block} (h : l.Pairwise Block.Disjoint) {b c : Block} (hb : b ∈ l) (hc : c ∈ l) : b = c ∨ b.Disjoint c := by
  induction l with
  | nil => cases hb
  | cons d l ih =>
    obtain ⟨h1, h2⟩ := List.pairwise_cons.mp h
    rcases List.mem_cons.mp hb with eb | hb
    · rcases List.mem_cons.mp hc with ec | hc
      · exact Or.inl (eb.trans ec.symm)
      · exact Or.inr (eb ▸ h1 c hc)
    · rcases List.mem_cons.mp hc with ec | hc
      · exact Or.inr (Disjoint_symm (ec ▸ h1 b hb))
      · exact ih h2 hb hc

/-- A byte of a block in use is not part of a header. -/
theorem not_header {lo hi : Nat} {m : Mem} {l : List Owned} (hk : ∀ g ∈ l, Known lo hi m g) (hp : (l.map (fun g => ext g.block)).Pairwise Block.Disjoint) {g0 g : Owned} (hg0 : g0 ∈ l) (hg : g ∈ l) {x : Nat} (hx1 : g0.block.addr ≤ x) (hx2 : x < g0.block.addr + g0.block.size) :
    ¬ (g.block.addr - 8 ≤ x ∧ x < g.block.addr) := by
  have h1 := (hk g hg).ok.low
  have h2 := (hk g0 hg0).ok.low
  have m1 : ext g.block ∈ l.map (fun g => ext g.block) := List.mem_map.mpr ⟨g, hg, rfl⟩
  have m2 : ext g0.block ∈ l.map (fun g => ext g.block) := List.mem_map.mpr ⟨g0, hg0, rfl⟩
  intro hc
  rcases pairwise_mem hp m1 m2 with e | e
  · have e1 : g.block.addr - 8 = g0.block.addr - 8 := congrArg Block.addr e
    omega
  · have e : g.block.addr - 8 + (g.block.size + 8) ≤ g0.block.addr - 8 ∨ g0.block.addr - 8 + (g0.block.size + 8) ≤ g.block.addr - 8 := e
    omega

theorem write_known {lo hi : Nat} {m m' : Mem} {x : Nat} {v : BitVec 8} (hm1 : m' x = v) (hm2 : ∀ y, y ≠ x → m' y = m y) {g : Owned} (hk : Known lo hi m g)
    (hne : ¬ (g.block.addr - 8 ≤ x ∧ x < g.block.addr)) : Known lo hi m' (g.write x v) where
  ok :=
    { low := hk.ok.low
      high := hk.ok.high
      aligned := hk.ok.aligned
      header := by
        have hlow := hk.ok.low
        change read64 _ (g.block.addr - 8) = BitVec.ofNat 64 g.block.size
        rw [← hk.ok.header]
        refine read64_congr (fun y h1 h2 => hm2 y (fun e => hne ?_))
        omega }
  val := by
    intro i hi' w hw
    change (if g.block.addr + i = x then some v else g.val i) = some w at hw
    change m' (g.block.addr + i) = w
    by_cases e : g.block.addr + i = x
    · rw [if_pos e] at hw
      rw [e, hm1]
      exact Option.some.inj hw
    · rw [if_neg e] at hw
      rw [hm2 _ e]
      exact hk.val i hi' w hw

end Verif.Alloc
