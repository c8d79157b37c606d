import Verif.Tlsf.HeapPool
/-!
# The blocks of the pools, one pool after the other
-/
namespace Verif.Tlsf
open Spec

variable {C : Cfg} {P : Nat → Prop} {m0 : Nat → Nat} {s : St} {pre post L : List Blk} {b n p : Blk}

/-- The blocks of the pools: of each, the blocks and the sentinel. -/
def flat (K : List (List Blk × Blk)) : List Blk := K.flatMap fun k => k.1 ++ [k.2]

def PartOk (k : List Blk × Blk) : Prop := k.2.size = 0 ∧ ∀ x ∈ k.1, x.size ≠ 0

theorem flat_cons (k : List Blk × Blk) (K : List (List Blk × Blk)) : flat (k :: K) = k.1 ++ k.2 :: flat K := by
  simp [flat]

theorem flat_append (K K' : List (List Blk × Blk)) : flat (K ++ K') = flat K ++ flat K' := by simp [flat]

theorem parts_aux : ∀ (L : List Blk) (e : Option (Nat × Nat × Nat)), Tile e L none →
    (e = none ∧ L = []) ∨ ∃ run E K, L = run ++ E :: flat K ∧ (∀ x ∈ run, x.size ≠ 0) ∧ E.size = 0 ∧ ∀ k ∈ K, PartOk k
  | [], e, h => Or.inl ⟨h, rfl⟩
  | b :: t, e, h => by
    right
    have ih := parts_aux t b.nxt h.2.2
    by_cases hb : b.size = 0
    · rcases ih with ⟨_, rfl⟩ | ⟨run, E, K, rfl, h1, h2, h3⟩
      · exact ⟨[], b, [], rfl, fun x hx => (by cases hx), hb, fun k hk => (by cases hk)⟩
      · refine ⟨[], b, (run, E) :: K, ?_, fun x hx => (by cases hx), hb, ?_⟩
        · rw [flat_cons]; rfl
        · intro k hk
          rcases List.mem_cons.mp hk with rfl | hk
          · exact ⟨h2, h1⟩
          · exact h3 k hk
    · rcases ih with ⟨e, _⟩ | ⟨run, E, K, rfl, h1, h2, h3⟩
      · unfold Blk.nxt at e
        rw [if_neg hb] at e
        cases e
      · refine ⟨b :: run, E, K, rfl, ?_, h2, h3⟩
        intro x hx
        rcases List.mem_cons.mp hx with rfl | hx
        · exact hb
        · exact h1 x hx

theorem parts (h : Tile none L none) : ∃ K, L = flat K ∧ ∀ k ∈ K, PartOk k := by
  rcases parts_aux L none h with ⟨_, rfl⟩ | ⟨run, E, K, rfl, h1, h2, h3⟩
  · exact ⟨[], rfl, fun k hk => (by cases hk)⟩
  · refine ⟨(run, E) :: K, by rw [flat_cons], ?_⟩
    intro k hk
    rcases List.mem_cons.mp hk with rfl | hk
    · exact ⟨h2, h1⟩
    · exact h3 k hk

theorem nxt_end {E : Blk} (h : E.size = 0) : E.nxt = none := if_pos h

/-- Each pool is tiled by itself. -/
theorem parts_tile {K : List (List Blk × Blk)} (hK : ∀ k ∈ K, PartOk k) (h : Tile none (flat K) none) : ∀ k ∈ K, Tile none (k.1 ++ [k.2]) none := by
  induction K with
  | nil => intro k hk; cases hk
  | cons k K ih =>
    rw [flat_cons] at h
    obtain ⟨e, t1, t2, t3, t4⟩ := tile_append.mp h
    have h0 := (hK k List.mem_cons_self).1
    rw [nxt_end h0] at t4
    intro x hx
    rcases List.mem_cons.mp hx with rfl | hx
    · exact tile_append.mpr ⟨e, t1, t2, t3, nxt_end h0⟩
    · exact ih (fun k hk => hK k (List.mem_cons_of_mem _ hk)) t4 x hx

theorem parts_good {K : List (List Blk × Blk)} (hf : ∀ k ∈ K, k.2.free = false) (h : Good false (flat K)) : ∀ k ∈ K, Good false (k.1 ++ [k.2]) := by
  induction K with
  | nil => intro k hk; cases hk
  | cons k K ih =>
    rw [flat_cons, good_append] at h
    obtain ⟨g1, g2, g3, g4, g5, g6⟩ := h
    rw [hf k List.mem_cons_self] at g6
    intro x hx
    rcases List.mem_cons.mp hx with rfl | hx
    · exact good_append.mpr ⟨g1, g2, g3, g4, g5, trivial⟩
    · exact ih (fun k hk => hf k (List.mem_cons_of_mem _ hk)) g6 x hx

theorem parts_pools {K : List (List Blk × Blk)} (hK : ∀ k ∈ K, PartOk k) : pools (flat K) = K.map fun k => (k.2.lo, k.2.hi) := by
  induction K with
  | nil => rfl
  | cons k K ih =>
    have hk := hK k List.mem_cons_self
    have h1 : pools k.1 = [] := by
      unfold pools
      rw [List.filter_eq_nil_iff.mpr]
      · rfl
      · intro x hx
        simp [hk.2 x hx]
    rw [flat_cons, pools_append, h1, pools_cons, if_pos hk.1, ih fun k hk => hK k (List.mem_cons_of_mem _ hk)]
    rfl

theorem mem_flat {K : List (List Blk × Blk)} {x : Blk} : x ∈ flat K ↔ ∃ k ∈ K, x ∈ k.1 ∨ x = k.2 := by
  unfold flat
  rw [List.mem_flatMap]
  simp only [List.mem_append, List.mem_singleton]

/-- What memory shows of the blocks. -/
def chunks (l : List Blk) : List Chunk := l.map fun b => ⟨b.addr, b.size, b.free⟩

theorem run_tiled {E : Blk} (hE : E.size = 0) (kE : BOk C P s.mem E) {lo hi : Nat} : ∀ (run : List Blk) (a : Nat), (∀ x ∈ run, x.size ≠ 0) → (∀ x ∈ run, BOk C P s.mem x) →
    Tile (some (a, lo, hi)) (run ++ [E]) none → E.lo = lo ∧ E.hi = hi ∧ Tiled s.mem a hi (chunks run) ∧ ∀ x ∈ run, x.lo = lo ∧ x.hi = hi
  | [], a, _, _, h => by
    have := h.1 _ rfl
    cases this
    refine ⟨rfl, rfl, ?_, fun x hx => (by cases hx)⟩
    have := kE.hi0 hE
    rw [this]
    refine Tiled.last _ ?_
    have h1 := kE.hdr
    rw [this] at h1
    rw [h1]
    have := wSize_hdr kE.sal
    unfold wSize at this
    omega
  | b :: run, a, h0, hk, h => by
    have := h.1 _ rfl
    cases this
    have kb := hk b List.mem_cons_self
    have hb := h0 b List.mem_cons_self
    have ht := h.2.2
    unfold Blk.nxt at ht
    rw [if_neg hb] at ht
    obtain ⟨i1, i2, i3, i4⟩ := run_tiled hE kE run _ (fun x hx => h0 x (List.mem_cons_of_mem _ hx)) (fun x hx => hk x (List.mem_cons_of_mem _ hx)) ht
    refine ⟨i1, i2, ?_, ?_⟩
    · refine Tiled.block _ _ _ _ rfl ?_ hb ?_ i3
      · rw [kb.hdr]; exact (wSize_hdr kb.sal).symm
      · rw [kb.hdr]
        have := wFree_hdr kb.sal
        unfold wFree at this
        exact this.symm
    · intro x hx
      rcases List.mem_cons.mp hx with rfl | hx
      · exact ⟨rfl, rfl⟩
      · exact i4 x hx

theorem part_tiled {E : Blk} (hE : E.size = 0) (kE : BOk C P s.mem E) {run : List Blk} (h0 : ∀ x ∈ run, x.size ≠ 0) (hk : ∀ x ∈ run, BOk C P s.mem x)
    (h : Tile none (run ++ [E]) none) : Tiled s.mem E.lo E.hi (chunks run) ∧ ∀ x ∈ run, x.lo = E.lo ∧ x.hi = E.hi := by
  cases run with
  | nil =>
    have h1 : E.addr = E.lo := h.2.1 rfl
    obtain ⟨_, _, i3, _⟩ := run_tiled hE kE [] E.addr h0 hk (lo := E.lo) (hi := E.hi) ⟨fun v e => by cases e; rfl, fun e => (nomatch e), h.2.2⟩
    rw [h1] at i3
    exact ⟨i3, fun x hx => (by cases hx)⟩
  | cons b run =>
    have h1 : b.addr = b.lo := h.2.1 rfl
    obtain ⟨i1, i2, i3, i4⟩ := run_tiled hE kE (b :: run) b.addr h0 hk (lo := b.lo) (hi := b.hi) ⟨fun v e => by cases e; rfl, fun e => (nomatch e), h.2.2⟩
    rw [h1] at i3
    rw [i1, i2]
    exact ⟨i3, i4⟩

theorem coalesced_chunks : ∀ (run : List Blk) (e : Bool), Good e run → Coalesced (chunks run)
  | [], _, _ => trivial
  | [_], _, _ => trivial
  | b :: c :: t, e, h => by
    refine ⟨?_, coalesced_chunks (c :: t) b.free h.2.2.2.2⟩
    intro hb
    change b.free = true at hb
    change c.free = false
    cases hc : c.free with
    | false => rfl
    | true => have := h.2.2.2.2.2.1 hc; rw [hb] at this; cases this

/-- A pool in which nothing is in use is one free block. -/
theorem one_free : ∀ (cs : List Chunk) (m : Nat → Nat) (a e : Nat), Tiled m a e cs → Coalesced cs → (∀ c ∈ cs, c.free = true) → a < e →
    cs = [⟨a, e - a - 8, true⟩]
  | [], m, a, e, h, _, _, hlt => by
    cases h
    omega
  | [c], m, a, e, h, _, hf, _ => by
    cases h with
    | block _ _ _ _ h1 h2 h3 h4 h5 =>
      cases h5
      have := hf c List.mem_cons_self
      obtain ⟨ca, cz, cf⟩ := c
      change ca = a at h1
      change cf = true at this
      subst h1 this
      dsimp only
      congr 2
      omega
  | c :: d :: t, m, a, e, h, hc, hf, _ => by
    have := hc.1 (hf c List.mem_cons_self)
    rw [hf d (by simp)] at this
    cases this

/-- Every block belongs to a pool. -/
theorem in_pools (h : H C P m0 s L) {x : Blk} (hx : x ∈ L) : (x.lo, x.hi) ∈ pools L := by
  obtain ⟨K, rfl, hK⟩ := parts h.tile
  obtain ⟨k, hk, hx'⟩ := mem_flat.mp hx
  rw [parts_pools hK, List.mem_map]
  refine ⟨k, hk, ?_⟩
  rcases hx' with hx' | rfl
  · have := (part_tiled (hK k hk).1 (h.blk _ (mem_flat.mpr ⟨k, hk, Or.inr rfl⟩)) (hK k hk).2
      (fun y hy => h.blk y (mem_flat.mpr ⟨k, hk, Or.inl hy⟩)) (parts_tile hK h.tile k hk)).2 x hx'
    rw [this.1, this.2]
  · rfl

theorem listAt_of_dll {m : Nat → Nat} {ctl p : Nat} {l : List Nat} (h : DLL m ctl p l) (hne : ∀ x ∈ l, x ≠ ctl) : ListAt m ctl (l.headD ctl) l := by
  induction l generalizing p with
  | nil => rfl
  | cons x t ih =>
    obtain ⟨_, h2, h3⟩ := h
    refine ⟨rfl, hne x List.mem_cons_self, ?_⟩
    rw [h2]
    exact ih h3 fun y hy => hne y (List.mem_cons_of_mem _ hy)

end Verif.Tlsf
