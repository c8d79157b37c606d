import Verif.Tlsf.Check
import Verif.Tlsf.HeapProps
/-!
# C70: the self-check of the TLSF heap
-/
namespace Verif.Tlsf
open Spec Verif.Bits

variable {C : Cfg} {L : List Blk} {w : World} {G : List (Nat × Nat × Live)} {P : Nat → Prop} {m0 : Nat → Nat} {s : St}

theorem insist_true {dbg c : Bool} {st : Int} (h : c = true) : insist dbg c st = .ok st := by
  subst h
  cases dbg <;> rfl

theorem insist_spec {dbg c : Bool} {st r : Int} (h : insist dbg c st = .ok r) : r ≤ st ∧ (r = st → c = true) := by
  cases c
  · cases dbg
    · obtain rfl : st - 1 = r := Except.ok.inj h
      exact ⟨by omega, fun e => by omega⟩
    · cases h
  · rw [insist_true rfl] at h
    cases h
    exact ⟨Int.le_refl _, fun _ => rfl⟩

/-- The block behind a free block. -/
theorem next_of_free (h : H C P m0 s L) (g : Good false L) {y : Blk} (hy : y ∈ L) (hf : y.free = true) :
    y.pfree = false ∧ ∃ n ∈ L, n.addr = y.addr + 8 + y.size ∧ n.free = false ∧ n.pfree = true := by
  obtain ⟨pre, post, rfl⟩ := List.append_of_mem hy
  have k := h.blk y hy
  have h0 := k.fr hf
  have g2 := (good_append.mp g).2
  obtain ⟨g3, g4, _, _, g5⟩ := g2
  refine ⟨g3.trans (g4 hf), ?_⟩
  obtain ⟨m, _, t⟩ := tile_append.mp h.tile
  have t2 := t.2.2
  unfold Blk.nxt at t2
  rw [if_neg h0] at t2
  cases post with
  | nil => cases t2
  | cons n post =>
    have := t2.1 _ rfl
    obtain ⟨e1, _⟩ := Prod.mk.inj this
    rw [hf] at g5
    obtain ⟨g6, g7, _⟩ := g5
    refine ⟨n, by simp, e1.symm, ?_, g6⟩
    rcases Bool.eq_false_or_eq_true n.free with e | e
    · exact absurd (g7 e) (by decide)
    · exact e

theorem checkBlock_ok (dbg : Bool) (h : H C P m0 s L) (g : Good false L) {y : Blk} (hy : y ∈ L) (hf : y.free = true) {i j : Nat} (hj : j < 32)
    (hc : InClass i j y.size) (st : Int) : checkBlock dbg C s i j y.addr st = .ok (st, s.mem (y.addr + 16)) := by
  have k := h.blk y hy
  have h0 := k.fr hf
  obtain ⟨hp, n, hn, e1, e2, e3⟩ := next_of_free h g hy hf
  have kn := h.blk n hn
  have hlt := k.lt
  have h24 := k.min
  have h8 := k.al
  unfold checkBlock
  rw [ld_hdr k, R.ok_bind, insist_true (by rw [wFree_hdr k.sal, hf]), R.ok_bind, insist_true (by rw [wPrevFree_hdr k.sal, hp]; rfl), R.ok_bind,
    blockNext_ok k h0, R.ok_bind, ← e1, ld_hdr kn, R.ok_bind, insist_true (by rw [wFree_hdr kn.sal, e2]; rfl), R.ok_bind,
    insist_true (by rw [wPrevFree_hdr kn.sal, e3]), R.ok_bind, wSize_hdr k.sal, insist_true (by rw [decide_eq_true_eq]; omega), R.ok_bind]
  obtain ⟨fl, sl, em, m2, m3⟩ := mapInsert_gen (BitVec.ofNat 64 y.size)
  rw [BitVec.toNat_ofNat, Nat.mod_eq_of_lt (by omega)] at m3
  obtain ⟨rfl, rfl⟩ := inClass_unique m2 hj m3 hc
  rw [em, R.ok_bind, insist_true (by simp), R.ok_bind, ld_ok (by omega) (k.ok _ (by omega) (by omega)), R.ok_bind]
  rfl

theorem checkList_ok (dbg : Bool) (h : H C P m0 s L) (g : Good false L) {i j : Nat} (hj : j < 32) : ∀ (l : List Nat) (q : Nat), DLL s.mem C.ctl q l →
    (∀ x ∈ l, ∃ y ∈ L, y.addr = x ∧ y.free = true ∧ InClass i j y.size) → ∀ f, l.length ≤ f → ∀ st,
    checkList dbg C s i j f (l.headD C.ctl) st = .ok (some st)
  | [], _, _, _, f, _, st => by
    rw [List.headD_nil]
    cases f <;> (unfold checkList; rw [if_pos rfl]; rfl)
  | x :: t, q, hd, hl, f, hf, st => by
    obtain ⟨y, hy, rfl, yf, yc⟩ := hl x List.mem_cons_self
    have k := h.blk y hy
    have h0 := k.fr yf
    have hne : y.addr ≠ C.ctl := by
      have := k.min
      have := k.ctl
      omega
    cases f with
    | zero => exact absurd hf (by simp)
    | succ f =>
      rw [List.headD_cons]
      unfold checkList
      rw [if_neg hne, checkBlock_ok dbg h g hy yf hj yc, R.ok_bind]
      dsimp only
      rw [hd.2.1]
      exact checkList_ok dbg h g hj t _ hd.2.2 (fun z hz => hl z (List.mem_cons_of_mem _ hz)) f (by simpa using hf) st

theorem checkClass_ok (dbg : Bool) (h : H C P m0 s L) (g : Good false L) {i j : Nat} (hi : i < 25) (hj : j < 32) :
    ∃ n, ∀ f, n ≤ f → ∀ st, checkClass dbg C s f i j st = .ok (some st) := by
  obtain ⟨F, hF⟩ := h.lists
  have hfl := good_listed g
  have hl : ∀ x ∈ F i j, ∃ y ∈ L, y.addr = x ∧ y.free = true ∧ InClass i j y.size := by
    intro x hx
    obtain ⟨y, hy, e, yl, yc⟩ := (hF.mem i j x hi hj).mp hx
    exact ⟨y, hy, e, (hfl y hy).symm.trans yl, yc⟩
  refine ⟨(F i j).length, fun f hf st => ?_⟩
  unfold checkClass
  dsimp only
  have hs := hF.slb i j hi hj
  by_cases hsl : (s.sl i).getLsbD j = true
  · have hne : s.sl i ≠ 0#32 := by
      intro e
      rw [e] at hsl
      simp at hsl
    have hfm := (hF.flb i hi).mpr hne
    rw [if_pos hfm, R.pure_eq, R.ok_bind, if_pos hsl, insist_true (by simpa using hne), R.ok_bind]
    have hL := hs.mp hsl
    have hb : s.heads i j ≠ C.ctl := by
      rw [hF.hd i j hi hj]
      cases e : F i j with
      | nil => exact absurd e hL
      | cons x t =>
        obtain ⟨y, hy, rfl, yf, _⟩ := hl x (by rw [e]; exact List.mem_cons_self)
        have k := h.blk y hy
        have := k.fr yf
        have := k.min
        have := k.ctl
        rw [List.headD_cons]
        omega
    rw [insist_true (by simpa using hb), R.ok_bind, hF.hd i j hi hj]
    exact checkList_ok dbg h g hj _ _ (hF.dll i j hi hj) hl f hf st
  · have hL : F i j = [] := by
      rcases hh : F i j with _ | ⟨x, t⟩
      · rfl
      · exact absurd (hs.mpr (by rw [hh]; simp)) hsl
    have hb : s.heads i j = C.ctl := by rw [hF.hd i j hi hj, hL]; rfl
    have e : (if s.fl.getLsbD i = true then pure st else insist dbg (!(s.sl i).getLsbD j) st) = (.ok st : R Int) := by
      by_cases e : s.fl.getLsbD i = true
      · rw [if_pos e]; rfl
      · rw [if_neg e, insist_true (by simpa using hsl)]
    rw [e, R.ok_bind, if_neg hsl, insist_true (by simpa using hb), R.ok_bind]
    rfl

theorem checkClasses_ok (dbg : Bool) (h : H C P m0 s L) (g : Good false L) : ∀ l : List (Nat × Nat), (∀ p ∈ l, p.1 < 25 ∧ p.2 < 32) →
    ∃ n, ∀ f, n ≤ f → ∀ st, checkClasses dbg C s f l st = .ok (some st)
  | [], _ => ⟨0, fun _ _ _ => rfl⟩
  | p :: t, hl => by
    obtain ⟨n, hn⟩ := checkClass_ok dbg h g (hl p List.mem_cons_self).1 (hl p List.mem_cons_self).2
    obtain ⟨k, hk⟩ := checkClasses_ok dbg h g t fun q hq => hl q (List.mem_cons_of_mem _ hq)
    refine ⟨n + k, fun f hf st => ?_⟩
    unfold checkClasses
    rw [hn f (by omega) st, R.ok_bind]
    exact hk f (by omega) st

theorem mem_classes {p : Nat × Nat} : p ∈ classes ↔ p.1 < 25 ∧ p.2 < 32 := by
  obtain ⟨i, j⟩ := p
  unfold classes
  simp [List.mem_flatMap, List.mem_map]

theorem check_ok (dbg : Bool) (h : H C P m0 s L) (g : Good false L) : ∃ n, ∀ f, n ≤ f → check dbg C s f = .ok (some 0) := by
  obtain ⟨n, hn⟩ := checkClasses_ok dbg h g classes fun p hp => mem_classes.mp hp
  exact ⟨n, fun f hf => hn f hf 0⟩

/-! ### Walking -/

/-- The walker is called for one block after the other. -/
def calls {σ : Type} (g : σ → Nat → Nat → Bool → R σ) : List Chunk → σ → R σ
  | [], x => pure x
  | c :: t, x => do
    let x ← g x (c.addr + 16) c.size (!c.free)
    calls g t x

theorem walkLoop_ok {σ : Type} (f : σ → Nat → Nat → Bool → R σ) {E : Blk} (hE : E.size = 0) (kE : BOk C P s.mem E) {lo hi : Nat} :
    ∀ (run : List Blk) (a : Nat), (∀ x ∈ run, x.size ≠ 0) → (∀ x ∈ run, BOk C P s.mem x) → Tile (some (a, lo, hi)) (run ++ [E]) none →
    ∀ n, run.length ≤ n → ∀ x, walkLoop C s f n a x = (do let r ← calls f (chunks run) x; pure (some r))
  | [], a, _, _, h, n, _, x => by
    have := h.1 _ rfl
    cases this
    have := kE.pos
    unfold walkLoop
    rw [if_neg (by omega), ld_hdr kE, R.ok_bind, wSize_hdr kE.sal, if_pos hE]
    rfl
  | b :: run, a, h0, hk, h, n, hn, x => by
    have := h.1 _ rfl
    cases this
    have kb := hk b List.mem_cons_self
    have hb := h0 b List.mem_cons_self
    have ht := h.2.2
    unfold Blk.nxt at ht
    rw [if_neg hb] at ht
    have := kb.pos
    cases n with
    | zero => exact absurd hn (by simp)
    | succ n =>
      unfold walkLoop
      rw [if_neg (by omega), ld_hdr kb, R.ok_bind, wSize_hdr kb.sal, if_neg hb, wFree_hdr kb.sal, blockNext_ok kb hb]
      change _ = (do let r ← (do let x ← f x (b.addr + 16) b.size (!b.free); calls f (chunks run) x); pure (some r))
      dsimp only
      cases f x (b.addr + 16) b.size (!b.free) with
      | error e => rfl
      | ok y =>
        rw [R.ok_bind, R.ok_bind]
        exact walkLoop_ok f hE kE run _ (fun x hx => h0 x (List.mem_cons_of_mem _ hx)) (fun x hx => hk x (List.mem_cons_of_mem _ hx)) ht n (by simpa using hn) y

theorem integrity_ok (dbg : Bool) : ∀ (run : List Blk) (e : Bool) (q : Int), (∀ x ∈ run, BOk C P s.mem x) → Good e run →
    ∃ r, calls (integrityWalker dbg C s) (chunks run) ((if e then 1 else 0), q) = .ok (r, q)
  | [], e, q, _, _ => ⟨_, rfl⟩
  | b :: run, e, q, hk, h => by
    have k := hk b List.mem_cons_self
    obtain ⟨r, hr⟩ := integrity_ok dbg run b.free q (fun x hx => hk x (List.mem_cons_of_mem _ hx)) h.2.2.2.2
    refine ⟨r, ?_⟩
    rw [← hr]
    change (do let x ← integrityWalker dbg C s _ (b.addr + 16) b.size (!b.free); calls _ (chunks run) x) = _
    unfold integrityWalker
    rw [show b.addr + 16 - 16 + 8 = b.addr + 8 by omega, ld_hdr k, R.ok_bind]
    dsimp only
    rw [wPrevFree_hdr k.sal, wFree_hdr k.sal, wSize_hdr k.sal, insist_true (by rw [h.1]; simp), R.ok_bind, insist_true (by simp), R.ok_bind, R.pure_eq, R.ok_bind,
      Int.add_zero]

theorem calls_collect : ∀ (cs : List Chunk) (x : List (Nat × Nat × Bool)), calls collect cs x = .ok (x ++ cs.map fun c => (c.addr + 16, c.size, !c.free))
  | [], x => by rw [List.map_nil, List.append_nil]; rfl
  | c :: t, x => by
    change (do let x ← collect x (c.addr + 16) c.size (!c.free); calls collect t x) = _
    rw [show collect x (c.addr + 16) c.size (!c.free) = .ok (x ++ [(c.addr + 16, c.size, !c.free)]) from rfl, R.ok_bind, calls_collect t, List.append_assoc]
    rfl

/-- Each pool of the world with the blocks of the invariant. -/
theorem WI.part (i : WI C w L G) {p : Nat × Nat} (hp : p ∈ w.pools) : ∃ run E, (∀ x ∈ run, x ∈ L) ∧ E ∈ L ∧ E.size = 0 ∧ (∀ x ∈ run, x.size ≠ 0) ∧ E.lo = firstBlock p ∧
    E.hi = lastBlock p ∧ Tile none (run ++ [E]) none ∧ Good false (run ++ [E]) := by
  obtain ⟨K, rfl, hK⟩ := parts i.h.tile
  have hps := i.ps
  rw [parts_pools hK] at hps
  have hm : (firstBlock p, lastBlock p) ∈ K.map fun k => (k.2.lo, k.2.hi) := by
    rw [hps]
    exact List.mem_map.mpr ⟨p, hp, rfl⟩
  obtain ⟨k, hk, e⟩ := List.mem_map.mp hm
  obtain ⟨e1, e2⟩ := Prod.mk.inj e
  have hEf : ∀ k ∈ K, k.2.free = false := fun k hk => by
    rcases Bool.eq_false_or_eq_true k.2.free with e | e
    · exact absurd (hK k hk).1 ((i.h.blk k.2 (mem_flat.mpr ⟨k, hk, Or.inr rfl⟩)).fr e)
    · exact e
  exact ⟨k.1, k.2, fun x hx => mem_flat.mpr ⟨k, hk, Or.inl hx⟩, mem_flat.mpr ⟨k, hk, Or.inr rfl⟩, (hK k hk).1, (hK k hk).2, e1, e2,
    parts_tile hK i.h.tile k hk, parts_good hEf i.g k hk⟩

theorem walkPool_ok {σ : Type} (i : WI C w L G) {p : Nat × Nat} (hp : p ∈ w.pools) : ∃ run, (∀ x ∈ run, x ∈ L) ∧ Good false run ∧
    Tiled w.st.mem (firstBlock p) (lastBlock p) (chunks run) ∧
    ∀ (f : σ → Nat → Nat → Bool → R σ) n, run.length ≤ n → ∀ x, walkPool C w.st f n p.1 x = (do let r ← calls f (chunks run) x; pure (some r)) := by
  obtain ⟨run, E, h1, h2, h3, h4, h5, h6, h7, h8⟩ := i.part hp
  have hk : ∀ x ∈ run, BOk C (fun _ => False) w.st.mem x := fun x hx => i.h.blk x (h1 x hx)
  have kE := i.h.blk E h2
  have ht := (part_tiled h3 kE h4 hk h7).1
  rw [h5, h6] at ht
  refine ⟨run, h1, (good_append.mp h8).1, ht, fun f n hn x => ?_⟩
  unfold walkPool
  rw [show p.1 - 8 = firstBlock p from rfl]
  have hlo : (run ++ [E]).head?.map Blk.addr = some (firstBlock p) := by
    cases run with
    | nil =>
      have h1 : E.addr = E.lo := h7.2.1 rfl
      rw [← h5, ← h1]; rfl
    | cons b t =>
      have h1 : b.addr = b.lo := h7.2.1 rfl
      have := (part_tiled h3 kE h4 hk h7).2 b List.mem_cons_self
      rw [← h5, ← this.1, ← h1]; rfl
  cases run with
  | nil =>
    refine walkLoop_ok f h3 kE [] _ h4 hk (lo := E.lo) (hi := E.hi) ⟨fun v e => ?_, fun e => (nomatch e), h7.2.2⟩ n hn x
    cases e
    have : E.addr = firstBlock p := by simpa using hlo
    rw [this]
  | cons b t =>
    refine walkLoop_ok f h3 kE (b :: t) _ h4 hk (lo := b.lo) (hi := b.hi) ⟨fun v e => ?_, fun e => (nomatch e), h7.2.2⟩ n hn x
    cases e
    have : b.addr = firstBlock p := by simpa using hlo
    rw [this]

/-! ### The theorems -/

/-- C70: the self-check passes at every point of every legal history, with and without assertions. -/
theorem C70_validate (C : Cfg) (hC : ControlOk C) (mem : Nat → Nat) (s : St) (hs : construct C mem = .ok s) (os : List Op) (hl : LegalRun C ⟨s, [], []⟩ os)
    (w : World) (hw : run C ⟨s, [], []⟩ os = .ok w) :
    ∃ n, ∀ dbg f, n ≤ f → check dbg C w.st f = .ok (some 0) ∧ validateHeap dbg C w.st f = .ok (some true) ∧
      ∀ p ∈ w.pools, checkPool dbg C w.st f p.1 = .ok (some 0) := by
  obtain ⟨s', e, i⟩ := hC.start mem
  rw [hs] at e
  cases e
  obtain ⟨w', L, G, e', i'⟩ := run_ok os i hl
  rw [hw] at e'
  cases e'
  have key : ∀ ps : List (Nat × Nat), (∀ p ∈ ps, p ∈ w.pools) → ∃ n, ∀ dbg f, n ≤ f → ∀ p ∈ ps, checkPool dbg C w.st f p.1 = .ok (some 0) := by
    intro ps
    induction ps with
    | nil => exact fun _ => ⟨0, fun _ _ _ p hp => (by cases hp)⟩
    | cons q ps ih =>
      intro h
      obtain ⟨n, hn⟩ := ih fun p hp => h p (List.mem_cons_of_mem _ hp)
      obtain ⟨run, h1, h2, _, h4⟩ := walkPool_ok (σ := Int × Int) i' (h q List.mem_cons_self)
      refine ⟨n + run.length, fun dbg f hf p hp => ?_⟩
      rcases List.mem_cons.mp hp with rfl | hp
      · unfold checkPool
        rw [h4 _ f (by omega)]
        obtain ⟨r, hr⟩ := integrity_ok (C := C) (P := fun _ => False) (s := w.st) dbg run false 0 (fun x hx => i'.h.blk x (h1 x hx)) h2
        rw [show ((0 : Int), (0 : Int)) = ((if false = true then (1 : Int) else 0), 0) from rfl, hr]
        rfl
      · exact hn dbg f (by omega) p hp
  obtain ⟨n1, h1⟩ := check_ok true i'.h i'.g
  obtain ⟨n2, h2⟩ := check_ok false i'.h i'.g
  obtain ⟨n3, h3⟩ := key w.pools fun _ h => h
  have hc : ∀ dbg f, n1 + n2 + n3 ≤ f → check dbg C w.st f = .ok (some 0) := fun dbg f hf => by
    cases dbg
    · exact h2 f (by omega)
    · exact h1 f (by omega)
  refine ⟨n1 + n2 + n3, fun dbg f hf => ⟨hc dbg f hf, ?_, h3 dbg f (by omega)⟩⟩
  unfold validateHeap
  rw [hc dbg f hf, R.ok_bind]
  rfl

/-- C70: walking a pool calls the walker exactly once for every block of the pool, from the lowest address to the highest, with the address handed out, the
size and whether it is in use. -/
theorem C70_walk (C : Cfg) (hC : ControlOk C) (mem : Nat → Nat) (s : St) (hs : construct C mem = .ok s) (os : List Op) (hl : LegalRun C ⟨s, [], []⟩ os)
    (w : World) (hw : run C ⟨s, [], []⟩ os = .ok w) (blocks : List ((Nat × Nat) × List Chunk)) (hb : w.sound C blocks) (p : (Nat × Nat) × List Chunk) (hp : p ∈ blocks) :
    ∃ n, ∀ f, n ≤ f → walkPool C w.st collect f p.1.1 [] = .ok (some (p.2.map fun c => (c.addr + 16, c.size, !c.free))) := by
  obtain ⟨s', e, i⟩ := hC.start mem
  rw [hs] at e
  cases e
  obtain ⟨w', L, G, e', i'⟩ := run_ok os i hl
  rw [hw] at e'
  cases e'
  have hp' : p.1 ∈ w.pools := by rw [← hb.poolsEq]; exact List.mem_map.mpr ⟨p, hp, rfl⟩
  obtain ⟨run, h1, h2, h3, h4⟩ := walkPool_ok (σ := List (Nat × Nat × Bool)) i' hp'
  refine ⟨run.length, fun f hf => ?_⟩
  rw [h4 collect f hf, calls_collect, (tiled_unique h3 (hb.tiled p hp)).1]
  rfl

/-- C70: the reported size of a block handed out is at least the size asked for, and all of it belongs to the block alone. -/
theorem C70_allocation_size (C : Cfg) (hC : ControlOk C) (mem : Nat → Nat) (s : St) (hs : construct C mem = .ok s) (os : List Op) (hl : LegalRun C ⟨s, [], []⟩ os)
    (w : World) (hw : run C ⟨s, [], []⟩ os = .ok w) :
    ∃ size : Live → Nat, (∀ v ∈ w.live, getAllocationSize C w.st v.ptr = .ok (some (size v)) ∧ v.size ≤ size v) ∧
      w.live.Pairwise fun x y => x.ptr + size x ≤ y.ptr ∨ y.ptr + size y ≤ x.ptr := by
  obtain ⟨s', e, i⟩ := hC.start mem
  rw [hs] at e
  cases e
  obtain ⟨w', L, G, e', i'⟩ := run_ok os i hl
  rw [hw] at e'
  cases e'
  have hsz : ∀ g ∈ G, w.st.mem (g.2.2.ptr - 16 + 8) / 4 * 4 = g.2.1 ∧ getAllocationSize C w.st g.2.2.ptr = .ok (some g.2.1) := by
    intro g hg
    obtain ⟨x, hx, hxf, hx0, e⟩ := used_mem.mp (i'.us.mem_iff.mpr (List.mem_map.mpr ⟨g, hg, rfl⟩))
    obtain ⟨e1, e2⟩ := Prod.mk.inj e
    have k := i'.h.blk x hx
    have kg := (i'.ok g hg).ptr
    have ep : g.2.2.ptr - 16 + 8 = x.addr + 8 := by omega
    constructor
    · rw [ep, k.hdr, e2]
      exact wSize_hdr k.sal
    · unfold getAllocationSize blockSizeOf
      have := k.pos
      rw [if_neg (by omega), if_pos (by omega), ep, ld_hdr k, R.ok_bind, wSize_hdr k.sal, ← e2]
      rfl
  refine ⟨fun v => w.st.mem (v.ptr - 16 + 8) / 4 * 4, ?_, ?_⟩
  · intro v hv
    rw [← i'.gl] at hv
    obtain ⟨g, hg, rfl⟩ := List.mem_map.mp hv
    dsimp only
    rw [(hsz g hg).1]
    exact ⟨(hsz g hg).2, (i'.ok g hg).fit⟩
  · have hsep := (i'.us.pairwise_iff (R := USep) (fun h => Or.symm h)).mp (used_sep i'.h.sep)
    rw [← i'.gl, List.pairwise_map]
    rw [List.pairwise_map] at hsep
    refine hsep.imp_of_mem ?_
    intro x y hx hy hxy
    have k1 := (i'.ok x hx).ptr
    have k3 := (i'.ok y hy).ptr
    dsimp only
    rw [(hsz x hx).1, (hsz y hy).1]
    unfold USep at hxy
    dsimp only at hxy
    omega

/-! ### What the check detects -/

theorem checkBlock_spec {dbg : Bool} {i j b x : Nat} {st r : Int} (h : checkBlock dbg C s i j b st = .ok (r, x)) :
    r ≤ st ∧ (r = st → x = s.mem (b + 16) ∧ s.mem (b + 8) % 2 = 1 ∧ s.mem (b + 8) / 2 % 2 = 0 ∧ 24 ≤ s.mem (b + 8) / 4 * 4 ∧
      s.mem (b + 16 + s.mem (b + 8) / 4 * 4) % 4 = 2 ∧ InClass i j (s.mem (b + 8) / 4 * 4 % 2 ^ 64)) := by
  unfold checkBlock at h
  have ldv : ∀ {a v : Nat}, ld C s a = .ok v → v = s.mem a := by
    intro a v h
    unfold ld at h
    by_cases e : a % 8 = 0 ∧ C.ok a = true
    · rw [if_pos e] at h; cases h; rfl
    · rw [if_neg e] at h; cases h
  obtain ⟨w, h0, h⟩ := R.bind_eq_ok.mp h
  have hw := ldv h0
  obtain ⟨s1, i1, h⟩ := R.bind_eq_ok.mp h
  obtain ⟨s2, i2, h⟩ := R.bind_eq_ok.mp h
  obtain ⟨n, hn, h⟩ := R.bind_eq_ok.mp h
  obtain ⟨wn, h3, h⟩ := R.bind_eq_ok.mp h
  have hwn := ldv h3
  obtain ⟨s3, i3, h⟩ := R.bind_eq_ok.mp h
  obtain ⟨s4, i4, h⟩ := R.bind_eq_ok.mp h
  obtain ⟨s5, i5, h⟩ := R.bind_eq_ok.mp h
  obtain ⟨p, hp, h⟩ := R.bind_eq_ok.mp h
  obtain ⟨s6, i6, h⟩ := R.bind_eq_ok.mp h
  obtain ⟨x', h7, h⟩ := R.bind_eq_ok.mp h
  have hx := ldv h7
  cases h
  have a1 := insist_spec i1
  have a2 := insist_spec i2
  have a3 := insist_spec i3
  have a4 := insist_spec i4
  have a5 := insist_spec i5
  have a6 := insist_spec i6
  refine ⟨by omega, fun e => ?_⟩
  have b1 := a1.2 (by omega)
  have b2 := a2.2 (by omega)
  have b3 := a3.2 (by omega)
  have b4 := a4.2 (by omega)
  have b5 := of_decide_eq_true (a5.2 (by omega))
  have b6 := of_decide_eq_true (a6.2 (by omega))
  unfold blockNext at hn
  obtain ⟨w', g0, g⟩ := R.bind_eq_ok.mp hn
  rw [h0] at g0
  cases g0
  obtain ⟨_, _, g⟩ := R.bind_eq_ok.mp g
  cases g
  obtain ⟨fl, sl, em, m2, m3⟩ := mapInsert_gen (BitVec.ofNat 64 (wSize w))
  rw [hp] at em
  cases em
  obtain ⟨e1, e2⟩ := Prod.mk.inj b6
  have e1 : fl = i := by omega
  have e2 : sl = j := by omega
  subst e1 e2
  rw [BitVec.toNat_ofNat] at m3
  unfold wSize at b5 m3 hwn
  unfold wFree at b1 b3
  unfold wPrevFree at b2 b4
  rw [← hw]
  rw [show b + 8 + w / 4 * 4 + 8 = b + 16 + w / 4 * 4 by omega] at hwn
  rw [← hwn]
  simp at b1 b2 b3 b4
  exact ⟨hx, b1, b2, b5, by omega, m3⟩

/-- What a block in a free list should look like: it is free, the blocks around it are not, it is not too small and in the right list. -/
structure FreeBlock (m : Nat → Nat) (i j x : Nat) : Prop where
  free : m (x + 8) % 2 = 1
  prevUsed : m (x + 8) / 2 % 2 = 0
  large : 24 ≤ m (x + 8) / 4 * 4
  next : m (x + 16 + m (x + 8) / 4 * 4) % 4 = 2
  cls : InClass i j (m (x + 8) / 4 * 4)

theorem checkList_spec {dbg : Bool} (hm : ∀ a, s.mem a < 2 ^ 64) {i j : Nat} : ∀ (f b : Nat) (st r : Int), checkList dbg C s i j f b st = .ok (some r) →
    r ≤ st ∧ (r = st → ∃ l, ListAt s.mem C.ctl b l ∧ ∀ x ∈ l, FreeBlock s.mem i j x)
  | 0, b, st, r, h => by
    unfold checkList at h
    by_cases e : b = C.ctl
    · rw [if_pos e] at h
      cases h
      exact ⟨Int.le_refl _, fun _ => ⟨[], e, fun x hx => (by cases hx)⟩⟩
    · rw [if_neg e] at h
      cases h
  | f + 1, b, st, r, h => by
    unfold checkList at h
    by_cases e : b = C.ctl
    · rw [if_pos e] at h
      cases h
      exact ⟨Int.le_refl _, fun _ => ⟨[], e, fun x hx => (by cases hx)⟩⟩
    · rw [if_neg e] at h
      obtain ⟨⟨st', x⟩, h1, h⟩ := R.bind_eq_ok.mp h
      dsimp only at h
      obtain ⟨i1, i2⟩ := checkBlock_spec h1
      obtain ⟨k1, k2⟩ := checkList_spec hm f x st' r h
      refine ⟨by omega, fun er => ?_⟩
      obtain ⟨l, l1, l2⟩ := k2 (by omega)
      obtain ⟨j1, j2, j3, j4, j5, j6⟩ := i2 (by omega)
      subst j1
      refine ⟨b :: l, ⟨rfl, e, l1⟩, fun y hy => ?_⟩
      rcases List.mem_cons.mp hy with rfl | hy
      · have := hm (y + 8)
        rw [Nat.mod_eq_of_lt (by omega)] at j6
        exact ⟨j2, j3, j4, j5, j6⟩
      · exact l2 y hy

theorem checkClass_spec {dbg : Bool} (hm : ∀ a, s.mem a < 2 ^ 64) {f i j : Nat} {st r : Int} (h : checkClass dbg C s f i j st = .ok (some r)) :
    r ≤ st ∧ (r = st → (s.fl.getLsbD i = false → (s.sl i).getLsbD j = false) ∧ ((s.sl i).getLsbD j = true ↔ s.heads i j ≠ C.ctl) ∧
      ∃ l, ListAt s.mem C.ctl (s.heads i j) l ∧ ∀ x ∈ l, FreeBlock s.mem i j x) := by
  unfold checkClass at h
  dsimp only at h
  obtain ⟨s1, h1, h⟩ := R.bind_eq_ok.mp h
  have g1 : s1 ≤ st ∧ (s1 = st → s.fl.getLsbD i = false → (s.sl i).getLsbD j = false) := by
    by_cases e : s.fl.getLsbD i = true
    · rw [if_pos e] at h1
      cases h1
      exact ⟨Int.le_refl _, fun _ e' => absurd (e.symm.trans e') (by decide)⟩
    · rw [if_neg e] at h1
      have := insist_spec h1
      exact ⟨this.1, fun er _ => by simpa using this.2 er⟩
  by_cases e : (s.sl i).getLsbD j = true
  · rw [if_pos e] at h
    obtain ⟨s2, h2, h⟩ := R.bind_eq_ok.mp h
    obtain ⟨s3, h3, h⟩ := R.bind_eq_ok.mp h
    have g2 := insist_spec h2
    have g3 := insist_spec h3
    obtain ⟨g4, g5⟩ := checkList_spec hm f _ _ _ h
    refine ⟨by omega, fun er => ⟨g1.2 (by omega), ?_, g5 (by omega)⟩⟩
    have := of_decide_eq_true (g3.2 (by omega))
    exact ⟨fun _ => this, fun _ => e⟩
  · rw [if_neg e] at h
    obtain ⟨s2, h2, h⟩ := R.bind_eq_ok.mp h
    cases h
    have g2 := insist_spec h2
    refine ⟨by omega, fun er => ?_⟩
    have := of_decide_eq_true (g2.2 (by omega))
    exact ⟨g1.2 (by omega), ⟨fun x => absurd x e, fun x => absurd this x⟩, [], this, fun x hx => (by cases hx)⟩

/-- C70: conversely, a heap that passes the check has finite free lists of free blocks that are in the right list and surrounded by blocks in use, and
bitmaps that tell which lists are not empty - whatever happened to the memory before. -/
theorem C70_detects (C : Cfg) (s : St) (hm : ∀ a, s.mem a < 2 ^ 64) (dbg : Bool) (f : Nat) (h : check dbg C s f = .ok (some 0)) (i j : Nat) (hi : i < 25) (hj : j < 32) :
    (s.fl.getLsbD i = false → (s.sl i).getLsbD j = false) ∧ ((s.sl i).getLsbD j = true ↔ s.heads i j ≠ C.ctl) ∧
      ∃ l, ListAt s.mem C.ctl (s.heads i j) l ∧ ∀ x ∈ l, FreeBlock s.mem i j x := by
  have key : ∀ (l : List (Nat × Nat)) (st r : Int), checkClasses dbg C s f l st = .ok (some r) → r ≤ st ∧ (r = st → ∀ p ∈ l,
      (s.fl.getLsbD p.1 = false → (s.sl p.1).getLsbD p.2 = false) ∧ ((s.sl p.1).getLsbD p.2 = true ↔ s.heads p.1 p.2 ≠ C.ctl) ∧
      ∃ l, ListAt s.mem C.ctl (s.heads p.1 p.2) l ∧ ∀ x ∈ l, FreeBlock s.mem p.1 p.2 x) := by
    intro l
    induction l with
    | nil =>
      intro st r h
      cases h
      exact ⟨Int.le_refl _, fun _ p hp => (by cases hp)⟩
    | cons q l ih =>
      intro st r h
      unfold checkClasses at h
      obtain ⟨o, h1, h⟩ := R.bind_eq_ok.mp h
      cases o with
      | none => cases h
      | some st' =>
        dsimp only at h
        obtain ⟨a1, a2⟩ := checkClass_spec hm h1
        obtain ⟨b1, b2⟩ := ih st' r h
        refine ⟨by omega, fun er p hp => ?_⟩
        rcases List.mem_cons.mp hp with rfl | hp
        · exact a2 (by omega)
        · exact b2 (by omega) p hp
  exact (key classes 0 0 h).2 rfl (i, j) (mem_classes.mpr ⟨hi, hj⟩)

/-! ### Examples -/

namespace Example

/-- What the checks say at the end of the history: the status, the status of the pool and the walk. -/
def checked (dbg : Bool) (change : (Nat → Nat) → Nat → Nat) : R (Option Int × Option Int × Option (List (Nat × Nat × Bool))) := do
  let w ← hist ops
  let s := { w.st with mem := change w.st.mem }
  let a ← check dbg Example.C s 3
  let b ← checkPool dbg Example.C s 6 10640
  let c ← walkPool Example.C s collect 6 10640 []
  pure (a, b, c)

/-- The history of C40 is legal (`ops_legal`); three free blocks and three in use. -/
example : (checked true id).map (fun x => (x.1, x.2.1)) = .ok (some 0, some 0) := by decide +kernel
example : (checked true id).map (fun x => x.2.2) =
    .ok (some [(10648, 104, true), (10760, 48, false), (10816, 104, true), (10928, 24, false), (10960, 200, true), (11168, 1464, false)]) := by
  decide +kernel

/-- A free block whose flag was overwritten is found. -/
example : (checked true fun m => updM m 10752 48).map (fun x => x.1) = .error .assert := by decide +kernel
example : (checked false fun m => updM m 10752 48).map (fun x => (x.1, x.2.1)) = .ok (some (-1), some (-1)) := by decide +kernel

end Example

end Verif.Tlsf
