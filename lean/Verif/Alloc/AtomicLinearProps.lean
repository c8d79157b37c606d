import Verif.Alloc.AtomicLinear
import Verif.Alloc.Lemmas

/-! C36: the atomic linear allocator. -/
namespace Verif.Alloc.AtomicLinear
open Verif.Bits Verif.Alloc.Spec Verif.Alloc

/-! ### Pieces of memory that belong to the blocks in use and to the threads -/

/-- What is taken from the buffer for a request. -/
def region (lo : Nat) (size align start : BitVec 64) : Block := { addr := lo + start.toNat, size := size.toNat + (align.toNat - 1) + 8, align := 1 }

def optExt : Option Owned → List Block
  | none => []
  | some o => [ext o.block]

/-- The pieces that belong to a running call. -/
def held (lo : Nat) : Pc → List Block
  | .idle => []
  | .add _ _ old => optExt old
  | .store size align start old => region lo size align start :: optExt old
  | .copy new old => [ext new, ext old.block]

/-- All pieces are disjoint. -/
structure Sep (G : List Block) (h : Nat → List Block) : Prop where
  each : ∀ t, (G ++ h t).Pairwise Block.Disjoint
  cross : ∀ t u, t ≠ u → ∀ b ∈ h t, ∀ c ∈ h u, b.Disjoint c

theorem upd_same {β : Type} (f : Nat → β) (i : Nat) (b : β) : upd f i b i = b := if_pos rfl
theorem upd_other {β : Type} (f : Nat → β) {i j : Nat} (b : β) (h : j ≠ i) : upd f i b j = f j := if_neg h

theorem held_upd (lo : Nat) (pc : Nat → Pc) (t : Nat) (p : Pc) : (fun u => held lo (upd pc t p u)) = upd (fun u => held lo (pc u)) t (held lo p) := by
  funext u
  by_cases e : u = t
  · subst e; rw [upd_same, upd_same]
  · rw [upd_other _ _ e, upd_other _ _ e]

theorem Sep_upd {G G' : List Block} {h : Nat → List Block} (hs : Sep G h) {t : Nat} {L : List Block} (h1 : (G' ++ L).Pairwise Block.Disjoint)
    (h2 : ∀ b ∈ G' ++ L, ∀ u, u ≠ t → ∀ c ∈ h u, b.Disjoint c) : Sep G' (upd h t L) where
  each := fun u => by
    by_cases e : u = t
    · subst e; rw [upd_same]; exact h1
    · rw [upd_other _ _ e]
      refine List.pairwise_append.mpr ⟨(List.pairwise_append.mp h1).1, (List.pairwise_append.mp (hs.each u)).2.1, fun b hb c hc => h2 b (by simp [hb]) u e c hc⟩
  cross := fun u v huv b hb c hc => by
    by_cases e : u = t
    · subst e
      rw [upd_same] at hb
      rw [upd_other _ _ (Ne.symm huv)] at hc
      exact h2 b (by simp [hb]) v (Ne.symm huv) c hc
    · rw [upd_other _ _ e] at hb
      by_cases e' : v = t
      · subst e'
        rw [upd_same] at hc
        exact Disjoint_symm (h2 c (by simp [hc]) u e b hb)
      · rw [upd_other _ _ e'] at hc
        exact hs.cross u v huv b hb c hc

/-- Pieces change hands or are dropped. -/
theorem Sep_sub {G G' : List Block} {h : Nat → List Block} (hs : Sep G h) {t : Nat} {L M : List Block} (h1 : (G' ++ L).Perm M) (h2 : M.Sublist (G ++ h t)) : Sep G' (upd h t L) := by
  refine Sep_upd hs ?_ ?_
  · exact (h1.pairwise_iff (fun h => Disjoint_symm h)).mpr ((hs.each t).sublist h2)
  · intro b hb u hu c hc
    have hb := h2.subset (h1.subset hb)
    rcases List.mem_append.mp hb with hb | hb
    · exact (List.pairwise_append.mp (hs.each u)).2.2 b hb c hc
    · exact hs.cross t u (Ne.symm hu) b hb c hc

/-- The first piece of a thread gets smaller. -/
theorem Sep_shrink {G : List Block} {h : Nat → List Block} (hs : Sep G h) {t : Nat} {R b : Block} {L : List Block} (ht : h t = R :: L) (h1 : R.addr ≤ b.addr) (h2 : b.addr + b.size ≤ R.addr + R.size) :
    Sep G (upd h t (b :: L)) := by
  have sub : ∀ c, R.Disjoint c → b.Disjoint c := fun c hc => by
    unfold Block.Disjoint at *
    omega
  have e := hs.each t
  rw [ht] at e
  obtain ⟨e1, e2, e3⟩ := List.pairwise_append.mp e
  obtain ⟨e4, e5⟩ := List.pairwise_cons.mp e2
  refine Sep_upd hs ?_ ?_
  · refine List.pairwise_append.mpr ⟨e1, List.pairwise_cons.mpr ⟨fun c hc => sub c (e4 c hc), e5⟩, fun c hc d hd => ?_⟩
    rcases List.mem_cons.mp hd with hd | hd
    · subst hd; exact Disjoint_symm (sub c (Disjoint_symm (e3 c hc R (by simp))))
    · exact e3 c hc d (by simp [hd])
  · intro c hc u hu d hd
    have hR : ∀ x ∈ R :: L, x.Disjoint d := fun x hx => hs.cross t u (Ne.symm hu) x (by rw [ht]; exact hx) d hd
    rcases List.mem_append.mp hc with hc | hc
    · exact (List.pairwise_append.mp (hs.each u)).2.2 c hc d hd
    · rcases List.mem_cons.mp hc with hc | hc
      · subst hc; exact sub d (hR R (by simp))
      · exact hR c (by simp [hc])

/-! ### Invariant -/

def ReqOk (size align : BitVec 64) : Prop := size.toNat ≤ 2 ^ 62 ∧ IsPowerOfTwo align.toNat ∧ align.toNat ≤ 2 ^ 62

def PcOk (lo hi : Nat) (m : Mem) : Pc → Prop
  | .idle => True
  | .add size align old => size.toNat ≤ 2 ^ 62 ∧ (align = 0#64 ∨ ReqOk size align) ∧ ∀ o, old = some o → Known lo hi m o
  | .store size align _ old => ReqOk size align ∧ ∀ o, old = some o → Known lo hi m o
  | .copy new old => BlockOk lo hi m new ∧ Known lo hi m old

structure Inv (lo hi : Nat) (s : State) : Prop where
  lo0 : 0 < lo
  lohi : lo ≤ hi
  hib : hi ≤ 2 ^ 62
  off : s.offset.toNat ≤ 2 ^ 62
  beg : s.bbegin.toNat = lo
  fin : s.bend.toNat = hi
  sep : Sep (s.given.map (fun g => ext g.block)) (fun t => held lo (s.pc t))
  below : ∀ t, ∀ b ∈ s.given.map (fun g => ext g.block) ++ held lo (s.pc t), lo ≤ b.addr ∧ b.addr + b.size ≤ lo + s.offset.toNat
  known : ∀ g ∈ s.given, Known lo hi s.mem g
  pcs : ∀ t, PcOk lo hi s.mem (s.pc t)

theorem PcOk_congr {lo hi : Nat} {m m' : Mem} : ∀ {p : Pc}, PcOk lo hi m p → (∀ b ∈ held lo p, Same m m' b) → PcOk lo hi m' p
  | .idle, _, _ => trivial
  | .add _ _ old, h, e => ⟨h.1, h.2.1, fun o ho => Known_congr (h.2.2 o ho) (e _ (by subst ho; simp [held, optExt]))⟩
  | .store _ _ _ old, h, e => ⟨h.1, fun o ho => Known_congr (h.2 o ho) (e _ (by subst ho; simp [held, optExt]))⟩
  | .copy _ _, h, e => ⟨BlockOk_congr h.1 (e _ (by simp [held])), Known_congr h.2 (e _ (by simp [held]))⟩

/-- A piece of thread `t` changes: nobody else notices. -/
theorem others_known {lo hi : Nat} {s : State} (h : Inv lo hi s) {t : Nat} {R : Block} (hR : R ∈ held lo (s.pc t)) {m' : Mem} (ho : Only s.mem m' R) : ∀ g ∈ s.given, Known lo hi m' g := by
  intro g hg
  refine Known_congr (h.known g hg) (Same_of_Only ho (Disjoint_symm ((List.pairwise_append.mp (h.sep.each t)).2.2 _ (List.mem_map_of_mem hg) R hR)))

theorem others_pcs {lo hi : Nat} {s : State} (h : Inv lo hi s) {t : Nat} {R : Block} (hR : R ∈ held lo (s.pc t)) {m' : Mem} (ho : Only s.mem m' R) : ∀ u, u ≠ t → PcOk lo hi m' (s.pc u) :=
  fun u hu => PcOk_congr (h.pcs u) (fun b hb => Same_of_Only ho (h.sep.cross t u (Ne.symm hu) R hR b hb))

theorem pcs_upd {lo hi : Nat} {m : Mem} {pc : Nat → Pc} {t : Nat} {p : Pc} (h1 : PcOk lo hi m p) (h2 : ∀ u, u ≠ t → PcOk lo hi m (pc u)) : ∀ u, PcOk lo hi m (upd pc t p u) := by
  intro u
  by_cases e : u = t
  · subst e; rw [upd_same]; exact h1
  · rw [upd_other _ _ e]; exact h2 u e

theorem below_upd {lo : Nat} {pc : Nat → Pc} {t : Nat} {p : Pc} {G : List Block} {B : Block → Prop} (h1 : ∀ b ∈ G ++ held lo p, B b) (h2 : ∀ u, ∀ b ∈ held lo (pc u), B b) :
    ∀ u, ∀ b ∈ G ++ held lo (upd pc t p u), B b := by
  intro u b hb
  by_cases e : u = t
  · subst e; rw [upd_same] at hb; exact h1 b hb
  · rw [upd_other _ _ e] at hb
    rcases List.mem_append.mp hb with hb | hb
    · exact h1 b (by simp [hb])
    · exact h2 u b hb

/-! ### Steps -/

theorem atLeastOne_ok {size align : BitVec 64} (hs : size.toNat ≤ 2 ^ 62) (h : align = 0#64 ∨ ReqOk size align) :
    ReqOk size (atLeastOne align) ∧ ((atLeastOne align).toNat = align.toNat ∨ ((atLeastOne align).toNat = 1)) := by
  unfold atLeastOne
  rcases h with rfl | h
  · rw [if_pos (by decide)]
    exact ⟨⟨hs, ⟨0, rfl⟩, by decide⟩, Or.inr rfl⟩
  · have := pow2_pos h.2.1
    rw [if_neg (by rw [BitVec.lt_def]; change ¬ align.toNat < 1; omega)]
    exact ⟨h, Or.inl rfl⟩

theorem add_ok {lo hi : Nat} {s : State} (h : Inv lo hi s) {t : Nat} {size align : BitVec 64} {old : Option Owned} (hpc : s.pc t = .add size align old)
    (hsum : s.offset.toNat + size.toNat + align.toNat + 8 ≤ 2 ^ 62) : ∃ s', add s t size align old = .ok s' ∧ Inv lo hi s' := by
  have hp := h.pcs t
  rw [hpc] at hp
  obtain ⟨hs, hr, hold⟩ := hp
  obtain ⟨hreq, hal⟩ := atLeastOne_ok hs hr
  have h0 : s.bbegin ≠ 0#64 := by
    intro e
    have h1 := h.beg
    have h2 := h.lo0
    rw [e] at h1
    change 0 = lo at h1
    omega
  unfold add
  rw [ccAssert_true (decide_eq_true h0), R.ok_bind]
  simp only
  generalize atLeastOne align = a at hreq hal ⊢
  have hapos := pow2_pos hreq.2.1
  have hoff := h.off
  have ha1 : (a - 1#64).toNat = a.toNat - 1 := by
    rw [BitVec.toNat_sub_of_le (by rw [BitVec.le_def]; change 1 ≤ _; omega)]
    rfl
  have ea : a.toNat - 1 ≤ align.toNat := by omega
  have e1 : (size + (a - 1#64)).toNat = size.toNat + (a.toNat - 1) := by
    rw [toNat_add_lt (by rw [ha1]; omega), ha1]
  have e8 : (8#64).toNat = 8 := rfl
  have e2 : (size + (a - 1#64) + 8#64).toNat = size.toNat + (a.toNat - 1) + 8 := by
    rw [toNat_add_lt (by rw [e1, e8]; omega), e1, e8]
  have e3 : (s.offset + (size + (a - 1#64) + 8#64)).toNat = s.offset.toNat + (size.toNat + (a.toNat - 1) + 8) := by
    rw [toNat_add_lt (by rw [e2]; omega), e2]
  refine ⟨_, rfl, ?_⟩
  have hb := h.below
  have hold' : optExt old = held lo (s.pc t) := by rw [hpc]; rfl
  have hbelow : ∀ u, ∀ b ∈ s.given.map (fun g => ext g.block) ++ held lo (s.pc u), lo ≤ b.addr ∧ b.addr + b.size ≤ lo + (s.offset.toNat + (size.toNat + (a.toNat - 1) + 8)) := by
    intro u b hb'
    have := hb u b hb'
    omega
  exact {
    lo0 := h.lo0
    lohi := h.lohi
    hib := h.hib
    off := by change BitVec.toNat _ ≤ _; rw [e3]; omega
    beg := h.beg
    fin := h.fin
    sep := by
      change Sep _ (fun u => held lo (upd s.pc t _ u))
      rw [held_upd]
      have hreg : ∀ u, ∀ b ∈ s.given.map (fun g => ext g.block) ++ held lo (s.pc u), b.Disjoint (region lo size a s.offset) := by
        intro u b hb'
        have := hb u b hb'
        exact Or.inl this.2
      refine Sep_upd h.sep ?_ ?_
      · have he : (_ ++ held lo (s.pc t)).Pairwise _ := h.sep.each t
        rw [← hold'] at he
        obtain ⟨p1, p2, p3⟩ := List.pairwise_append.mp he
        refine List.pairwise_append.mpr ⟨p1, List.pairwise_cons.mpr ⟨fun c hc => Disjoint_symm (hreg t c (by rw [← hold']; simp [hc])), p2⟩, fun b hb c hc => ?_⟩
        rcases List.mem_cons.mp hc with hc | hc
        · subst hc; exact hreg t b (List.mem_append_left _ hb)
        · exact p3 b hb c hc
      · intro b hb' u hu c hc
        rcases List.mem_append.mp hb' with hb' | hb'
        · exact (List.pairwise_append.mp (h.sep.each u)).2.2 b hb' c hc
        · rcases List.mem_cons.mp hb' with hb' | hb'
          · subst hb'; exact Disjoint_symm (hreg u c (List.mem_append_right _ hc))
          · exact h.sep.cross t u (Ne.symm hu) b (show b ∈ held lo (s.pc t) by rw [← hold']; exact hb') c hc
    below := by
      change ∀ u, ∀ b ∈ _ ++ held lo (upd s.pc t _ u), lo ≤ b.addr ∧ b.addr + b.size ≤ lo + BitVec.toNat _
      rw [e3]
      refine below_upd ?_ (fun u b hb' => hbelow u b (List.mem_append_right _ hb'))
      intro b hb'
      rcases List.mem_append.mp hb' with hb' | hb'
      · exact hbelow t b (List.mem_append_left _ hb')
      · rcases List.mem_cons.mp hb' with hb' | hb'
        · subst hb'
          change lo ≤ lo + s.offset.toNat ∧ lo + s.offset.toNat + (size.toNat + (a.toNat - 1) + 8) ≤ _
          omega
        · exact hbelow t b (List.mem_append_right _ (by rw [← hold']; exact hb'))
    known := h.known
    pcs := pcs_upd ⟨hreq, hold⟩ (fun u _ => h.pcs u) }

theorem store_ok {lo hi : Nat} {s : State} (h : Inv lo hi s) {t : Nat} {size align start : BitVec 64} {old : Option Owned} (hpc : s.pc t = .store size align start old) :
    (∃ s', store s t size align start old = .ok s' ∧ Inv lo hi s' ∧ s'.offset = s.offset) ∨ ((∃ e, store s t size align start old = .error e) ∧ hi - lo < s.offset.toNat) := by
  have hp := h.pcs t
  rw [hpc] at hp
  obtain ⟨⟨hs, hpow, ha⟩, hold⟩ := hp
  have hapos := pow2_pos hpow
  have hhib := h.hib
  have hlohi := h.lohi
  have hoff := h.off
  have hlo0 := h.lo0
  have hmem : region lo size align start ∈ held lo (s.pc t) := by rw [hpc]; simp [held]
  have hreg := h.below t _ (List.mem_append_right _ hmem)
  have hreg : lo ≤ lo + start.toNat ∧ lo + start.toNat + (size.toNat + (align.toNat - 1) + 8) ≤ lo + s.offset.toNat := hreg
  have e8 : (8#64).toNat = 8 := rfl
  have e1 : (s.bbegin + start).toNat = lo + start.toNat := by
    rw [toNat_add_lt (by rw [h.beg]; omega), h.beg]
  have e2 : (s.bbegin + start + 8#64).toNat = lo + start.toNat + 8 := by
    rw [toNat_add_lt (by rw [e1, e8]; omega), e1, e8]
  have e3 : (alignUp (s.bbegin + start + 8#64) align).toNat = alignUpN (lo + start.toNat + 8) align.toNat := by
    rw [toNat_alignUp hpow (by rw [e2]; omega), e2]
  have hge := alignUpN_ge (lo + start.toNat + 8) align.toNat hapos
  have hle := alignUpN_le (lo + start.toNat + 8) align.toNat
  have hdv := alignUpN_dvd (lo + start.toNat + 8) align.toNat
  rw [← e3] at hge hle hdv
  unfold store
  simp only
  generalize hpd : alignUp (s.bbegin + start + 8#64) align = p at *
  by_cases hin : s.bbegin.toNat + 8 ≤ p.toNat ∧ p.toNat ≤ s.bend.toNat
  · rw [if_neg (fun e => e hin)]
    have hslt : (p - (s.bbegin + start + 8#64)).slt align = true := by
      have e4 : (p - (s.bbegin + start + 8#64)).toNat = p.toNat - (lo + start.toNat + 8) := by
        rw [BitVec.toNat_sub_of_le (by rw [BitVec.le_def, e2]; exact hge), e2]
      rw [BitVec.slt_iff_toInt_lt, BitVec.toInt_eq_toNat_of_lt (by rw [e4]; omega), BitVec.toInt_eq_toNat_of_lt (by omega), e4]
      omega
    rw [ccAssert_true hslt, R.ok_bind]
    have e5 : (p + size).toNat = p.toNat + size.toNat := toNat_add_lt (by omega)
    by_cases hfit : p + size ≤ s.bend
    · left
      have hfit' : p.toNat + size.toNat ≤ hi := by rw [BitVec.le_def, e5, h.fin] at hfit; exact hfit
      rw [ccAssert_true (decide_eq_true hfit), R.ok_bind]
      have hlow : lo + 8 ≤ p.toNat := by omega
      have hb : BlockOk lo hi (write64 s.mem (p.toNat - 8) size) { addr := p.toNat, size := size.toNat, align := align.toNat } :=
        { low := hlow, high := hfit', aligned := hdv,
          header := by rw [show ({ addr := p.toNat, size := size.toNat, align := align.toNat } : Block).addr - 8 = p.toNat - 8 from rfl, read64_write]
                       exact BitVec.eq_of_toNat_eq (by rw [toNat_ofNat_lt size.isLt]) }
      have hextb : (ext { addr := p.toNat, size := size.toNat, align := align.toNat }).addr = p.toNat - 8 := rfl
      have hexts : (ext { addr := p.toNat, size := size.toNat, align := align.toNat }).size = size.toNat + 8 := rfl
      have honly : Only s.mem (write64 s.mem (p.toNat - 8) size) (region lo size align start) := by
        intro x hx
        refine (write64_out ?_).symm
        change ¬ (lo + start.toNat ≤ x ∧ x < lo + start.toNat + (size.toNat + (align.toNat - 1) + 8)) at hx
        omega
      have hk := others_known h hmem honly
      have hpcs := others_pcs h hmem honly
      have hheld : held lo (s.pc t) = region lo size align start :: optExt old := by rw [hpc]; rfl
      have hshrink := Sep_shrink (b := ext { addr := p.toNat, size := size.toNat, align := align.toNat }) h.sep hheld
        (by change lo + start.toNat ≤ p.toNat - 8; omega)
        (by change p.toNat - 8 + (size.toNat + 8) ≤ lo + start.toNat + (size.toNat + (align.toNat - 1) + 8); omega)
      have hbb : lo ≤ (ext { addr := p.toNat, size := size.toNat, align := align.toNat }).addr ∧
          (ext { addr := p.toNat, size := size.toNat, align := align.toNat }).addr + (ext { addr := p.toNat, size := size.toNat, align := align.toNat }).size ≤ lo + s.offset.toNat := by
        rw [hextb, hexts]; omega
      cases old with
      | none =>
        refine ⟨_, rfl, ?_, rfl⟩
        exact {
          lo0 := h.lo0
          lohi := h.lohi
          hib := h.hib
          off := h.off
          beg := h.beg
          fin := h.fin
          sep := by
            change Sep _ (fun u => held lo (upd s.pc t _ u))
            rw [held_upd]
            have := Sep_sub (t := t) (G' := ext { addr := p.toNat, size := size.toNat, align := align.toNat } :: s.given.map (fun g => ext g.block)) (L := []) hshrink
              (M := s.given.map (fun g => ext g.block) ++ [ext { addr := p.toNat, size := size.toNat, align := align.toNat }])
              (by rw [List.append_nil]; exact (List.perm_append_singleton _ _).symm)
              (by rw [upd_same]; exact List.Sublist.refl _)
            refine cast (congrArg (Sep _) ?_) this
            funext u
            unfold upd
            split <;> rfl
          below := by
            refine below_upd ?_ (fun u b hb' => h.below u b (List.mem_append_right _ hb'))
            intro b hb'
            rw [List.map_cons, List.cons_append] at hb'
            rcases List.mem_cons.mp hb' with hb' | hb'
            · subst hb'; exact hbb
            · rcases List.mem_append.mp hb' with hb' | hb'
              · exact h.below t b (List.mem_append_left _ hb')
              · cases hb'
          known := fun g hg => by
            rcases List.mem_cons.mp hg with hg | hg
            · subst hg
              exact { ok := hb, val := fun _ _ _ hv => by cases hv }
            · exact hk g hg
          pcs := pcs_upd trivial hpcs }
      | some o =>
        refine ⟨_, rfl, ?_, rfl⟩
        exact {
          lo0 := h.lo0
          lohi := h.lohi
          hib := h.hib
          off := h.off
          beg := h.beg
          fin := h.fin
          sep := by
            change Sep _ (fun u => held lo (upd s.pc t _ u))
            rw [held_upd]
            exact hshrink
          below := by
            refine below_upd ?_ (fun u b hb' => h.below u b (List.mem_append_right _ hb'))
            intro b hb'
            rcases List.mem_append.mp hb' with hb' | hb'
            · exact h.below t b (List.mem_append_left _ hb')
            · rcases List.mem_cons.mp hb' with hb' | hb'
              · subst hb'; exact hbb
              · exact h.below t b (List.mem_append_right _ (by rw [hheld]; exact List.mem_cons_of_mem _ hb'))
          known := hk
          pcs := by
            refine pcs_upd ⟨hb, ?_⟩ hpcs
            have he : (_ ++ held lo (s.pc t)).Pairwise _ := h.sep.each t
            rw [hheld] at he
            have := (List.pairwise_cons.mp (List.pairwise_append.mp he).2.1).1 (ext o.block) (by simp [optExt])
            exact Known_congr (hold o rfl) (Same_of_Only honly this) }
    · right
      have hfit' : ¬ p.toNat + size.toNat ≤ hi := by rw [BitVec.le_def, e5, h.fin] at hfit; exact hfit
      rw [ccAssert_false (decide_eq_false hfit), R.error_bind]
      refine ⟨⟨_, rfl⟩, ?_⟩
      omega
  · right
    rw [if_pos hin]
    refine ⟨⟨_, rfl⟩, ?_⟩
    rw [h.beg, h.fin] at hin
    omega

theorem copy_ok {lo hi : Nat} {s : State} (h : Inv lo hi s) {t : Nat} {new : Block} {old : Owned} (hpc : s.pc t = .copy new old) :
    ∃ s', copyStep s t new old = .ok s' ∧ Inv lo hi s' ∧ s'.offset = s.offset := by
  have hp := h.pcs t
  rw [hpc] at hp
  obtain ⟨hb, hk⟩ := hp
  have hhib := h.hib
  have h1 := hb.low
  have h2 := hb.high
  have h3 := hk.ok.low
  have h4 := hk.ok.high
  have hsz : copySize s new old = min old.block.size new.size := by
    unfold copySize getSize
    rw [hk.ok.header, toNat_ofNat_lt (by omega)]
  have hheld : held lo (s.pc t) = [ext new, ext old.block] := by rw [hpc]; rfl
  have he : (_ ++ held lo (s.pc t)).Pairwise _ := h.sep.each t
  rw [hheld] at he
  have hd : (ext new).Disjoint (ext old.block) := (List.pairwise_cons.mp (List.pairwise_append.mp he).2.1).1 _ (by simp)
  have hd : new.addr - 8 + (new.size + 8) ≤ old.block.addr - 8 ∨ old.block.addr - 8 + (old.block.size + 8) ≤ new.addr - 8 := hd
  unfold copyStep
  simp only
  rw [hsz, h.fin, if_pos ⟨by omega, by omega, by omega⟩]
  refine ⟨_, rfl, ?_, rfl⟩
  have hmem : ext new ∈ held lo (s.pc t) := by rw [hheld]; simp
  have honly : Only s.mem (Alloc.copy s.mem new.addr old.block.addr (min old.block.size new.size)) (ext new) := by
    intro x hx
    refine (copy_out ?_).symm
    change ¬ (new.addr - 8 ≤ x ∧ x < new.addr - 8 + (new.size + 8)) at hx
    omega
  exact {
    lo0 := h.lo0
    lohi := h.lohi
    hib := h.hib
    off := h.off
    beg := h.beg
    fin := h.fin
    sep := by
      change Sep _ (fun u => held lo (upd s.pc t _ u))
      rw [held_upd]
      refine Sep_sub (M := s.given.map (fun g => ext g.block) ++ [ext new]) h.sep ?_ ?_
      · change (ext new :: _ ++ []).Perm _
        rw [List.append_nil]
        exact (List.perm_append_singleton _ _).symm
      · change (_ ++ [ext new]).Sublist (_ ++ held lo (s.pc t))
        rw [hheld]
        exact List.Sublist.append_left (List.Sublist.cons_cons _ (List.nil_sublist _)) _
    below := by
      refine below_upd ?_ (fun u b hb' => h.below u b (List.mem_append_right _ hb'))
      intro b hb'
      rw [List.map_cons, List.cons_append] at hb'
      rcases List.mem_cons.mp hb' with hb' | hb'
      · subst hb'; exact h.below t _ (List.mem_append_right _ hmem)
      · rcases List.mem_append.mp hb' with hb' | hb'
        · exact h.below t b (List.mem_append_left _ hb')
        · cases hb'
    known := fun g hg => by
      rcases List.mem_cons.mp hg with hg | hg
      · subst hg
        refine { ok := ?_, val := ?_ }
        · refine { low := hb.low, high := hb.high, aligned := hb.aligned, header := ?_ }
          change read64 _ (new.addr - 8) = _
          rw [← hb.header]
          exact read64_congr (fun x _ hx2 => copy_out (by omega))
        · intro i hi' v hv
          change (if i < min old.block.size new.size then old.val i else none) = some v at hv
          split at hv
          · rename_i hlt
            change Alloc.copy _ _ _ _ (new.addr + i) = v
            rw [copy_in hlt]
            exact hk.val i (by omega) v hv
          · cases hv
      · exact others_known h hmem honly g hg
    pcs := pcs_upd trivial (others_pcs h hmem honly) }

/-- A call begins: pieces go from the blocks in use to the call, or are dropped. -/
theorem call_ok {lo hi : Nat} {s : State} (h : Inv lo hi s) {t : Nat} (hidle : s.pc t = .idle) {G : List Owned} {p : Pc} {M : List Block}
    (hperm : (G.map (fun g => ext g.block) ++ held lo p).Perm M) (hsub : M.Sublist (s.given.map (fun g => ext g.block)))
    (hG : ∀ g ∈ G, g ∈ s.given) (hp : PcOk lo hi s.mem p) : Inv lo hi { s with given := G, pc := upd s.pc t p } := by
  have hnil : held lo (s.pc t) = [] := by rw [hidle]; rfl
  exact {
    lo0 := h.lo0
    lohi := h.lohi
    hib := h.hib
    off := h.off
    beg := h.beg
    fin := h.fin
    sep := by
      change Sep _ (fun u => held lo (upd s.pc t _ u))
      rw [held_upd]
      exact Sep_sub h.sep hperm (by rw [hnil, List.append_nil]; exact hsub)
    below := by
      refine below_upd ?_ (fun u b hb' => h.below u b (List.mem_append_right _ hb'))
      intro b hb'
      exact h.below t b (List.mem_append_left _ (hsub.subset (hperm.subset hb')))
    known := fun g hg => h.known g (hG g hg)
    pcs := pcs_upd hp (fun u _ => h.pcs u) }

theorem request_ok {size align : Nat} (h : Request size align) :
    (BitVec.ofNat 64 size).toNat ≤ 2 ^ 62 ∧ (BitVec.ofNat 64 align = 0#64 ∨ ReqOk (BitVec.ofNat 64 size) (BitVec.ofNat 64 align)) := by
  have h1 : size ≤ 2 ^ 62 := h.1
  have e : (BitVec.ofNat 64 size).toNat = size := toNat_ofNat_lt (by omega)
  refine ⟨by rw [e]; exact h1, ?_⟩
  rcases h.2 with rfl | ⟨h2, h3⟩
  · exact Or.inl rfl
  · have h3 : align ≤ 2 ^ 62 := h3
    have e' : (BitVec.ofNat 64 align).toNat = align := toNat_ofNat_lt (by omega)
    exact Or.inr ⟨by rw [e]; exact h1, by rw [e']; exact h2, by rw [e']; exact h3⟩

theorem isIdle_iff {p : Pc} : p.isIdle = true ↔ p = .idle := by
  cases p <;> simp [Pc.isIdle]

theorem upd_self {β : Type} (f : Nat → β) (i : Nat) : upd f i (f i) = f := by
  funext j
  unfold upd
  split
  · rename_i e; rw [e]
  · rfl

theorem realloc_ok {lo hi : Nat} {s : State} (h : Inv lo hi s) {t : Nat} (hidle : s.pc t = .idle) {k : Option Nat} {size align : Nat} (hr : Request size align)
    (hk : ∀ i, k = some i → i < s.given.length) : ∃ s', callRealloc s t k size align = .ok s' ∧ Inv lo hi s' ∧ s'.offset = s.offset := by
  obtain ⟨h1, h2⟩ := request_ok hr
  cases k with
  | none =>
    unfold callRealloc
    simp only
    split
    · refine ⟨_, rfl, ?_, rfl⟩
      exact call_ok h hidle (by rw [show held lo (.add _ _ none) = [] from rfl, List.append_nil]) (List.Sublist.refl _) (fun g hg => hg)
        ⟨h1, h2, fun o ho => by cases ho⟩
    · exact ⟨s, rfl, h, rfl⟩
  | some k =>
    have hk := hk k rfl
    unfold callRealloc
    simp only
    rw [List.getElem?_eq_getElem hk]
    simp only
    have hG : ∀ g ∈ s.given.eraseIdx k, g ∈ s.given := fun g hg => List.mem_of_mem_eraseIdx hg
    split
    · refine ⟨_, rfl, ?_, rfl⟩
      refine call_ok h hidle (M := s.given.map (fun g => ext g.block)) ?_ (List.Sublist.refl _) hG ⟨h1, h2, fun o ho => ?_⟩
      · have := (perm_eraseIdx hk).map (fun g => ext g.block)
        refine List.Perm.trans ?_ this
        exact List.perm_append_singleton _ _
      · injection ho with ho
        subst ho
        exact h.known _ (List.getElem_mem hk)
    · refine ⟨_, rfl, ?_, rfl⟩
      have := call_ok h hidle (G := s.given.eraseIdx k) (p := .idle) (List.Perm.refl _)
        (by rw [show held lo .idle = [] from rfl, List.append_nil]; exact (List.eraseIdx_sublist s.given k).map _) hG trivial
      rw [← hidle, upd_self] at this
      exact this

theorem write_ok {lo hi : Nat} {s : State} (h : Inv lo hi s) {x : Nat} {v : BitVec 8} (hx : ∃ g ∈ s.given, g.block.addr ≤ x ∧ x < g.block.addr + g.block.size) :
    Inv lo hi { s with mem := fun y => if y = x then v else s.mem y, given := s.given.map (Owned.write x v) } := by
  obtain ⟨g0, hg0, hx1, hx2⟩ := hx
  have hmap : (s.given.map (Owned.write x v)).map (fun g => ext g.block) = s.given.map (fun g => ext g.block) := by
    rw [List.map_map]
    rfl
  have hlow0 := (h.known g0 hg0).ok.low
  obtain ⟨m', hm⟩ : ∃ m' : Mem, m' = fun y => if y = x then v else s.mem y := ⟨_, rfl⟩
  rw [← hm]
  have hm1 : m' x = v := by rw [hm]; exact if_pos rfl
  have hm2 : ∀ y, y ≠ x → m' y = s.mem y := fun y hy => by rw [hm]; exact if_neg hy
  clear hm
  have honly : Only s.mem m' (ext g0.block) := by
    intro y hy
    refine (hm2 y (fun e => hy ?_)).symm
    rw [e]
    change g0.block.addr - 8 ≤ x ∧ x < g0.block.addr - 8 + (g0.block.size + 8)
    omega
  have m2 : ext g0.block ∈ s.given.map (fun g => ext g.block) := List.mem_map.mpr ⟨g0, hg0, rfl⟩
  have hpcs : ∀ t, PcOk lo hi m' (s.pc t) := fun t => PcOk_congr (h.pcs t) (fun b hb => Same_of_Only honly ((List.pairwise_append.mp (h.sep.each t)).2.2 _ m2 b hb))
  have hkn : ∀ g' ∈ s.given.map (Owned.write x v), Known lo hi m' g' := fun g' hg' => by
    obtain ⟨g, hg, rfl⟩ := List.mem_map.mp hg'
    exact write_known hm1 hm2 (h.known g hg) (not_header h.known (List.pairwise_append.mp (h.sep.each 0)).1 hg0 hg hx1 hx2)
  have hsep : Sep ((s.given.map (Owned.write x v)).map (fun g => ext g.block)) (fun t => held lo (s.pc t)) := by rw [hmap]; exact h.sep
  have hbel : ∀ t, ∀ b ∈ (s.given.map (Owned.write x v)).map (fun g => ext g.block) ++ held lo (s.pc t), lo ≤ b.addr ∧ b.addr + b.size ≤ lo + s.offset.toNat := by
    rw [hmap]; exact h.below
  exact { lo0 := h.lo0, lohi := h.lohi, hib := h.hib, off := h.off, beg := h.beg, fin := h.fin, sep := hsep, below := hbel, known := hkn, pcs := hpcs }

theorem step_alloc (s : State) (t size align : Nat) :
    step s t (.alloc size align) = if (s.pc t).isIdle then .ok { s with pc := upd s.pc t (.add (BitVec.ofNat 64 size) (BitVec.ofNat 64 align) none) } else .ok s := rfl
theorem step_realloc (s : State) (t size align : Nat) (k : Option Nat) :
    step s t (.realloc k size align) = if (s.pc t).isIdle then callRealloc s t k size align else .ok s := rfl
theorem step_write (s : State) (t x : Nat) (v : BitVec 8) :
    step s t (.write x v) = if (s.pc t).isIdle then .ok { s with mem := fun y => if y = x then v else s.mem y, given := s.given.map (Owned.write x v) } else .ok s := rfl
theorem step_reset (s : State) (t : Nat) : step s t .reset = if (s.pc t).isIdle then .ok { s with offset := 0, given := [] } else .ok s := rfl

theorem step_ok {lo hi : Nat} {s : State} (h : Inv lo hi s) {t : Nat} {a : Act} (ha : ActOk s t a) :
    (∃ s', step s t a = .ok s' ∧ Inv lo hi s') ∨ ((∃ e, step s t a = .error e) ∧ hi - lo < s.offset.toNat) := by
  cases a with
  | go =>
    change (∃ s', advance s t (s.pc t) = .ok s' ∧ _) ∨ ((∃ e, advance s t (s.pc t) = .error e) ∧ _)
    cases hpc : s.pc t with
    | idle => exact Or.inl ⟨s, rfl, h⟩
    | add size align old => exact Or.inl (add_ok h hpc (ha size align old hpc))
    | store size align start old =>
      rcases store_ok h hpc with ⟨s', e, h', _⟩ | e
      · exact Or.inl ⟨s', e, h'⟩
      · exact Or.inr e
    | copy new old =>
      obtain ⟨s', e, h', _⟩ := copy_ok h hpc
      exact Or.inl ⟨s', e, h'⟩
  | alloc size align =>
    left
    rw [step_alloc]
    by_cases e : (s.pc t).isIdle = true
    · rw [if_pos e]
      obtain ⟨h1, h2⟩ := request_ok ha
      refine ⟨_, rfl, ?_⟩
      exact call_ok h (isIdle_iff.mp e) (by rw [show held lo (.add _ _ none) = [] from rfl, List.append_nil]) (List.Sublist.refl _) (fun g hg => hg)
        ⟨h1, h2, fun o ho => by cases ho⟩
    · rw [if_neg e]; exact ⟨s, rfl, h⟩
  | realloc k size align =>
    left
    rw [step_realloc]
    by_cases e : (s.pc t).isIdle = true
    · rw [if_pos e]
      obtain ⟨s', e', h', _⟩ := realloc_ok h (isIdle_iff.mp e) ha.1 ha.2
      exact ⟨s', e', h'⟩
    · rw [if_neg e]; exact ⟨s, rfl, h⟩
  | write x v =>
    left
    rw [step_write]
    by_cases e : (s.pc t).isIdle = true
    · rw [if_pos e]
      exact ⟨_, rfl, write_ok h ha⟩
    · rw [if_neg e]; exact ⟨s, rfl, h⟩
  | reset =>
    left
    rw [step_reset]
    by_cases e : (s.pc t).isIdle = true
    · rw [if_pos e]
      refine ⟨_, rfl, ?_⟩
      have hnil : ∀ u, held lo (s.pc u) = [] := fun u => by rw [ha u]; rfl
      exact {
        lo0 := h.lo0
        lohi := h.lohi
        hib := h.hib
        off := by change 0 ≤ _; omega
        beg := h.beg
        fin := h.fin
        sep := { each := fun u => by
                   change ([] ++ held lo (s.pc u)).Pairwise _
                   rw [hnil u]; exact List.Pairwise.nil
                 cross := fun u _ _ b hb => by
                   have hb : b ∈ held lo (s.pc u) := hb
                   rw [hnil u] at hb; cases hb }
        below := fun u b hb => by
          have hb : b ∈ [] ++ held lo (s.pc u) := hb
          rw [hnil u] at hb; cases hb
        known := fun g hg => by cases hg
        pcs := h.pcs }
    · rw [if_neg e]; exact ⟨s, rfl, h⟩

theorem run_ok : ∀ (as : List (Nat × Act)) {lo hi : Nat} {s : State}, Inv lo hi s → Proper s as →
    (∃ s', run s as = .ok s' ∧ Inv lo hi s') ∨
    ((∃ e, run s as = .error e) ∧ ∃ pre s', pre <+: as ∧ run s pre = .ok s' ∧ hi - lo < s'.offset.toNat)
  | [], _, _, s, h, _ => Or.inl ⟨s, rfl, h⟩
  | (t, a) :: as, lo, hi, s, h, hp => by
    rcases step_ok h hp.1 with ⟨s1, e1, h1⟩ | ⟨⟨e, e1⟩, hlt⟩
    · have er : ∀ l, run s ((t, a) :: l) = run s1 l := fun l => by
        change (step s t a >>= fun s => run s l) = _
        rw [e1, R.ok_bind]
      rcases run_ok as h1 (hp.2 s1 e1) with ⟨s2, e2, h2⟩ | ⟨⟨e, e2⟩, pre, s2, hpre, e3, hlt⟩
      · exact Or.inl ⟨s2, by rw [er]; exact e2, h2⟩
      · refine Or.inr ⟨⟨e, by rw [er]; exact e2⟩, (t, a) :: pre, s2, ?_, by rw [er]; exact e3, hlt⟩
        exact List.cons_prefix_cons.mpr ⟨rfl, hpre⟩
    · refine Or.inr ⟨⟨e, ?_⟩, [], s, List.nil_prefix, rfl, hlt⟩
      change (step s t a >>= fun s => run s as) = _
      rw [e1, R.error_bind]

theorem init_ok {data size : Nat} (h0 : 0 < data) (h1 : data + size ≤ 2 ^ 62) (mem : Mem) : Inv data (data + size) (init (BitVec.ofNat 64 data) (BitVec.ofNat 64 size) mem) where
  lo0 := h0
  lohi := by omega
  hib := h1
  off := by change 0 ≤ _; omega
  beg := toNat_ofNat_lt (by omega)
  fin := by
    have a : (BitVec.ofNat 64 data).toNat = data := toNat_ofNat_lt (by omega)
    have b : (BitVec.ofNat 64 size).toNat = size := toNat_ofNat_lt (by omega)
    change (BitVec.ofNat 64 data + BitVec.ofNat 64 size).toNat = _
    rw [toNat_add_lt (by rw [a, b]; omega), a, b]
  sep := { each := fun _ => List.Pairwise.nil, cross := fun _ _ _ _ hb => by cases hb }
  below := fun _ _ hb => by cases hb
  known := fun _ hg => by cases hg
  pcs := fun _ => trivial

/-! ### Theorems -/

/-- For all schedules: either the blocks in use are pairwise disjoint (with their headers), aligned, inside of the buffer, have the sizes that were asked for (`get_allocation_size` returns them), and contain
what was last written to them, also when they were moved by `realloc`; or the schedule ended with an error, and before that more than the whole buffer had been asked for (with the worst case for the alignments). -/
theorem C36_schedules_partial (data size : Nat) (h0 : 0 < data) (h1 : data + size ≤ 2 ^ 62) (mem : Mem) (as : List (Nat × Act))
    (hp : Proper (init (BitVec.ofNat 64 data) (BitVec.ofNat 64 size) mem) as) :
    (∃ s, run (init (BitVec.ofNat 64 data) (BitVec.ofNat 64 size) mem) as = .ok s ∧
      Laid data (data + size) (s.given.map (·.block)) ∧ Laid data (data + size) (s.given.map (fun g => ext g.block)) ∧
      ∀ g ∈ s.given, (getSize s g.block.addr).toNat = g.block.size ∧ ∀ i, i < g.block.size → ∀ v, g.val i = some v → s.mem (g.block.addr + i) = v) ∨
    ((∃ e, run (init (BitVec.ofNat 64 data) (BitVec.ofNat 64 size) mem) as = .error e) ∧
      ∃ pre s, pre <+: as ∧ run (init (BitVec.ofNat 64 data) (BitVec.ofNat 64 size) mem) pre = .ok s ∧ size < s.offset.toNat) := by
  rcases run_ok as (init_ok h0 h1 mem) hp with ⟨s, e, h⟩ | ⟨he, pre, s, hpre, e, hlt⟩
  · left
    refine ⟨s, e, ?_, ?_, ?_⟩
    · refine { inside := ?_, aligned := ?_, apart := ?_ }
      · intro b hb
        obtain ⟨g, hg, rfl⟩ := List.mem_map.mp hb
        have := h.known g hg
        exact ⟨by have := this.ok.low; omega, this.ok.high⟩
      · intro b hb
        obtain ⟨g, hg, rfl⟩ := List.mem_map.mp hb
        exact (h.known g hg).ok.aligned
      · have := (List.pairwise_append.mp (h.sep.each 0)).1
        rw [List.pairwise_map] at this ⊢
        refine List.Pairwise.imp_of_mem ?_ this
        intro a b ha hb hd
        have h3 := (h.known a ha).ok.low
        have h4 := (h.known b hb).ok.low
        have hd : a.block.addr - 8 + (a.block.size + 8) ≤ b.block.addr - 8 ∨ b.block.addr - 8 + (b.block.size + 8) ≤ a.block.addr - 8 := hd
        unfold Block.Disjoint
        omega
    · refine { inside := ?_, aligned := ?_, apart := (List.pairwise_append.mp (h.sep.each 0)).1 }
      · intro b hb
        obtain ⟨g, hg, rfl⟩ := List.mem_map.mp hb
        have h3 := (h.known g hg).ok.low
        have h4 := (h.known g hg).ok.high
        change data ≤ g.block.addr - 8 ∧ g.block.addr - 8 + (g.block.size + 8) ≤ _
        omega
      · intro b hb
        obtain ⟨g, hg, rfl⟩ := List.mem_map.mp hb
        exact Nat.one_dvd _
    · intro g hg
      have hk := h.known g hg
      refine ⟨?_, hk.val⟩
      have := hk.ok.high
      unfold getSize
      rw [hk.ok.header, toNat_ofNat_lt (by omega)]
  · exact Or.inr ⟨he, pre, s, hpre, e, by omega⟩

/-- What a call returns is a block of the size and alignment that were asked for; with the first theorem it is disjoint from all others. Here: the call runs without interruption, in any state. -/
theorem C36_alloc_partial {s s' : State} {t size align : Nat} (hidle : s.pc t = .idle) (hr : Request size align)
    (e : run s [(t, .alloc size align), (t, .go), (t, .go)] = .ok s') :
    ∃ p, s'.given = { block := { addr := p, size := size, align := max align 1 }, val := fun _ => none } :: s.given ∧ ∀ u, s'.pc u = s.pc u := by
  have h1 : size ≤ 2 ^ 62 := hr.1
  have h2 : align ≤ 2 ^ 62 := by
    rcases hr.2 with rfl | h
    · omega
    · exact h.2
  have es : (BitVec.ofNat 64 size).toNat = size := toNat_ofNat_lt (by omega)
  have ea : (BitVec.ofNat 64 align).toNat = align := toNat_ofNat_lt (by omega)
  have em : (atLeastOne (BitVec.ofNat 64 align)).toNat = max align 1 := by
    unfold atLeastOne
    by_cases h : BitVec.ofNat 64 align < 1#64
    · rw [if_pos h]
      rw [BitVec.lt_def, ea] at h
      change align < 1 at h
      change 1 = _
      omega
    · rw [if_neg h, ea]
      rw [BitVec.lt_def, ea] at h
      change ¬ align < 1 at h
      omega
  change (step s t (.alloc size align) >>= fun s => (step s t .go >>= fun s => (step s t .go >>= fun s => .ok s))) = .ok s' at e
  rw [step_alloc, if_pos (isIdle_iff.mpr hidle), R.ok_bind] at e
  obtain ⟨s2, e2, e⟩ := R.bind_eq_ok.mp e
  obtain ⟨s3, e3, e⟩ := R.bind_eq_ok.mp e
  injection e with e
  subst e
  change advance _ t (upd s.pc t _ t) = _ at e2
  rw [upd_same] at e2
  change add _ t _ _ none = _ at e2
  unfold add at e2
  obtain ⟨_, _, e2⟩ := R.bind_eq_ok.mp e2
  injection e2 with e2
  subst e2
  change advance _ t (upd (upd s.pc t _) t _ t) = _ at e3
  rw [upd_same] at e3
  change store _ t _ _ _ none = _ at e3
  unfold store at e3
  simp only at e3
  split at e3
  · cases e3
  · obtain ⟨_, _, e3⟩ := R.bind_eq_ok.mp e3
    obtain ⟨_, _, e3⟩ := R.bind_eq_ok.mp e3
    injection e3 with e3
    subst e3
    refine ⟨(alignUp (s.bbegin + s.offset + 8#64) (atLeastOne (BitVec.ofNat 64 align))).toNat, ?_, ?_⟩
    · change _ :: s.given = _
      rw [es, em]
    · intro u
      change upd (upd (upd s.pc t _) t _) t .idle u = s.pc u
      by_cases e : u = t
      · subst e; rw [upd_same, hidle]
      · rw [upd_other _ _ e, upd_other _ _ e, upd_other _ _ e]

/-! ### Where it fails -/

/-- The header is stored before the bound is checked: an `alloc` that does not fit writes outside of the buffer instead of failing the assertion. -/
theorem C36_overcommit_writes_outside :
    (run (init 0x1000#64 20#64 (fun _ => 0)) [(0, .alloc 8 1), (0, .go), (0, .go), (1, .alloc 8 1), (1, .go), (1, .go)]).map (fun s => s.given.length) = .error .ub := by
  decide +kernel

/-- A request near 2^64 wraps around and is accepted; the next block overlaps the first. -/
theorem C36_huge_request_accepted :
    (run (init 0x1000#64 64#64 (fun _ => 0)) [(0, .alloc 16 1), (0, .go), (0, .go), (1, .alloc (2 ^ 64 - 24) 1), (1, .go), (1, .go), (2, .alloc 8 1), (2, .go), (2, .go)]).map
      (fun s => s.given.map (·.block)) = .ok [⟨0x1010, 8, 1⟩, ⟨0x1020, 2 ^ 64 - 24, 1⟩, ⟨0x1008, 16, 1⟩] := by
  decide +kernel

/-! ### Examples -/

def requestB (size align : Nat) : Bool := decide (size ≤ 2 ^ 62) && (decide (align = 0) || (List.range 63).any (fun k => decide (align = 2 ^ k)))

theorem requestB_sound {size align : Nat} (h : requestB size align = true) : Request size align := by
  unfold requestB at h
  rw [Bool.and_eq_true, Bool.or_eq_true] at h
  have h1 : size ≤ 2 ^ 62 := of_decide_eq_true h.1
  refine ⟨h1, ?_⟩
  rcases h.2 with h | h
  · exact Or.inl (of_decide_eq_true h)
  · obtain ⟨k, hk, e⟩ := List.any_eq_true.mp h
    have e := of_decide_eq_true e
    subst e
    have := List.mem_range.mp hk
    exact Or.inr ⟨⟨k, rfl⟩, Nat.pow_le_pow_right (by decide) (by omega)⟩

def actOkB (s : State) (t : Nat) : Act → Bool
  | .alloc size align => requestB size align
  | .realloc none size align => requestB size align
  | .realloc (some k) size align => requestB size align && decide (k < s.given.length)
  | .write x _ => s.given.any (fun g => decide (g.block.addr ≤ x) && decide (x < g.block.addr + g.block.size))
  | .reset => false
  | .go => match s.pc t with
    | .add size align _ => decide (s.offset.toNat + size.toNat + align.toNat + 8 ≤ 2 ^ 62)
    | _ => true

theorem actOkB_sound {s : State} {t : Nat} {a : Act} (h : actOkB s t a = true) : ActOk s t a := by
  cases a with
  | alloc size align => exact requestB_sound h
  | realloc k size align =>
    cases k with
    | none => exact ⟨requestB_sound h, fun i hi => by cases hi⟩
    | some k =>
      have h := Bool.and_eq_true_iff.mp h
      exact ⟨requestB_sound h.1, fun i hi => by injection hi with hi; subst hi; exact of_decide_eq_true h.2⟩
  | write x v =>
    obtain ⟨g, hg, h⟩ := List.any_eq_true.mp h
    have h := Bool.and_eq_true_iff.mp h
    exact ⟨g, hg, of_decide_eq_true h.1, of_decide_eq_true h.2⟩
  | reset => cases h
  | go =>
    intro size align old hpc
    change (match s.pc t with | .add size align _ => decide (s.offset.toNat + size.toNat + align.toNat + 8 ≤ 2 ^ 62) | _ => true) = true at h
    rw [hpc] at h
    exact of_decide_eq_true h

def properB (s : State) : List (Nat × Act) → Bool
  | [] => true
  | (t, a) :: as => actOkB s t a && match step s t a with
    | .ok s => properB s as
    | .error _ => true

theorem properB_sound : ∀ {as : List (Nat × Act)} {s : State}, properB s as = true → Proper s as
  | [], _, _ => trivial
  | (t, a) :: as, s, h => by
    have h := Bool.and_eq_true_iff.mp h
    refine ⟨actOkB_sound h.1, fun s' e => properB_sound ?_⟩
    have h2 := h.2
    rw [e] at h2
    exact h2

/-- Three threads whose steps interleave; thread 0 writes to its block and has it moved while thread 2 writes to its own. -/
def demo : List (Nat × Act) :=
  [(0, .alloc 3 1), (1, .alloc 10 16), (2, .alloc 4 4), (1, .go), (0, .go), (2, .go), (2, .go), (0, .go), (1, .go),
   (0, .write 0x102a 7#8), (0, .realloc (some 1) 6 8), (2, .write 0x1034 9#8), (0, .go), (2, .write 0x1035 1#8), (0, .go), (0, .go)]

example : (run (init 0x1000#64 128#64 (fun _ => 0xff)) demo).map (fun s => (s.given.map (·.block), (List.range 3).map (fun i => s.mem (0x1048 + i)), s.mem 0x1034)) =
    .ok ([⟨0x1048, 6, 8⟩, ⟨0x1010, 10, 16⟩, ⟨0x1034, 4, 4⟩], [0xff#8, 7#8, 0xff#8], 9#8) := by decide +kernel

example : Proper (init 0x1000#64 128#64 (fun _ => 0xff)) demo := properB_sound (by decide +kernel)

/-- Headers are not aligned for `size_t` when small alignments are asked for. -/
example : (run (init 0x1000#64 64#64 (fun _ => 0)) [(0, .alloc 1 1), (0, .go), (0, .go), (0, .alloc 1 1), (0, .go), (0, .go)]).map (fun s => s.given.map (fun g => (g.block.addr - 8) % 8)) = .ok [1, 0] := by
  decide +kernel

end Verif.Alloc.AtomicLinear
