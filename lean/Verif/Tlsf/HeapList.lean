import Verif.Tlsf.HeapPrim
/-!
# The free lists
-/
namespace Verif.Tlsf
open Spec

variable {C : Cfg} {P : Nat → Prop} {m0 : Nat → Nat} {s : St} {pre post : List Blk} {b n p : Blk}

/-! ### Bits -/

theorem bit_set (w : BitVec 32) {j : Nat} (hj : j < 32) (k : Nat) :
    (w ||| 1#32 <<< j).getLsbD k = (w.getLsbD k || decide (k = j)) := by
  rw [BitVec.getLsbD_or, BitVec.getLsbD_shiftLeft]
  congr 1
  by_cases e : k = j
  · subst e; simp [hj]
  · rw [decide_eq_false e]
    by_cases h1 : k < 32
    · by_cases h2 : k < j
      · simp [h2]
      · have : ¬ k - j = 0 := by omega
        simp [BitVec.getLsbD_one, this]
    · simp [h1]

theorem bit_clr (w : BitVec 32) {j : Nat} (hj : j < 32) (k : Nat) :
    (w &&& ~~~(1#32 <<< j)).getLsbD k = (w.getLsbD k && !decide (k = j)) := by
  by_cases h1 : k < 32
  · rw [BitVec.getLsbD_and, BitVec.getLsbD_not, BitVec.getLsbD_shiftLeft]
    congr 1
    by_cases e : k = j
    · subst e; simp [hj]
    · rw [decide_eq_false e]
      by_cases h2 : k < j
      · simp [h2, h1]
      · have : ¬ k - j = 0 := by omega
        simp [BitVec.getLsbD_one, this, h1]
  · rw [BitVec.getLsbD_of_ge _ _ (by omega), BitVec.getLsbD_of_ge w k (by omega)]
    rfl

theorem bv_ne_zero {w : BitVec 32} : w ≠ 0#32 ↔ ∃ k, k < 32 ∧ w.getLsbD k = true := by
  constructor
  · intro h
    have hlt := w.isLt
    by_cases hex : ∃ k, k < 32 ∧ w.getLsbD k = true
    · exact hex
    · exfalso
      apply h
      apply BitVec.eq_of_getLsbD_eq
      intro i hi
      rw [BitVec.getLsbD_zero]
      cases hv : w.getLsbD i with
      | false => rfl
      | true => exact absurd ⟨i, hi, hv⟩ hex
  · rintro ⟨k, hk, h⟩ e
    rw [e, BitVec.getLsbD_zero] at h
    cases h

/-! ### Doubly linked lists -/

theorem dll_mid {m : Nat → Nat} {ctl x : Nat} {l1 l2 : List Nat} {q : Nat} (h : DLL m ctl q (l1 ++ x :: l2)) :
    m (x + 24) = l1.getLastD q ∧ m (x + 16) = l2.headD ctl := by
  induction l1 generalizing q with
  | nil => exact ⟨h.1, h.2.1⟩
  | cons z t ih =>
    have := ih h.2.2
    rw [List.getLastD_cons]
    exact this

theorem dll_remove {m m' : Nat → Nat} {ctl x : Nat} {l1 l2 : List Nat} {q : Nat} (h : DLL m ctl q (l1 ++ x :: l2))
    (nd : (l1 ++ x :: l2).Nodup)
    (hn : ∀ y, l2.head? = some y → m' (y + 24) = l1.getLastD q)
    (hp : ∀ y, l1.getLast? = some y → m' (y + 16) = l2.headD ctl)
    (h1 : ∀ y ∈ l1, l1.getLast? ≠ some y → m' (y + 16) = m (y + 16))
    (h2 : ∀ y ∈ l1, m' (y + 24) = m (y + 24))
    (h3 : ∀ y ∈ l2, m' (y + 16) = m (y + 16))
    (h4 : ∀ y ∈ l2, l2.head? ≠ some y → m' (y + 24) = m (y + 24)) : DLL m' ctl q (l1 ++ l2) := by
  induction l1 generalizing q with
  | nil =>
    have hd := h.2.2
    have nd' : l2.Nodup := by
      have := (List.nodup_cons.mp nd).2
      exact this
    cases l2 with
    | nil => trivial
    | cons y t =>
      refine ⟨hn y rfl, (h3 y List.mem_cons_self).trans hd.2.1, ?_⟩
      refine DLL_congr hd.2.2 fun z hz => ⟨h3 z (List.mem_cons_of_mem _ hz), h4 z (List.mem_cons_of_mem _ hz) ?_⟩
      intro e
      have e : y = z := by simpa using e
      subst e
      exact (List.nodup_cons.mp nd').1 hz
  | cons z t ih =>
    obtain ⟨a, b, c⟩ := h
    have nd2 := List.nodup_cons.mp nd
    refine ⟨(h2 z List.mem_cons_self).trans a, ?_, ?_⟩
    · cases t with
      | nil => exact hp z rfl
      | cons w t' =>
        have e : m' (z + 16) = m (z + 16) := by
          refine h1 z List.mem_cons_self ?_
          rw [List.getLast?_cons_cons]
          intro e
          exact nd2.1 (List.mem_append_left _ (List.mem_of_getLast? e))
        rw [e, b]
        rfl
    · refine ih c nd2.2 ?_ ?_ ?_ ?_
      · intro y hy
        have := hn y hy
        rw [List.getLastD_cons] at this
        exact this
      · intro y hy
        cases t with
        | nil => cases hy
        | cons w t' => exact hp y (by rw [List.getLast?_cons_cons]; exact hy)
      · intro y hy hne
        refine h1 y (List.mem_cons_of_mem _ hy) ?_
        cases t with
        | nil => cases hy
        | cons w t' => rw [List.getLast?_cons_cons]; exact hne
      · intro y hy
        exact h2 y (List.mem_cons_of_mem _ hy)

/-! ### The blocks of the lists -/

theorem blk_unique {L : List Blk} (h : L.Pairwise Sep) {x y : Blk} (hx : x ∈ L) (hy : y ∈ L) (e : x.addr = y.addr) : x = y := by
  induction L with
  | nil => cases hx
  | cons z t ih =>
    obtain ⟨h1, h2⟩ := List.pairwise_cons.mp h
    rcases List.mem_cons.mp hx with ex | hx <;> rcases List.mem_cons.mp hy with ey | hy
    · rw [ex, ey]
    · exfalso
      have := h1 y hy
      rw [← ex] at this
      unfold Sep at this
      omega
    · exfalso
      have := h1 x hx
      rw [← ey] at this
      unfold Sep at this
      omega
    · exact ih h2 hx hy

theorem blk_sep {L : List Blk} (h : L.Pairwise Sep) {x y : Blk} (hx : x ∈ L) (hy : y ∈ L) (e : x.addr ≠ y.addr) : Sep x y := by
  induction L with
  | nil => cases hx
  | cons z t ih =>
    obtain ⟨h1, h2⟩ := List.pairwise_cons.mp h
    rcases List.mem_cons.mp hx with ex | hx <;> rcases List.mem_cons.mp hy with ey | hy
    · exact absurd (by rw [ex, ey]) e
    · rw [ex]; exact h1 y hy
    · rw [ey]; exact (h1 x hx).symm
    · exact ih h2 hx hy

/-- The members of the lists are apart. -/
theorem far {L : List Blk} {F : Nat → Nat → List Nat} (h : H C P m0 s L) (hF : Lists C s L F) {i j i' j' x y : Nat} (hi : i < 25) (hj : j < 32)
    (hi' : i' < 25) (hj' : j' < 32) (hx : x ∈ F i j) (hy : y ∈ F i' j') (e : x ≠ y) : x + 32 ≤ y ∨ y + 32 ≤ x := by
  obtain ⟨bx, hbx, rfl, lx, _⟩ := (hF.mem i j x hi hj).mp hx
  obtain ⟨by', hby, rfl, ly, _⟩ := (hF.mem i' j' y hi' hj').mp hy
  have kx := h.blk bx hbx
  have ky := h.blk by' hby
  have := kx.fr (kx.lst lx)
  have := ky.fr (ky.lst ly)
  have := kx.min
  have := ky.min
  have := blk_sep h.sep hbx hby e
  unfold Sep at this
  omega

theorem far_ctl {L : List Blk} {F : Nat → Nat → List Nat} (h : H C P m0 s L) (hF : Lists C s L F) {i j x : Nat} (hi : i < 25) (hj : j < 32)
    (hx : x ∈ F i j) : x + 40 ≤ C.ctl ∨ C.ctl + 24 ≤ x := by
  obtain ⟨bx, hbx, rfl, lx, _⟩ := (hF.mem i j x hi hj).mp hx
  have kx := h.blk bx hbx
  have := kx.fr (kx.lst lx)
  have := kx.min
  have := kx.ctl
  omega

theorem class_of_mem {L : List Blk} {F : Nat → Nat → List Nat} (h : H C P m0 s L) (hF : Lists C s L F) {i j i' j' x : Nat} (hi : i < 25)
    (hj : j < 32) (hi' : i' < 25) (hj' : j' < 32) (hx : x ∈ F i j) (hy : x ∈ F i' j') : i = i' ∧ j = j' := by
  obtain ⟨bx, hbx, rfl, lx, cx⟩ := (hF.mem i j x hi hj).mp hx
  obtain ⟨by', hby, e, ly, cy⟩ := (hF.mem i' j' bx.addr hi' hj').mp hy
  have := blk_unique h.sep hby hbx e
  subst this
  exact inClass_unique hj hj' cx cy

/-- A field of a list: a word that belongs to a free block or to the null block. -/
def Fld (C : Cfg) (L : List Blk) (a : Nat) : Prop :=
  (∃ x ∈ L, x.free = true ∧ (a = x.addr + 16 ∨ a = x.addr + 24)) ∨ a = C.ctl + 16 ∨ a = C.ctl + 24

theorem fld_ok {L : List Blk} (h : H C P m0 s L) {a : Nat} (ha : Fld C L a) : a % 8 = 0 ∧ C.ok a = true ∧ ¬ P a := by
  rcases ha with ⟨x, hx, hf, e⟩ | e | e
  · have k := h.blk x hx
    have := k.al
    have := k.fr hf
    have := k.min
    refine ⟨by omega, k.ok a (by omega) (by omega), k.q hf a (by omega) (by omega)⟩
  · have := h.cal
    rw [e]
    exact ⟨by omega, h.cok.1, h.cq.1⟩
  · have := h.cal
    rw [e]
    exact ⟨by omega, h.cok.2, h.cq.2⟩

/-- Writing such words does not change what is known about the blocks. -/
theorem blk_fields {L : List Blk} (h : H C P m0 s L) {m' : Nat → Nat} (hm : ∀ a, ¬ Fld C L a → m' a = s.mem a) :
    ∀ x ∈ L, BOk C P m' x := by
  intro x hx
  have k := h.blk x hx
  have hnf : ∀ a, (a = x.addr + 8 ∨ (x.size ≠ 0 ∧ a = x.addr + 8 + x.size)) → ¬ Fld C L a := by
    intro a ha hf
    have := k.min
    rcases hf with ⟨y, hy, hf, e⟩ | hc
    · have ky := h.blk y hy
      have := ky.fr hf
      have := ky.min
      by_cases exy : x.addr = y.addr
      · have := blk_unique h.sep hx hy exy
        subst this
        omega
      · have := blk_sep h.sep hx hy exy
        unfold Sep at this
        omega
    · have := k.ctl
      omega
  refine ⟨k.al, k.sal, k.min, k.pos, k.lo, k.hi0, k.hi, k.rng, k.top, k.ok, k.ctl, ?_, ?_, k.lst, k.fr, k.qh, k.q⟩
  · rw [hm _ (hnf _ (Or.inl rfl))]; exact k.hdr
  · intro hl
    obtain ⟨l1, l2⟩ := k.lnk hl
    exact ⟨l1, (hm _ (hnf _ (Or.inr ⟨l1, rfl⟩))).trans l2⟩

/-- A block is taken off the lists or put on them. -/
theorem H_listed (h : H C P m0 s (pre ++ b :: post)) {s' : St} (v : Bool) (hv : v = true → b.free = true)
    (hm : ∀ a, ¬ Fld C (pre ++ b :: post) a → s'.mem a = s.mem a)
    (hl : ∃ F, Lists C s' (pre ++ { b with listed := v } :: post) F) : H C P m0 s' (pre ++ { b with listed := v } :: post) := by
  have hb := blk_fields h hm
  refine ⟨h.cpos, h.cal, h.cok, h.cq, ?_, ?_, ?_, ?_, hl⟩
  · intro x hx
    rw [List.mem_append, List.mem_cons] at hx
    rcases hx with hx | hx | hx
    · exact hb x (by simp [hx])
    · have k := hb b (by simp)
      rw [hx]
      exact ⟨k.al, k.sal, k.min, k.pos, k.lo, k.hi0, k.hi, k.rng, k.top, k.ok, k.ctl, k.hdr, k.lnk, hv, k.fr, k.qh, k.q⟩
    · exact hb x (by simp [hx])
  · have hs := h.sep
    rw [List.pairwise_append, List.pairwise_cons] at hs ⊢
    obtain ⟨s1, ⟨s2, s3⟩, s4⟩ := hs
    refine ⟨s1, ⟨s2, s3⟩, ?_⟩
    intro x hx y hy
    rcases List.mem_cons.mp hy with hy | hy
    · rw [hy]; exact s4 x hx b List.mem_cons_self
    · exact s4 x hx y (List.mem_cons_of_mem _ hy)
  · obtain ⟨e1, t1, t2⟩ := tile_append.mp h.tile
    exact tile_append.mpr ⟨e1, t1, t2⟩
  · intro a ha
    refine (hm a fun hf => (fld_ok h hf).2.2 ha).trans (h.keep a ha)

theorem head_mem_or {l : List Nat} {c : Nat} : l.headD c ∈ l ∨ l = [] ∧ l.headD c = c := by
  cases l with
  | nil => exact Or.inr ⟨rfl, rfl⟩
  | cons x t => exact Or.inl List.mem_cons_self

theorem last_mem_or {l : List Nat} {c : Nat} : (l.getLastD c ∈ l ∧ l.getLast? = some (l.getLastD c)) ∨ l = [] ∧ l.getLastD c = c := by
  cases l with
  | nil => exact Or.inr ⟨rfl, rfl⟩
  | cons x t =>
    refine Or.inl ⟨?_, ?_⟩
    · rw [List.getLastD_eq_getLast?]
      cases e : (x :: t).getLast? with
      | none => simp at e
      | some y => exact List.mem_of_getLast? e
    · rw [List.getLastD_eq_getLast?]
      cases e : (x :: t).getLast? with
      | none => simp at e
      | some y => rfl

/-- `remove_free_block`. -/
theorem removeFree_ok (h : H C P m0 s (pre ++ b :: post)) (hb : b.listed = true) {i j : Nat} (hi : i < 25) (hj : j < 32)
    (hc : InClass i j b.size) :
    ∃ s', removeFree C s b.addr i j = .ok s' ∧ H C P m0 s' (pre ++ { b with listed := false } :: post) := by
  obtain ⟨F, hF⟩ := h.lists
  have k := h.mid
  have hbF : b.addr ∈ F i j := (hF.mem i j _ hi hj).mpr ⟨b, by simp, rfl, hb, hc⟩
  obtain ⟨l1, l2, hl⟩ := List.append_of_mem hbF
  have hdll := hF.dll i j hi hj
  have hnd := hF.nd i j hi hj
  rw [hl] at hdll hnd
  obtain ⟨d1, d2⟩ := dll_mid hdll
  have hbfr := k.lst hb
  have hb0 := k.fr hbfr
  have hal := k.al
  have hmin := k.min
  have hpos : ∀ x ∈ F i j, x ≠ 0 ∧ x ≠ C.ctl := by
    intro x hx
    refine ⟨?_, ?_⟩
    · obtain ⟨bx, hbx, rfl, _⟩ := (hF.mem i j x hi hj).mp hx
      have := (h.blk bx hbx).pos
      omega
    · have := far_ctl h hF hi hj hx
      omega
  generalize hp : l1.getLastD C.ctl = pp at d1
  generalize hn : l2.headD C.ctl = nn at d2
  have hpin : (pp ∈ l1 ∧ l1.getLast? = some pp) ∨ (l1 = [] ∧ pp = C.ctl) := by
    rw [← hp]; exact last_mem_or
  have hnin : nn ∈ l2 ∨ (l2 = [] ∧ nn = C.ctl) := by
    rw [← hn]; exact head_mem_or
  have hl1F : ∀ x ∈ l1, x ∈ F i j := fun x hx => by rw [hl]; simp [hx]
  have hl2F : ∀ x ∈ l2, x ∈ F i j := fun x hx => by rw [hl]; simp [hx]
  have hp0 : pp ≠ 0 := by
    rcases hpin with ⟨a, _⟩ | ⟨_, a⟩
    · exact (hpos pp (hl1F _ a)).1
    · rw [a]; exact h.cpos
  have hn0 : nn ≠ 0 := by
    rcases hnin with a | ⟨_, a⟩
    · exact (hpos nn (hl2F _ a)).1
    · rw [a]; exact h.cpos
  have fldOf : ∀ x ∈ F i j, Fld C (pre ++ b :: post) (x + 16) ∧ Fld C (pre ++ b :: post) (x + 24) := by
    intro x hx
    obtain ⟨bx, hbx, rfl, lx, _⟩ := (hF.mem i j x hi hj).mp hx
    have := (h.blk bx hbx).lst lx
    exact ⟨Or.inl ⟨bx, hbx, this, Or.inl rfl⟩, Or.inl ⟨bx, hbx, this, Or.inr rfl⟩⟩
  have hpf : Fld C (pre ++ b :: post) (pp + 16) := by
    rcases hpin with ⟨a, _⟩ | ⟨_, a⟩
    · exact (fldOf pp (hl1F _ a)).1
    · rw [a]; exact Or.inr (Or.inl rfl)
  have hnf : Fld C (pre ++ b :: post) (nn + 24) := by
    rcases hnin with a | ⟨_, a⟩
    · exact (fldOf nn (hl2F _ a)).2
    · rw [a]; exact Or.inr (Or.inr rfl)
  unfold removeFree
  rw [ld_ok (by omega) (k.ok _ (by omega) (by omega)), R.ok_bind, ld_ok (by omega) (k.ok _ (by omega) (by omega)), R.ok_bind, d1, d2,
    ccAssert_true (decide_eq_true hp0), R.ok_bind, ccAssert_true (decide_eq_true hn0), R.ok_bind,
    sto_ok (fld_ok h hnf).1 (fld_ok h hnf).2.1, R.ok_bind, sto_ok (fld_ok h hpf).1 (fld_ok h hpf).2.1, R.ok_bind]
  dsimp only
  generalize hm' : updM (updM s.mem (nn + 24) pp) (pp + 16) nn = m'
  have hmne : ∀ a, a ≠ pp + 16 → a ≠ nn + 24 → m' a = s.mem a := by
    intro a h1 h2
    rw [← hm', updM_ne h1, updM_ne h2]
  have hmf : ∀ a, ¬ Fld C (pre ++ b :: post) a → m' a = s.mem a := by
    intro a ha
    exact hmne a (fun e => ha (e ▸ hpf)) (fun e => ha (e ▸ hnf))
  -- members of the same list
  have ndl := List.nodup_append.mp hnd
  have ndl2 := List.nodup_cons.mp ndl.2.1
  have ne12 : ∀ x ∈ l1, ∀ y ∈ l2, x ≠ y := fun x hx y hy => ndl.2.2 x hx y (List.mem_cons_of_mem _ hy)
  have hfar : ∀ x ∈ F i j, ∀ y ∈ F i j, x ≠ y → x + 32 ≤ y ∨ y + 32 ≤ x := fun x hx y hy e => far h hF hi hj hi hj hx hy e
  have hfc : ∀ x ∈ F i j, x + 40 ≤ C.ctl ∨ C.ctl + 24 ≤ x := fun x hx => far_ctl h hF hi hj hx
  have hdll' : DLL m' C.ctl C.ctl (l1 ++ l2) := by
    refine dll_remove hdll hnd ?_ ?_ ?_ ?_ ?_ ?_
    · intro y hy
      have hy2 : y ∈ l2 := List.mem_of_mem_head? hy
      have e : nn = y := by
        rw [← hn, List.headD_eq_head?_getD, hy]; rfl
      rw [← hm', hp, e]
      rw [updM_ne ?_, updM_same]
      rcases hpin with ⟨a, _⟩ | ⟨_, a⟩
      · have := hfar pp (hl1F _ a) y (hl2F _ hy2) (ne12 _ a _ hy2)
        omega
      · have := hfc y (hl2F _ hy2)
        omega
    · intro y hy
      have e : pp = y := by
        rw [← hp, List.getLastD_eq_getLast?, hy]; rfl
      rw [← hm', e, updM_same, hn]
    · intro y hy hne
      refine hmne _ ?_ ?_
      · intro e
        rcases hpin with ⟨_, a⟩ | ⟨a, _⟩
        · exact hne (by rw [a]; congr 1; omega)
        · rw [a] at hy; cases hy
      · rcases hnin with a | ⟨_, a⟩
        · have := hfar y (hl1F _ hy) nn (hl2F _ a) (ne12 _ hy _ a)
          omega
        · have := hfc y (hl1F _ hy)
          omega
    · intro y hy
      refine hmne _ ?_ ?_
      · rcases hpin with ⟨a, _⟩ | ⟨a, _⟩
        · by_cases e : y = pp
          · omega
          · have := hfar y (hl1F _ hy) pp (hl1F _ a) e
            omega
        · rw [a] at hy; cases hy
      · rcases hnin with a | ⟨_, a⟩
        · have := ne12 _ hy _ a
          omega
        · have := hfc y (hl1F _ hy)
          omega
    · intro y hy
      refine hmne _ ?_ ?_
      · rcases hpin with ⟨a, _⟩ | ⟨_, a⟩
        · have := ne12 _ a _ hy
          omega
        · have := hfc y (hl2F _ hy)
          omega
      · rcases hnin with a | ⟨a, _⟩
        · by_cases e : y = nn
          · omega
          · have := hfar y (hl2F _ hy) nn (hl2F _ a) e
            omega
        · rw [a] at hy; cases hy
    · intro y hy hne
      refine hmne _ ?_ ?_
      · rcases hpin with ⟨a, _⟩ | ⟨_, a⟩
        · have := hfar pp (hl1F _ a) y (hl2F _ hy) (ne12 _ a _ hy)
          omega
        · have := hfc y (hl2F _ hy)
          omega
      · intro e
        have e : y = nn := by omega
        apply hne
        rw [e, ← hn]
        cases l2 with
        | nil => cases hy
        | cons z t => rfl
  have hdo : ∀ i' j', i' < 25 → j' < 32 → ¬ (i' = i ∧ j' = j) → DLL m' C.ctl C.ctl (F i' j') := by
    intro i' j' hi' hj' hne
    refine DLL_congr (hF.dll i' j' hi' hj') fun y hy => ?_
    have hyne : ∀ x ∈ F i j, x ≠ y := by
      intro x hx e
      subst e
      exact hne (class_of_mem h hF hi' hj' hi hj hy hx)
    have hyc := far_ctl h hF hi' hj' hy
    have a1 : pp + 32 ≤ y ∨ y + 32 ≤ pp ∨ pp = C.ctl := by
      rcases hpin with ⟨a, _⟩ | ⟨_, a⟩
      · have := far h hF hi hj hi' hj' (hl1F _ a) hy (hyne _ (hl1F _ a))
        omega
      · exact Or.inr (Or.inr a)
    have a2 : nn + 32 ≤ y ∨ y + 32 ≤ nn ∨ nn = C.ctl := by
      rcases hnin with a | ⟨_, a⟩
      · have := far h hF hi hj hi' hj' (hl2F _ a) hy (hyne _ (hl2F _ a))
        omega
      · exact Or.inr (Or.inr a)
    exact ⟨hmne _ (by omega) (by omega), hmne _ (by omega) (by omega)⟩
  let F' : Nat → Nat → List Nat := fun i' j' => if i' = i ∧ j' = j then l1 ++ l2 else F i' j'
  have hF1 : F' i j = l1 ++ l2 := if_pos ⟨rfl, rfl⟩
  have hF2 : ∀ i' j', ¬ (i' = i ∧ j' = j) → F' i' j' = F i' j' := fun i' j' e => if_neg e
  have hdllF : ∀ i' j', i' < 25 → j' < 32 → DLL m' C.ctl C.ctl (F' i' j') := by
    intro i' j' hi' hj'
    by_cases e : i' = i ∧ j' = j
    · rw [e.1, e.2, hF1]; exact hdll'
    · rw [hF2 _ _ e]; exact hdo i' j' hi' hj' e
  have hndF : ∀ i' j', i' < 25 → j' < 32 → (F' i' j').Nodup := by
    intro i' j' hi' hj'
    by_cases e : i' = i ∧ j' = j
    · rw [e.1, e.2, hF1]
      rw [List.nodup_append]
      exact ⟨ndl.1, ndl2.2, ne12⟩
    · rw [hF2 _ _ e]; exact hF.nd i' j' hi' hj'
  have hmemF : ∀ i' j' x, i' < 25 → j' < 32 → (x ∈ F' i' j' ↔
      ∃ y ∈ pre ++ { b with listed := false } :: post, y.addr = x ∧ y.listed = true ∧ InClass i' j' y.size) := by
    intro i' j' x hi' hj'
    have key : x ∈ F' i' j' ↔ x ∈ F i' j' ∧ x ≠ b.addr := by
      by_cases e : i' = i ∧ j' = j
      · rw [e.1, e.2, hF1, hl]
        simp only [List.mem_append, List.mem_cons]
        constructor
        · rintro (hx | hx)
          · exact ⟨Or.inl hx, ndl.2.2 x hx _ List.mem_cons_self⟩
          · refine ⟨Or.inr (Or.inr hx), fun e => ?_⟩
            exact ndl2.1 (e ▸ hx)
        · rintro ⟨hx | hx | hx, hne⟩
          · exact Or.inl hx
          · exact absurd hx hne
          · exact Or.inr hx
      · rw [hF2 _ _ e]
        refine ⟨fun hx => ⟨hx, fun ex => ?_⟩, fun hx => hx.1⟩
        subst ex
        exact e (class_of_mem h hF hi' hj' hi hj hx hbF)
    rw [key, hF.mem i' j' x hi' hj']
    constructor
    · rintro ⟨⟨y, hy, e1, e2, e3⟩, hne⟩
      refine ⟨y, ?_, e1, e2, e3⟩
      rw [List.mem_append, List.mem_cons] at hy ⊢
      rcases hy with hy | hy | hy
      · exact Or.inl hy
      · rw [hy] at e1; exact absurd e1.symm hne
      · exact Or.inr (Or.inr hy)
    · rintro ⟨y, hy, e1, e2, e3⟩
      rw [List.mem_append, List.mem_cons] at hy
      have hyL : y ∈ pre ++ post := by
        rw [List.mem_append]
        rcases hy with hy | hy | hy
        · exact Or.inl hy
        · rw [hy] at e2; cases e2
        · exact Or.inr hy
      refine ⟨⟨y, ?_, e1, e2, e3⟩, ?_⟩
      · rw [List.mem_append] at hyL
        rcases hyL with a | a <;> simp [a]
      · have := h.out y hyL
        omega
  by_cases hhead : s.heads i j = b.addr
  · rw [if_pos hhead]
    have hl1 : l1 = [] := by
      have e := hF.hd i j hi hj
      rw [hhead, hl] at e
      cases l1 with
      | nil => rfl
      | cons z t =>
        have e : b.addr = z := e
        exact absurd e.symm (ndl.2.2 z List.mem_cons_self _ List.mem_cons_self)
    subst hl1
    have hheads : ∀ i' j', i' < 25 → j' < 32 → updH s.heads i j nn i' j' = (F' i' j').headD C.ctl := by
      intro i' j' hi' hj'
      unfold updH
      by_cases e : i' = i ∧ j' = j
      · rw [if_pos e, e.1, e.2, hF1, ← hn]; rfl
      · rw [if_neg e, hF2 _ _ e]; exact hF.hd i' j' hi' hj'
    by_cases hnc : nn = C.ctl
    · rw [if_pos hnc]
      have hl2 : l2 = [] := by
        rcases hnin with a | ⟨a, _⟩
        · exact absurd hnc (hpos nn (hl2F _ a)).2
        · exact a
      subst hl2
      have hslb : ∀ i' j', i' < 25 → j' < 32 → ((updS s.sl i (s.sl i &&& ~~~(1#32 <<< j)) i').getLsbD j' = true ↔ F' i' j' ≠ []) := by
        intro i' j' hi' hj'
        unfold updS
        by_cases ei : i' = i
        · rw [if_pos ei, bit_clr _ hj]
          by_cases ej : j' = j
          · rw [ei, ej, hF1]; simp
          · rw [decide_eq_false ej, hF2 _ _ (fun e => ej e.2), ei]
            rw [← hF.slb i j' hi hj']
            simp
        · rw [if_neg ei, hF2 _ _ (fun e => ei e.1)]
          exact hF.slb i' j' hi' hj'
      have hupd : updS s.sl i (s.sl i &&& ~~~(1#32 <<< j)) i = s.sl i &&& ~~~(1#32 <<< j) := if_pos rfl
      by_cases hz : updS s.sl i (s.sl i &&& ~~~(1#32 <<< j)) i = 0#32
      · rw [if_pos hz]
        refine ⟨_, rfl, H_listed h false (fun e => nomatch e) hmf ⟨F', hheads, hdllF, hndF, hmemF, hslb, ?_, ?_⟩⟩
        · intro i' hi'
          dsimp only
          rw [bit_clr _ (by omega)]
          by_cases ei : i' = i
          · rw [ei, hz]; simp
          · rw [decide_eq_false ei]
            have : updS s.sl i (s.sl i &&& ~~~(1#32 <<< j)) i' = s.sl i' := if_neg ei
            rw [this, ← hF.flb i' hi']
            simp
        · intro i' hi'
          dsimp only
          rw [bit_clr _ (by omega), hF.flhi i' hi']
          rfl
      · rw [if_neg hz]
        refine ⟨_, rfl, H_listed h false (fun e => nomatch e) hmf ⟨F', hheads, hdllF, hndF, hmemF, hslb, ?_, hF.flhi⟩⟩
        intro i' hi'
        dsimp only
        rw [hF.flb i' hi']
        by_cases ei : i' = i
        · rw [ei]
          refine ⟨fun _ => hz, fun _ e => ?_⟩
          have := (hF.slb i j hi hj).mpr (by rw [hl]; simp)
          rw [e] at this
          simp at this
        · have : updS s.sl i (s.sl i &&& ~~~(1#32 <<< j)) i' = s.sl i' := if_neg ei
          rw [this]
    · rw [if_neg hnc]
      refine ⟨_, rfl, H_listed h false (fun e => nomatch e) hmf ⟨F', hheads, hdllF, hndF, hmemF, ?_, hF.flb, hF.flhi⟩⟩
      intro i' j' hi' hj'
      dsimp only
      rw [hF.slb i' j' hi' hj']
      by_cases e : i' = i ∧ j' = j
      · rw [e.1, e.2, hF1, hl]
        rcases hnin with a | ⟨_, a⟩
        · refine ⟨fun _ e => ?_, fun _ => by simp⟩
          have e : l2 = [] := e
          rw [e] at a; cases a
        · exact absurd a hnc
      · rw [hF2 _ _ e]
  · rw [if_neg hhead]
    have hl1 : l1 ≠ [] := by
      intro e
      apply hhead
      rw [hF.hd i j hi hj, hl, e]
      rfl
    obtain ⟨z, t, hzt⟩ := List.exists_cons_of_ne_nil hl1
    refine ⟨_, rfl, H_listed h false (fun e => nomatch e) hmf ⟨F', ?_, hdllF, hndF, hmemF, ?_, hF.flb, hF.flhi⟩⟩
    · intro i' j' hi' hj'
      dsimp only
      rw [hF.hd i' j' hi' hj']
      by_cases e : i' = i ∧ j' = j
      · rw [e.1, e.2, hF1, hl, hzt]; rfl
      · rw [hF2 _ _ e]
    · intro i' j' hi' hj'
      dsimp only
      rw [hF.slb i' j' hi' hj']
      by_cases e : i' = i ∧ j' = j
      · rw [e.1, e.2, hF1, hl, hzt]; simp
      · rw [hF2 _ _ e]

/-- `insert_free_block`. -/
theorem insertFree_ok (h : H C P m0 s (pre ++ b :: post)) (hb : b.listed = false) (hfr : b.free = true) {i j : Nat} (hi : i < 25) (hj : j < 32)
    (hc : InClass i j b.size) :
    ∃ s', insertFree C s b.addr i j = .ok s' ∧ H C P m0 s' (pre ++ { b with listed := true } :: post) := by
  obtain ⟨F, hF⟩ := h.lists
  have k := h.mid
  have hb0 := k.fr hfr
  have hal := k.al
  have hmin := k.min
  have hbpos := k.pos
  have hbc := k.ctl
  have hbL : b ∈ pre ++ b :: post := by simp
  -- the new block is apart from the members of the lists
  have hbfar : ∀ i' j' x, i' < 25 → j' < 32 → x ∈ F i' j' → x ≠ b.addr ∧ (x + 32 ≤ b.addr ∨ b.addr + 32 ≤ x) := by
    intro i' j' x hi' hj' hx
    obtain ⟨bx, hbx, rfl, lx, _⟩ := (hF.mem i' j' x hi' hj').mp hx
    have hne : bx.addr ≠ b.addr := by
      intro e
      have := blk_unique h.sep hbx hbL e
      rw [this, hb] at lx
      cases lx
    have kx := h.blk bx hbx
    have := kx.fr (kx.lst lx)
    have := kx.min
    have := blk_sep h.sep hbx hbL hne
    unfold Sep at this
    exact ⟨hne, by omega⟩
  have hhd := hF.hd i j hi hj
  generalize hcc : s.heads i j = c at hhd
  have hcin : c ∈ F i j ∨ (F i j = [] ∧ c = C.ctl) := by
    rw [hhd]; exact head_mem_or
  have hc0 : c ≠ 0 := by
    rcases hcin with a | ⟨_, a⟩
    · obtain ⟨bx, hbx, e, _⟩ := (hF.mem i j c hi hj).mp a
      have := (h.blk bx hbx).pos
      omega
    · rw [a]; exact h.cpos
  have hcf : Fld C (pre ++ b :: post) (c + 24) := by
    rcases hcin with a | ⟨_, a⟩
    · obtain ⟨bx, hbx, rfl, lx, _⟩ := (hF.mem i j c hi hj).mp a
      exact Or.inl ⟨bx, hbx, (h.blk bx hbx).lst lx, Or.inr rfl⟩
    · rw [a]; exact Or.inr (Or.inr rfl)
  have hf1 : Fld C (pre ++ b :: post) (b.addr + 16) := Or.inl ⟨b, hbL, hfr, Or.inl rfl⟩
  have hf2 : Fld C (pre ++ b :: post) (b.addr + 24) := Or.inl ⟨b, hbL, hfr, Or.inr rfl⟩
  unfold insertFree
  rw [hcc]
  dsimp only
  rw [ccAssert_true (decide_eq_true hc0), R.ok_bind, ccAssert_true (decide_eq_true (show b.addr ≠ 0 by omega)), R.ok_bind,
    sto_ok (fld_ok h hf1).1 (fld_ok h hf1).2.1, R.ok_bind, sto_ok (fld_ok h hf2).1 (fld_ok h hf2).2.1, R.ok_bind,
    sto_ok (fld_ok h hcf).1 (fld_ok h hcf).2.1, R.ok_bind, ccAssert_true (decide_eq_true (by omega)), R.ok_bind]
  dsimp only
  generalize hm' : updM (updM (updM s.mem (b.addr + 16) c) (b.addr + 24) C.ctl) (c + 24) b.addr = m'
  have hmne : ∀ a, a ≠ b.addr + 16 → a ≠ b.addr + 24 → a ≠ c + 24 → m' a = s.mem a := by
    intro a h1 h2 h3
    rw [← hm', updM_ne h3, updM_ne h2, updM_ne h1]
  have hmf : ∀ a, ¬ Fld C (pre ++ b :: post) a → m' a = s.mem a := by
    intro a ha
    exact hmne a (fun e => ha (e ▸ hf1)) (fun e => ha (e ▸ hf2)) (fun e => ha (e ▸ hcf))
  have hcb : c + 24 ≠ b.addr + 16 ∧ c + 24 ≠ b.addr + 24 := by
    rcases hcin with a | ⟨_, a⟩
    · have := hbfar i j c hi hj a
      omega
    · omega
  let F' : Nat → Nat → List Nat := fun i' j' => if i' = i ∧ j' = j then b.addr :: F i j else F i' j'
  have hF1 : F' i j = b.addr :: F i j := if_pos ⟨rfl, rfl⟩
  have hF2 : ∀ i' j', ¬ (i' = i ∧ j' = j) → F' i' j' = F i' j' := fun i' j' e => if_neg e
  refine ⟨_, rfl, H_listed h true (fun _ => hfr) hmf ⟨F', ?_, ?_, ?_, ?_, ?_, ?_, ?_⟩⟩
  · intro i' j' hi' hj'
    dsimp only
    unfold updH
    by_cases e : i' = i ∧ j' = j
    · rw [if_pos e, e.1, e.2, hF1]; rfl
    · rw [if_neg e, hF2 _ _ e]; exact hF.hd i' j' hi' hj'
  · intro i' j' hi' hj'
    dsimp only
    by_cases e : i' = i ∧ j' = j
    · rw [e.1, e.2, hF1]
      refine ⟨?_, ?_, ?_⟩
      · rw [← hm', updM_ne (fun e => hcb.2 e.symm), updM_same]
      · rw [← hm', updM_ne (fun e => hcb.1 e.symm), updM_ne (by omega), updM_same]
        exact hhd
      · have hd := hF.dll i j hi hj
        have hfa := fun x hx => hbfar i j x hi hj hx
        have hfar := fun x hx y hy (e : x ≠ y) => far h hF hi hj hi hj (x := x) (y := y) hx hy e
        have hnd := hF.nd i j hi hj
        have hfc := fun x hx => far_ctl h hF hi hj (x := x) hx
        revert hd hfa hfar hnd hhd hfc hcin
        generalize F i j = l
        intro hhd hcin hd hfa hfar hnd hfc
        cases l with
        | nil => trivial
        | cons x t =>
          have ec : c = x := hhd
          subst ec
          have hx := hfa c List.mem_cons_self
          refine ⟨?_, ?_, ?_⟩
          · rw [← hm', updM_same]
          · rw [hmne _ (by omega) (by omega) (by omega)]; exact hd.2.1
          · refine DLL_congr hd.2.2 fun y hy => ?_
            have h1 := hfa y (List.mem_cons_of_mem _ hy)
            have hne : c ≠ y := fun e => (List.nodup_cons.mp hnd).1 (e ▸ hy)
            have h2 := hfar c List.mem_cons_self y (List.mem_cons_of_mem _ hy) hne
            exact ⟨hmne _ (by omega) (by omega) (by omega), hmne _ (by omega) (by omega) (by omega)⟩
    · rw [hF2 _ _ e]
      refine DLL_congr (hF.dll i' j' hi' hj') fun y hy => ?_
      have h1 := hbfar i' j' y hi' hj' hy
      have h3 := far_ctl h hF hi' hj' hy
      have h2 : c + 32 ≤ y ∨ y + 32 ≤ c ∨ c = C.ctl := by
        rcases hcin with a | ⟨_, a⟩
        · have hne : c ≠ y := by
            intro ec
            subst ec
            exact e (class_of_mem h hF hi' hj' hi hj hy a)
          have := far h hF hi hj hi' hj' a hy hne
          omega
        · exact Or.inr (Or.inr a)
      exact ⟨hmne _ (by omega) (by omega) (by omega), hmne _ (by omega) (by omega) (by omega)⟩
  · intro i' j' hi' hj'
    by_cases e : i' = i ∧ j' = j
    · rw [e.1, e.2, hF1, List.nodup_cons]
      exact ⟨fun hx => (hbfar i j _ hi hj hx).1 rfl, hF.nd i j hi hj⟩
    · rw [hF2 _ _ e]; exact hF.nd i' j' hi' hj'
  · intro i' j' x hi' hj'
    have key : x ∈ F' i' j' ↔ x ∈ F i' j' ∨ (x = b.addr ∧ InClass i' j' b.size) := by
      by_cases e : i' = i ∧ j' = j
      · rw [e.1, e.2, hF1, List.mem_cons]
        constructor
        · rintro (hx | hx)
          · exact Or.inr ⟨hx, hc⟩
          · exact Or.inl hx
        · rintro (hx | ⟨hx, _⟩)
          · exact Or.inr hx
          · exact Or.inl hx
      · rw [hF2 _ _ e]
        refine ⟨Or.inl, ?_⟩
        rintro (hx | ⟨_, hx⟩)
        · exact hx
        · exact absurd (inClass_unique hj' hj hx hc) e
    rw [key, hF.mem i' j' x hi' hj']
    constructor
    · rintro (⟨y, hy, e1, e2, e3⟩ | ⟨hx, hcl⟩)
      · refine ⟨y, ?_, e1, e2, e3⟩
        rw [List.mem_append, List.mem_cons] at hy ⊢
        rcases hy with hy | hy | hy
        · exact Or.inl hy
        · rw [hy, hb] at e2; cases e2
        · exact Or.inr (Or.inr hy)
      · exact ⟨{ b with listed := true }, by simp, hx.symm, rfl, hcl⟩
    · rintro ⟨y, hy, e1, e2, e3⟩
      rw [List.mem_append, List.mem_cons] at hy
      rcases hy with hy | hy | hy
      · exact Or.inl ⟨y, by simp [hy], e1, e2, e3⟩
      · refine Or.inr ?_
        rw [hy] at e1 e3
        exact ⟨e1.symm, e3⟩
      · exact Or.inl ⟨y, by simp [hy], e1, e2, e3⟩
  · intro i' j' hi' hj'
    dsimp only
    unfold updS
    by_cases ei : i' = i
    · rw [if_pos ei, bit_set _ hj, ei]
      by_cases ej : j' = j
      · rw [ej, hF1]; simp
      · rw [decide_eq_false ej, hF2 _ _ (fun e => ej e.2), ← hF.slb i j' hi hj']
        simp
    · rw [if_neg ei, hF2 _ _ (fun e => ei e.1)]
      exact hF.slb i' j' hi' hj'
  · intro i' hi'
    dsimp only
    unfold updS
    rw [bit_set _ (by omega)]
    by_cases ei : i' = i
    · rw [if_pos ei, ei]
      refine ⟨fun _ => ?_, fun _ => by simp⟩
      rw [bv_ne_zero]
      exact ⟨j, hj, by rw [bit_set _ hj]; simp⟩
    · rw [if_neg ei, decide_eq_false ei, ← hF.flb i' hi']
      simp
  · intro i' hi'
    dsimp only
    rw [bit_set _ (by omega), hF.flhi i' hi', decide_eq_false (by omega)]
    rfl

/-! ### The class of a block -/

theorem BOk.lt {m : Nat → Nat} (k : BOk C P m b) : b.size < 2 ^ 32 := by
  have := k.lo
  have := k.rng
  by_cases e : b.size = 0
  · omega
  · have := k.hi e
    omega

theorem classOf_ok (k : BOk C P s.mem b) : ∃ i j, classOf C s b.addr = .ok (i, j) ∧ i < 25 ∧ j < 32 ∧ InClass i j b.size := by
  have hlt := k.lt
  have hn : (BitVec.ofNat 64 b.size).toNat = b.size := by
    rw [BitVec.toNat_ofNat]; apply Nat.mod_eq_of_lt; omega
  obtain ⟨fl, sl, e, h1, h2, h3⟩ := C39_insert (BitVec.ofNat 64 b.size) (by rw [hn]; exact hlt)
  rw [hn] at h3
  refine ⟨fl, sl, ?_, h1, h2, h3⟩
  unfold classOf
  rw [ld_hdr k, R.ok_bind, wSize_hdr k.sal, e, R.ok_bind]
  unfold idx
  dsimp only
  rw [if_pos (by omega)]
  rfl

theorem blockRemove_ok (h : H C P m0 s (pre ++ b :: post)) (hb : b.listed = true) :
    ∃ s', blockRemove C s b.addr = .ok s' ∧ H C P m0 s' (pre ++ { b with listed := false } :: post) := by
  obtain ⟨i, j, e, h1, h2, h3⟩ := classOf_ok h.mid
  unfold blockRemove
  rw [e, R.ok_bind]
  exact removeFree_ok h hb h1 h2 h3

theorem blockInsert_ok (h : H C P m0 s (pre ++ b :: post)) (hb : b.listed = false) (hfr : b.free = true) :
    ∃ s', blockInsert C s b.addr = .ok s' ∧ H C P m0 s' (pre ++ { b with listed := true } :: post) := by
  obtain ⟨i, j, e, h1, h2, h3⟩ := classOf_ok h.mid
  unfold blockInsert
  rw [e, R.ok_bind]
  exact insertFree_ok h hb hfr h1 h2 h3

end Verif.Tlsf
