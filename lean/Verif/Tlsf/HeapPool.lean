import Verif.Tlsf.HeapRealloc
/-!
# Setting up the heap
-/
namespace Verif.Tlsf
open Spec

variable {C : Cfg} {P : Nat → Prop} {m0 : Nat → Nat} {s : St} {pre post L : List Blk} {b n p : Blk}

/-- The state with one word changed. -/
def poke (s : St) (a v : Nat) : St := { s with mem := updM s.mem a v }

theorem updM_comm {m : Nat → Nat} {a v x w : Nat} (h : x ≠ a) : updM (updM m a v) x w = updM (updM m x w) a v := by
  funext y
  unfold updM
  by_cases h1 : y = x
  · subst h1; simp [h]
  · simp [h1]

theorem updM_twice {m : Nat → Nat} {a v w : Nat} : updM (updM m a v) a w = updM m a w := by
  funext y
  unfold updM
  by_cases h : y = a <;> simp [h]

theorem ld_poke {a v x : Nat} (h : x ≠ a) : ld C (poke s a v) x = ld C s x := by
  unfold ld poke
  dsimp only
  rw [updM_ne h]

theorem sto_poke {a v x w : Nat} (h : x ≠ a) : sto C (poke s a v) x w = (sto C s x w).map fun t => poke t a v := by
  unfold sto
  by_cases hc : x % 8 = 0 ∧ C.ok x = true
  · rw [if_pos hc, if_pos hc]
    unfold poke
    dsimp only [Except.map]
    rw [updM_comm h]
  · rw [if_neg hc, if_neg hc]
    rfl

theorem insertFree_poke {a v x i j : Nat} (h1 : x + 16 ≠ a) (h2 : x + 24 ≠ a) (h3 : s.heads i j + 24 ≠ a) {t : St}
    (e : insertFree C (poke s a v) x i j = .ok t) : ∃ t', insertFree C s x i j = .ok t' ∧ t = poke t' a v := by
  unfold insertFree at e ⊢
  dsimp only at e ⊢
  change (do
    ccAssert (decide (s.heads i j ≠ 0))
    ccAssert (decide (x ≠ 0))
    let s1 ← sto C (poke s a v) (x + 16) (s.heads i j)
    let s2 ← sto C s1 (x + 24) C.ctl
    let s3 ← sto C s2 (s.heads i j + 24) x
    ccAssert (decide ((x + 16) % 8 = 0))
    pure { s3 with heads := updH s3.heads i j x, fl := s3.fl ||| (1#32 <<< i), sl := updS s3.sl i (s3.sl i ||| (1#32 <<< j)) }) = _ at e
  obtain ⟨_, c1, e⟩ := R.bind_eq_ok.mp e
  rw [c1, R.ok_bind]
  obtain ⟨_, c2, e⟩ := R.bind_eq_ok.mp e
  rw [c2, R.ok_bind]
  obtain ⟨s1, d1, e⟩ := R.bind_eq_ok.mp e
  rw [sto_poke h1] at d1
  cases f1 : sto C s (x + 16) (s.heads i j) with
  | error q => rw [f1] at d1; cases d1
  | ok t1 =>
    rw [f1] at d1
    cases d1
    rw [R.ok_bind]
    obtain ⟨s2, d2, e⟩ := R.bind_eq_ok.mp e
    rw [sto_poke h2] at d2
    cases f2 : sto C t1 (x + 24) C.ctl with
    | error q => rw [f2] at d2; cases d2
    | ok t2 =>
      rw [f2] at d2
      cases d2
      rw [R.ok_bind]
      obtain ⟨s3, d3, e⟩ := R.bind_eq_ok.mp e
      rw [sto_poke h3] at d3
      cases f3 : sto C t2 (s.heads i j + 24) x with
      | error q => rw [f3] at d3; cases d3
      | ok t3 =>
        rw [f3] at d3
        cases d3
        rw [R.ok_bind]
        obtain ⟨_, c3, e⟩ := R.bind_eq_ok.mp e
        rw [c3, R.ok_bind]
        cases e
        exact ⟨_, rfl, rfl⟩

theorem blockInsert_poke {a v x : Nat} (h0 : x + 8 ≠ a) (h1 : x + 16 ≠ a) (h2 : x + 24 ≠ a) (h3 : ∀ i j, i < 25 → j < 32 → s.heads i j + 24 ≠ a) {t : St}
    (e : blockInsert C (poke s a v) x = .ok t) : ∃ t', blockInsert C s x = .ok t' ∧ t = poke t' a v := by
  unfold blockInsert at e ⊢
  obtain ⟨c, d, e⟩ := R.bind_eq_ok.mp e
  have d' : classOf C s x = .ok c := by
    unfold classOf at d ⊢
    rw [ld_poke h0] at d
    exact d
  rw [d', R.ok_bind]
  refine insertFree_poke h1 h2 (h3 _ _ ?_ ?_) e
  all_goals
    unfold classOf at d
    obtain ⟨_, _, d⟩ := R.bind_eq_ok.mp d
    obtain ⟨q, _, d⟩ := R.bind_eq_ok.mp d
    unfold idx at d
    split at d
    · cases d; dsimp only; omega
    · cases d

theorem linkNext_poke {a v x y : Nat} (h0 : x + 8 ≠ a) (h1 : y ≠ a) {t : St}
    (e : linkNext C (poke s a v) x = .ok (t, y)) : ∃ t', linkNext C s x = .ok (t', y) ∧ t = poke t' a v := by
  unfold linkNext at e ⊢
  obtain ⟨c, d, e⟩ := R.bind_eq_ok.mp e
  have d' : blockNext C s x = .ok c := by
    unfold blockNext at d ⊢
    rw [ld_poke h0] at d
    exact d
  rw [d', R.ok_bind]
  obtain ⟨t1, d1, e⟩ := R.bind_eq_ok.mp e
  cases e
  rw [sto_poke h1] at d1
  cases f : sto C s y x with
  | error q => rw [f] at d1; cases d1
  | ok t2 =>
    rw [f] at d1
    cases d1
    exact ⟨_, rfl, rfl⟩

/-- The heads of the lists are blocks, or the null block. -/
theorem heads_far (h : H C P m0 s L) {i j : Nat} (hi : i < 25) (hj : j < 32) : s.heads i j = C.ctl ∨ ∃ x ∈ L, s.heads i j = x.addr ∧ 24 ≤ x.size := by
  obtain ⟨F, hF⟩ := h.lists
  rw [hF.hd i j hi hj]
  cases e : F i j with
  | nil => exact Or.inl rfl
  | cons y t =>
    right
    obtain ⟨x, hx, rfl, hl, _⟩ := (hF.mem i j y hi hj).mp (by rw [e]; exact List.mem_cons_self)
    have k := h.blk x hx
    have := k.fr (k.lst hl)
    have := k.min
    exact ⟨x, hx, rfl, by omega⟩

/-- The memory of a pool that can be added: `b` is the address of its first block, `z` the size of it. -/
structure PoolMem (C : Cfg) (base z : Nat) : Prop where
  al : base % 8 = 0
  pos : 8 < base
  zal : z % 8 = 0
  zmin : 24 ≤ z
  zmax : z < 2 ^ 32
  top : base + z + 16 ≤ 2 ^ 64
  ok : ∀ a, base ≤ a → a < base + z + 16 → C.ok a = true
  ctl : base + z + 16 ≤ C.ctl ∨ C.ctl + 32 ≤ base

theorem modW_any {C : Cfg} {s : St} {b : Nat} {f : Nat → Nat} (h1 : (b + 8) % 8 = 0) (h2 : C.ok (b + 8) = true) :
    modW C s b f = .ok (poke s (b + 8) (f (s.mem (b + 8)))) := by
  unfold modW
  rw [ld_ok h1 h2, R.ok_bind, sto_ok h1 h2]
  rfl

theorem poke_twice {s : St} {a v w : Nat} : poke (poke s a v) a w = poke s a w := by
  unfold poke
  dsimp only
  rw [updM_twice]

theorem poke_mem {s : St} {a v : Nat} : (poke s a v).mem a = v := updM_same _ _ _

theorem addPool_ok (h : H C P m0 s L) (g : Good false L) {base : Nat} {bytes : BitVec 64} {z : BitVec 64} (hz : poolBytes bytes = .ok (some z))
    (hm : PoolMem C base z.toNat) (hL : ∀ x ∈ L, x.addr + 16 + x.size ≤ base ∨ base + z.toNat + 16 ≤ x.addr + 8)
    (hP : ∀ a, base ≤ a → a < base + z.toNat + 16 → ¬ P a) :
    ∃ s' L', addPool C s base bytes = .ok (s', true) ∧ H C P m0 s' L' ∧ Good false L' ∧ used L' = used L ∧
      pools L' = (base - 8, base + z.toNat) :: pools L := by
  obtain ⟨al, pos, zal, zmin, zmax, top, ok, ctl⟩ := hm
  have he : addPool C s base bytes = (do
      let s ← modW C s (base - 8) fun w => wSetSize w z.toNat
      let s ← modW C s (base - 8) wSetFree
      let s ← modW C s (base - 8) wSetPrevUsed
      let s ← blockInsert C s (base - 8)
      let (s, n) ← linkNext C s (base - 8)
      let s ← modW C s n fun w => wSetSize w 0
      let s ← modW C s n wSetUsed
      let s ← modW C s n wSetPrevFree
      pure (s, true)) := by
    unfold addPool
    rw [hz, R.ok_bind, if_neg (by omega)]
  rw [he]
  clear he hz
  generalize z.toNat = n at *
  have hb8 : base - 8 + 8 = base := by omega
  have hokb : C.ok base = true := ok _ (by omega) (by omega)
  have hokn : C.ok (base + n + 8) = true := ok _ (by omega) (by omega)
  rw [modW_any (by omega) (by rw [hb8]; exact hokb), R.ok_bind, modW_any (by omega) (by rw [hb8]; exact hokb), R.ok_bind,
    modW_any (by omega) (by rw [hb8]; exact hokb), R.ok_bind, poke_mem, poke_mem, poke_twice, poke_twice, hb8]
  have hw : wSetPrevUsed (wSetFree (wSetSize (s.mem base) n)) = n + 1 := by
    unfold wSetPrevUsed wSetFree wSetSize
    omega
  rw [hw]
  -- the state in which the sentinel is there already
  let B : Blk := ⟨base - 8, n, true, false, false, false, base - 8, base + n⟩
  let E : Blk := ⟨base + n, 0, false, true, false, false, base - 8, base + n⟩
  have hs : H C P m0 (poke (poke s base (n + 1)) (base + n + 8) 2) ([] ++ B :: (E :: L)) := by
    refine H_replace' (s := s) (m' := updM (updM s.mem base (n + 1)) (base + n + 8) 2) (pre := []) (mid := []) (mid' := [B, E]) (post := L) (A := base) (Z := base + n + 16) h hL ctl ?_ ?_ ?_ ?_ ?_ ?_ ?_ ?_ ?_
    · intro x hx
      rcases List.mem_cons.mp hx with rfl | hx
      · change base ≤ base - 8 + 8 ∧ base - 8 + 16 + n ≤ _
        omega
      · rw [List.mem_singleton.mp hx]
        change base ≤ base + n + 8 ∧ base + n + 16 + 0 ≤ _
        omega
    · intro a ha
      rw [updM_ne (by omega)]
      exact updM_ne (by omega)
    · intro a ha
      have n1 : a ≠ base + n + 8 := by rintro rfl; exact hP _ (by omega) (by omega) ha
      have n2 : a ≠ base := by rintro rfl; exact hP _ (by omega) (by omega) ha
      rw [updM_ne n1]
      exact updM_ne n2
    · intro x hx
      rcases List.mem_cons.mp hx with rfl | hx
      · refine ⟨?_, zal, Or.inr zmin, ?_, Nat.le_refl _, ?_, ?_, ?_, ?_, ?_, ?_, ?_, fun e => (nomatch e), fun e => (nomatch e), ?_, ?_, ?_⟩
        · change (base - 8) % 8 = 0; omega
        · change 0 < base - 8; omega
        · intro e; change n = 0 at e; omega
        · intro _; change base - 8 + 8 + n ≤ base + n; omega
        · change base + n ≤ base - 8 + _; omega
        · change base + n + 16 ≤ _; omega
        · intro a a1 a2
          change base - 8 + 8 ≤ a at a1
          change a < base - 8 + 16 + n at a2
          exact ok a (by omega) (by omega)
        · change base - 8 + 16 + n ≤ _ ∨ _ ≤ base - 8 + 8; omega
        · change updM (updM s.mem base (n + 1)) (base + n + 8) 2 (base - 8 + 8) = n + 1 + 2 * 0
          rw [hb8, updM_ne (by omega), updM_same]
        · intro _; change n ≠ 0; omega
        · change ¬ P (base - 8 + 8)
          exact hP _ (by omega) (by omega)
        · intro _ a a1 a2
          change base - 8 + 8 ≤ a at a1
          change a < base - 8 + 16 + n at a2
          exact hP a (by omega) (by omega)
      · rw [List.mem_singleton.mp hx]
        refine ⟨?_, rfl, Or.inl rfl, ?_, ?_, ?_, ?_, ?_, ?_, ?_, ?_, ?_, fun e => (nomatch e), fun e => (nomatch e), fun e => (nomatch e), ?_, fun e => (nomatch e)⟩
        · change (base + n) % 8 = 0; omega
        · change 0 < base + n; omega
        · change base - 8 ≤ base + n; omega
        · intro _; rfl
        · intro e; exact absurd rfl e
        · change base + n ≤ base - 8 + _; omega
        · change base + n + 16 ≤ _; omega
        · intro a a1 a2
          change base + n + 8 ≤ a at a1
          change a < base + n + 16 + 0 at a2
          exact ok a (by omega) (by omega)
        · change base + n + 16 + 0 ≤ _ ∨ _ ≤ base + n + 8; omega
        · exact updM_same _ _ _
        · change ¬ P (base + n + 8)
          exact hP _ (by omega) (by omega)
    · refine List.pairwise_cons.mpr ⟨fun x hx => ?_, List.pairwise_singleton _ _⟩
      rw [List.mem_singleton.mp hx]
      left
      change base - 8 + 16 + n ≤ base + n + 8
      omega
    · refine ⟨fun v e => (nomatch e), fun _ => rfl, ?_⟩
      have e1 : B.nxt = some (base - 8 + 8 + n, base - 8, base + n) := if_neg (by change ¬ n = 0; omega)
      have e2 : E.nxt = none := if_pos rfl
      rw [e1]
      refine ⟨?_, fun e => (nomatch e), ?_⟩
      · intro v e
        cases e
        rw [hb8]
      · rw [e2]; exact h.tile
    · intro x hx; cases hx
    · intro x hx e
      rcases List.mem_cons.mp hx with rfl | hx
      · cases e
      · rw [List.mem_singleton.mp hx] at e; cases e
    · intro x hx; cases hx
  obtain ⟨s2, e2, h2⟩ := blockInsert_ok hs rfl rfl
  obtain ⟨s3, e3, h3⟩ := linkNext_ok h2 (show n ≠ 0 by omega) (by
    change ¬ P (base - 8 + 8 + n)
    exact hP _ (by omega) (by omega))
  change blockInsert C _ (base - 8) = _ at e2
  change linkNext C s2 (base - 8) = .ok (s3, base - 8 + 8 + n) at e3
  rw [hb8] at e3
  obtain ⟨s2', e2', rfl⟩ := blockInsert_poke (by omega) (by omega) (by omega) (fun i j hi hj => by
    change s.heads i j + 24 ≠ _
    rcases heads_far h hi hj with e | ⟨x, hx, e, hx24⟩
    · omega
    · have := hL x hx
      omega) e2
  rw [e2', R.ok_bind]
  obtain ⟨s3', e3', rfl⟩ := linkNext_poke (by omega) (by omega) e3
  rw [e3', R.ok_bind]
  dsimp only
  rw [modW_any (by omega) hokn, R.ok_bind, modW_any (by omega) hokn, R.ok_bind, modW_any (by omega) hokn, R.ok_bind, poke_mem, poke_mem,
    poke_twice, poke_twice]
  have hw2 : wSetPrevFree (wSetUsed (wSetSize (s3'.mem (base + n + 8)) 0)) = 2 := by
    unfold wSetPrevFree wSetUsed wSetSize
    omega
  rw [hw2]
  refine ⟨_, _, rfl, h3, ?_, ?_, ?_⟩
  · exact ⟨rfl, fun _ => rfl, rfl, fun _ => rfl, rfl, fun e => (nomatch e), rfl, fun e => (nomatch e), g⟩
  · exact (used_free (b := { B with listed := true, linked := true }) rfl _).trans ((used_cons E L).trans (by rw [if_neg (fun e => e.2 rfl)]; rfl))
  · refine (pools_big (b := { B with listed := true, linked := true }) (show n ≠ 0 by omega) _).trans ((pools_cons E L).trans ?_)
    rw [if_pos rfl]
    rfl

/-- `control_construct`: a heap without pools. -/
theorem construct_ok {mem : Nat → Nat} (h0 : C.ctl ≠ 0) (h8 : C.ctl % 8 = 0) (h1 : C.ok (C.ctl + 16) = true) (h2 : C.ok (C.ctl + 24) = true) :
    ∃ s, construct C mem = .ok s ∧ H C (fun _ => False) mem s [] := by
  unfold construct
  dsimp only
  rw [sto_ok (by omega) h1, R.ok_bind, sto_ok (by omega) h2]
  refine ⟨_, rfl, h0, h8, ⟨h1, h2⟩, ⟨id, id⟩, fun b hb => (by cases hb), List.Pairwise.nil, rfl, fun a ha => ha.elim, fun _ _ => [], ?_⟩
  refine ⟨fun _ _ _ _ => rfl, fun _ _ _ _ => trivial, fun _ _ _ _ => List.nodup_nil, ?_, ?_, ?_, ?_⟩
  · intro i j x _ _
    constructor
    · intro h; cases h
    · rintro ⟨b, hb, _⟩; cases hb
  · intro i j _ _
    simp
  · intro i _
    simp
  · intro i _
    simp

end Verif.Tlsf
