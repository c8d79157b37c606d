import Verif.Str.System
import Verif.Str.Subst
/-! Every history keeps the strings good (helper lemmas for C45 and C46). -/
namespace Verif.Str
open Verif.StrView (Chr View)
open Spec

/-- Blocks obtained minus blocks deleted minus blocks owned. -/
def kOf : Option Str → Int
  | none => 0
  | some s => s.bal - s.heaps

def sumK : List (Option Str) → Int
  | [] => 0
  | o :: t => kOf o + sumK t

/-- A variable is as its cell says. -/
def SlotOk (C : Nat) (o : Option Str) : Cell → Prop
  | .dead => o = none
  | .moved => ∃ s, o = some s ∧ ∃ k, Moved C s k
  | .val l t => ∃ s, o = some s ∧ l.length < 2 ^ 61 ∧ ∃ k, Good C s l t k

structure Inv (C : Nat) (st : Sys) (σ : List Cell) : Prop where
  len : st.vars.length = σ.length
  slots : ∀ (i : Nat) (o : Option Str) (c : Cell), st.vars[i]? = some o → σ[i]? = some c → SlotOk C o c
  sum : sumK st.vars + st.gone = 0

theorem sumK_set (v : List (Option Str)) (d : Nat) (o x : Option Str) (h : v[d]? = some o) :
    sumK (v.set d x) = sumK v - kOf o + kOf x := by
  induction v generalizing d with
  | nil => cases h
  | cons y v ih =>
    cases d with
    | zero =>
      have : y = o := Option.some.inj h
      subst this
      rw [List.set_cons_zero, sumK, sumK]; omega
    | succ d =>
      have := ih d h
      rw [List.set_cons_succ, sumK, sumK, this]; omega

theorem kOf_good {C : Nat} {s : Str} {l : List Chr} {t : Bool} {k : Int} (h : Good C s l t k) : kOf (some s) = k := by
  have := h.bal
  change s.bal - s.heaps = k; omega

theorem kOf_moved {C : Nat} {s : Str} {k : Int} (h : Moved C s k) : kOf (some s) = k := by
  have := h.bal
  have := h.heaps
  change s.bal - s.heaps = k; omega

theorem inv_get {C : Nat} {st : Sys} {σ : List Cell} (hI : Inv C st σ) {d : Nat} {c : Cell} (h : σ[d]? = some c) :
    ∃ o, st.vars[d]? = some o ∧ SlotOk C o c := by
  have hd : d < st.vars.length := by
    rw [hI.len]; exact (List.getElem?_eq_some_iff.mp h).1
  exact ⟨_, List.getElem?_eq_getElem hd, hI.slots d _ c (List.getElem?_eq_getElem hd) h⟩

/-- One variable changes, and the block count with it. -/
theorem inv_set {C : Nat} {st : Sys} {σ : List Cell} (hI : Inv C st σ) {d : Nat} {o x : Option Str} {c : Cell} {g : Int}
    (ho : st.vars[d]? = some o) (hx : SlotOk C x c) (hk : kOf x + g = kOf o) :
    Inv C ⟨st.vars.set d x, st.gone + g⟩ (σ.set d c) := by
  refine ⟨by simp only [List.length_set]; exact hI.len, fun i o' c' h1 h2 => ?_, ?_⟩
  · dsimp only at h1
    rw [List.getElem?_set] at h1 h2
    by_cases e : d = i
    · subst e
      rw [if_pos rfl] at h1 h2
      split at h1
      · split at h2
        · rw [← Option.some.inj h1, ← Option.some.inj h2]; exact hx
        · cases h2
      · cases h1
    · rw [if_neg e] at h1 h2
      exact hI.slots i o' c' h1 h2
  · dsimp only
    rw [sumK_set _ _ _ _ ho]
    have := hI.sum
    omega

theorem inv_set0 {C : Nat} {st : Sys} {σ : List Cell} (hI : Inv C st σ) {d : Nat} {o x : Option Str} {c : Cell}
    (ho : st.vars[d]? = some o) (hx : SlotOk C x c) (hk : kOf x = kOf o) :
    Inv C { st with vars := st.vars.set d x } (σ.set d c) := by
  have := inv_set hI ho hx (g := 0) (by omega)
  rw [Int.add_zero] at this
  exact this

/-- What an operation on one string must do for the history theorem. -/
def ModifyOk (C : Nat) (f : Str → R Str) (g : List Chr → Bool → Option (List Chr × Bool)) : Prop :=
  ∀ s l t k l' t', Good C s l t k → l.length < 2 ^ 61 → g l t = some (l', t') →
    l'.length < 2 ^ 61 ∧ ∃ s', f s = .ok s' ∧ Good C s' l' t' k

def CreateOk (C : Nat) (f : Str → R Str) (g : List Chr → Bool → Option (List Chr × Bool)) : Prop :=
  ∀ s l t k l' t', Good C s l t k → l.length < 2 ^ 61 → g l t = some (l', t') →
    l'.length < 2 ^ 61 ∧ ∃ s', f s = .ok s' ∧ Good C s' l' t' 0

theorem modify_ok {C : Nat} {st : Sys} {σ σ' : List Cell} (hI : Inv C st σ) {d : Nat} {f : Str → R Str}
    {g : List Chr → Bool → Option (List Chr × Bool)} (hf : ModifyOk C f g) (hs : Spec.modify σ d g = some σ') :
    ∃ st', st.modify d f = .ok st' ∧ Inv C st' σ' := by
  unfold Spec.modify at hs
  split at hs
  · rename_i l t hc
    obtain ⟨o, ho, s, rfl, hl, k, hg⟩ := inv_get hI hc
    cases e : g l t with
    | none => rw [e] at hs; cases hs
    | some p =>
      rw [e] at hs
      have hs : σ.set d (.val p.1 p.2) = σ' := Option.some.inj hs
      subst hs
      obtain ⟨h1, s', h2, h3⟩ := hf s l t k p.1 p.2 hg hl e
      unfold Sys.modify
      rw [ho]
      dsimp only
      rw [h2, R.ok_bind]
      exact ⟨_, rfl, inv_set0 hI ho ⟨s', rfl, h1, k, h3⟩ (by rw [kOf_good h3, kOf_good hg])⟩
  · cases hs

theorem create_ok {C : Nat} {st : Sys} {σ σ' : List Cell} (hI : Inv C st σ) {d : Nat} {mk : R Str}
    {v : Option (List Chr × Bool)} (hf : ∀ l' t', v = some (l', t') → l'.length < 2 ^ 61 ∧ ∃ s', mk = .ok s' ∧ Good C s' l' t' 0)
    (hs : Spec.create σ d v = some σ') : ∃ st', st.create d mk = .ok st' ∧ Inv C st' σ' := by
  unfold Spec.create at hs
  split at hs
  · rename_i hc
    obtain ⟨o, ho, hn⟩ := inv_get hI hc
    have hn : o = none := hn
    subst hn
    cases e : v with
    | none => rw [e] at hs; cases hs
    | some p =>
      rw [e] at hs
      have hs : σ.set d (.val p.1 p.2) = σ' := Option.some.inj hs
      subst hs
      obtain ⟨h1, s', h2, h3⟩ := hf p.1 p.2 e
      unfold Sys.create
      rw [ho]
      dsimp only
      rw [h2, R.ok_bind]
      exact ⟨_, rfl, inv_set0 hI ho ⟨s', rfl, h1, 0, h3⟩ (by rw [kOf_good h3]; rfl)⟩
  · cases hs

theorem createFrom_ok {C : Nat} {st : Sys} {σ σ' : List Cell} (hI : Inv C st σ) {d s : Nat} {f : Str → R Str}
    {g : List Chr → Bool → Option (List Chr × Bool)} (hf : CreateOk C f g) (hs : Spec.createFrom σ d s g = some σ') :
    ∃ st', st.createFrom d s f = .ok st' ∧ Inv C st' σ' := by
  unfold Spec.createFrom at hs
  split at hs
  · rename_i l t hc
    obtain ⟨o, ho, x, rfl, hl, k, hg⟩ := inv_get hI hc
    unfold Sys.createFrom
    rw [ho]
    dsimp only
    exact create_ok hI (fun l' t' e => hf x l t k l' t' hg hl e) hs
  · cases hs

theorem alive_get {C : Nat} {st : Sys} {σ : List Cell} (hI : Inv C st σ) {d : Nat} (h : alive σ d = true) :
    ∃ s, st.vars[d]? = some (some s) ∧ s.un.length = C + 1 ∧ s.bal = s.heaps + kOf (some s) := by
  unfold alive at h
  split at h
  · rename_i l t hc
    obtain ⟨o, ho, s, rfl, _, k, hg⟩ := inv_get hI hc
    exact ⟨s, ho, hg.un, by change s.bal = s.heaps + (s.bal - s.heaps); omega⟩
  · rename_i hc
    obtain ⟨o, ho, s, rfl, k, hg⟩ := inv_get hI hc
    exact ⟨s, ho, hg.un, by change s.bal = s.heaps + (s.bal - s.heaps); omega⟩
  · cases h

theorem dropStart_eq (p : Chr → Bool) (l : List Chr) : dropStart p l = l.dropWhile p := by
  induction l with
  | nil => rfl
  | cons c t ih => rw [dropStart, List.dropWhile_cons, ih]

theorem dropEnd_eq (p : Chr → Bool) (l : List Chr) : Spec.dropEnd p l = Verif.Str.dropEnd p l := by
  unfold Spec.dropEnd Verif.Str.dropEnd
  rw [dropStart_eq]

theorem toUpper_eq : ∀ c : Chr, StrView.toUpper c = upperChr c := by decide +kernel

theorem toLower_fun : StrView.toLower = StrView.Spec.lowerChr := funext StrView.toLower_eq
theorem toUpper_fun : StrView.toUpper = upperChr := funext toUpper_eq

theorem small_eq {l l' : List Chr} {t t' : Bool} (h : small l t = some (l', t')) : l' = l ∧ t' = t ∧ l.length < 2 ^ 61 := by
  unfold small at h
  split at h
  · rename_i hl
    have := Option.some.inj h
    exact ⟨(congrArg Prod.fst this).symm, (congrArg Prod.snd this).symm, hl⟩
  · cases h

theorem some_pair {l l' : List Chr} {t t' : Bool} (h : some (l, t) = some (l', t')) : l' = l ∧ t' = t := by
  have := Option.some.inj h
  exact ⟨(congrArg Prod.fst this).symm, (congrArg Prod.snd this).symm⟩

theorem dropStart_len (p : Chr → Bool) (l : List Chr) : (dropStart p l).length ≤ l.length := by
  rw [dropStart_eq]; exact (List.dropWhile_sublist p).length_le

theorem dropEnd_len (p : Chr → Bool) (l : List Chr) : (Spec.dropEnd p l).length ≤ l.length := by
  unfold Spec.dropEnd
  rw [List.length_reverse]
  have := dropStart_len p l.reverse
  rwa [List.length_reverse] at this

theorem moveNew_ok {C : Nat} (h7 : 7 ≤ C) {st : Sys} {σ σ' : List Cell} (hI : Inv C st σ) {d s : Nat}
    (hs : (Spec.createFrom σ d s fun l t => some (l, t)).map (fun σ => σ.set s .moved) = some σ') :
    ∃ st', (do
      let rhs ← st.get s
      let st ← st.create d (pure (moveCtor C rhs).1)
      pure { st with vars := st.vars.set s (some (moveCtor C rhs).2) } : R Sys) = .ok st' ∧ Inv C st' σ' := by
  unfold Spec.createFrom at hs
  split at hs
  · rename_i l t hc
    obtain ⟨o, ho, x, rfl, hl, k, hg⟩ := inv_get hI hc
    unfold Spec.create at hs
    split at hs
    · rename_i hd
      have hs : (σ.set d (.val l t)).set s .moved = σ' := Option.some.inj hs
      subst hs
      obtain ⟨o', ho', hn⟩ := inv_get hI hd
      have hn : o' = none := hn
      subst hn
      obtain ⟨δ, g1, g2⟩ := moveCtor_ok h7 hg
      have e1 : st.get s = .ok x := by unfold Sys.get; rw [ho]
      have e2 : st.create d (pure (moveCtor C x).1) = .ok { st with vars := st.vars.set d (some (moveCtor C x).1) } := by
        unfold Sys.create; rw [ho']; rfl
      rw [e1, R.ok_bind, e2, R.ok_bind]
      refine ⟨_, rfl, ?_⟩
      have hne : d ≠ s := by
        intro e
        subst e
        rw [ho] at ho'
        cases ho'
      have hI1 := inv_set hI (o := none) (x := some (moveCtor C x).1) (c := .val l t) (g := δ) ho'
        ⟨_, rfl, hl, _, g1⟩ (by rw [kOf_good g1]; change 0 - δ + δ = 0; omega)
      have ho2 : (st.vars.set d (some (moveCtor C x).1))[s]? = some (some x) := by
        rw [List.getElem?_set, if_neg hne, ho]
      have hI2 := inv_set hI1 (o := some x) (x := some (moveCtor C x).2) (c := .moved) (g := -δ) ho2
        ⟨_, rfl, _, g2⟩ (by rw [kOf_moved g2, kOf_good hg]; omega)
      dsimp only at hI2
      rw [show st.gone + δ + -δ = st.gone by omega] at hI2
      exact hI2
    · cases hs
  · cases hs

theorem moveAssign_step {C : Nat} (h7 : 7 ≤ C) {st : Sys} {σ : List Cell} (hI : Inv C st σ) {d s : Nat} {l : List Chr} {t : Bool}
    (hc : σ[s]? = some (.val l t)) (hne : d ≠ s) (ha : alive σ d = true) :
    ∃ st', (do
      let this ← st.get d
      let rhs ← st.get s
      pure { st with vars := (st.vars.set d (some (moveAssign this rhs).1)).set s (some (moveAssign this rhs).2) } : R Sys) = .ok st' ∧
      Inv C st' ((σ.set d (.val l t)).set s .moved) := by
  obtain ⟨o, ho, x, rfl, hl, k, hg⟩ := inv_get hI hc
  obtain ⟨y, hy, hu, hb⟩ := alive_get hI ha
  obtain ⟨δ, g1, g2⟩ := moveAssign_ok h7 hg hu hb
  have e1 : st.get d = .ok y := by unfold Sys.get; rw [hy]
  have e2 : st.get s = .ok x := by unfold Sys.get; rw [ho]
  rw [e1, R.ok_bind, e2, R.ok_bind]
  refine ⟨_, rfl, ?_⟩
  have hI1 := inv_set hI (o := some y) (x := some (moveAssign y x).1) (c := .val l t) (g := δ) hy
    ⟨_, rfl, hl, _, g1⟩ (by rw [kOf_good g1]; omega)
  have ho2 : (st.vars.set d (some (moveAssign y x).1))[s]? = some (some x) := by
    rw [List.getElem?_set, if_neg hne, ho]
  have hI2 := inv_set hI1 (o := some x) (x := some (moveAssign y x).2) (c := .moved) (g := -δ) ho2
    ⟨_, rfl, _, g2⟩ (by rw [kOf_moved g2, kOf_good hg]; omega)
  dsimp only at hI2
  rw [show st.gone + δ + -δ = st.gone by omega] at hI2
  exact hI2

/-- `x ++ (y ++ z)` for `replace(pos, count, ·)`. -/
theorem split3 {l : List Chr} {pos count : Nat} (h : pos + count ≤ l.length) :
    ∃ x y z, l = x ++ (y ++ z) ∧ pos = x.length ∧ count = y.length ∧ l.take pos = x ∧ l.drop (pos + count) = z := by
  refine ⟨l.take pos, (l.drop pos).take count, l.drop (pos + count), ?_, ?_, ?_, rfl, rfl⟩
  · rw [← List.drop_drop, List.take_append_drop, List.take_append_drop]
  · rw [List.length_take]; omega
  · rw [List.length_take, List.length_drop]; omega

theorem step_ok {C : Nat} (h7 : 7 ≤ C) (hC : C < 2 ^ 61) {junk : Nat → Chr} {st : Sys} {σ σ' : List Cell} (hI : Inv C st σ) (op : Op)
    (hs : Spec.step σ op = some σ') : ∃ st', st.step C junk op = .ok st' ∧ Inv C st' σ' := by
  cases op with
  | make d l =>
    refine create_ok hI (fun l' t' e => ?_) hs
    obtain ⟨rfl, rfl, hl⟩ := small_eq e
    exact ⟨hl, fromView_ok h7 hC junk _ hl⟩
  | makeFilled d n c =>
    refine create_ok hI (fun l' t' e => ?_) hs
    obtain ⟨rfl, rfl, hl⟩ := small_eq e
    exact ⟨hl, filled_ok h7 hC junk n (by rwa [List.length_replicate] at hl) c⟩
  | copyNew d s =>
    refine createFrom_ok hI (fun s l t k l' t' hg hl e => ?_) hs
    obtain ⟨rfl, rfl⟩ := some_pair e
    exact ⟨hl, copyCtor_ok h7 hC hg hl⟩
  | moveNew d s => exact moveNew_ok h7 hI hs
  | assign d s =>
    rw [Spec.step] at hs
    rw [Sys.step]
    split at hs
    · rename_i l t hc
      obtain ⟨o, ho, x, rfl, hl, k, hg⟩ := inv_get hI hc
      have e2 : st.get s = .ok x := by unfold Sys.get; rw [ho]
      by_cases e : d = s
      · rw [if_pos e] at hs
        rw [if_pos e, e2, R.ok_bind]
        have hs : σ = σ' := Option.some.inj hs
        subst hs
        exact ⟨st, rfl, hI⟩
      · rw [if_neg e] at hs
        rw [if_neg e, e2, R.ok_bind]
        by_cases a : alive σ d = true
        · rw [if_pos a] at hs
          have hs : σ.set d (.val l t) = σ' := Option.some.inj hs
          subst hs
          obtain ⟨y, hy, hu, hb⟩ := alive_get hI a
          obtain ⟨z, hz, gz⟩ := copyAssign_ok h7 hC (junk := junk) hg hl hu hb
          unfold Sys.modify
          rw [hy]
          dsimp only
          rw [hz, R.ok_bind]
          exact ⟨_, rfl, inv_set0 hI hy ⟨z, rfl, hl, _, gz⟩ (kOf_good gz)⟩
        · rw [if_neg a] at hs; cases hs
    · cases hs
  | moveAssign d s =>
    rw [Spec.step] at hs
    rw [Sys.step]
    split at hs
    · rename_i l t hc
      by_cases e : d ≠ s ∧ alive σ d = true
      · rw [if_pos e] at hs
        rw [if_neg e.1]
        have hs : (σ.set d (.val l t)).set s .moved = σ' := Option.some.inj hs
        subst hs
        exact moveAssign_step h7 hI hc e.1 e.2
      · rw [if_neg e] at hs; cases hs
    · cases hs
  | destroy d =>
    rw [Spec.step] at hs
    rw [Sys.step]
    by_cases a : alive σ d = true
    · rw [if_pos a] at hs
      have hs : σ.set d .dead = σ' := Option.some.inj hs
      subst hs
      obtain ⟨y, hy, hu, hb⟩ := alive_get hI a
      have e1 : st.get d = .ok y := by unfold Sys.get; rw [hy]
      rw [e1, R.ok_bind]
      refine ⟨_, rfl, inv_set hI hy (x := none) (c := .dead) rfl ?_⟩
      unfold Str.destroy
      rw [release_bal]
      change 0 + (y.bal - y.heaps) = y.bal - y.heaps; omega
    · rw [if_neg a] at hs; cases hs
  | pushBack d c =>
    refine modify_ok hI (fun s l t k l' t' hg hl e => ?_) hs
    obtain ⟨rfl, rfl, hl'⟩ := small_eq e
    exact ⟨hl', pushBack_ok h7 hg c (by rw [List.length_append] at hl'; exact hl')⟩
  | popBack d =>
    refine modify_ok hI (fun s l t k l' t' hg hl e => ?_) hs
    by_cases hn : l = []
    · rw [if_pos hn] at e; cases e
    · rw [if_neg hn] at e
      obtain ⟨rfl, rfl⟩ := some_pair e
      refine ⟨by rw [List.length_dropLast]; omega, ?_⟩
      have := List.dropLast_concat_getLast hn
      rw [← this] at hg
      exact popBack_ok hg
  | reserve d n =>
    refine modify_ok hI (fun s l t k l' t' hg hl e => ?_) hs
    by_cases hn : n < 2 ^ 61
    · rw [if_pos hn] at e
      obtain ⟨rfl, rfl⟩ := some_pair e
      obtain ⟨s', h1, h2, _⟩ := reserve_ok h7 (junk := junk) hg hn
      exact ⟨hl, s', h1, h2⟩
    · rw [if_neg hn] at e; cases e
  | resize d n c =>
    refine modify_ok hI (fun s l t k l' t' hg hl e => ?_) hs
    by_cases hn : n < 2 ^ 61
    · rw [if_pos hn] at e
      obtain ⟨rfl, rfl⟩ := some_pair e
      exact ⟨by rw [List.length_append, List.length_take, List.length_replicate]; omega, resize_ok h7 hg hn c⟩
    · rw [if_neg hn] at e; cases e
  | clear d =>
    rw [Spec.step] at hs
    rw [Sys.step]
    by_cases a : alive σ d = true
    · rw [if_pos a] at hs
      have hs : σ.set d (.val [] true) = σ' := Option.some.inj hs
      subst hs
      obtain ⟨y, hy, hu, hb⟩ := alive_get hI a
      have g := clear_ok h7 hC hu hb
      unfold Sys.modify
      rw [hy]
      exact ⟨_, rfl, inv_set0 hI hy ⟨_, rfl, by simp, _, g⟩ (kOf_good g)⟩
    · rw [if_neg a] at hs; cases hs
  | shrink d =>
    refine modify_ok hI (fun s l t k l' t' hg hl e => ?_) hs
    obtain ⟨rfl, rfl⟩ := some_pair e
    obtain ⟨s', h1, h2, _⟩ := shrink_ok h7 hC (junk := junk) hg
    exact ⟨hl, s', h1, h2⟩
  | fillAll d c =>
    refine modify_ok hI (fun s l t k l' t' hg hl e => ?_) hs
    obtain ⟨rfl, rfl⟩ := some_pair e
    exact ⟨by rw [List.length_replicate]; exact hl, fillAll_ok hg c⟩
  | fill d c n =>
    refine modify_ok hI (fun s l t k l' t' hg hl e => ?_) hs
    by_cases hn : n < 2 ^ 61
    · rw [if_pos hn] at e
      obtain ⟨rfl, rfl⟩ := some_pair e
      exact ⟨by rw [List.length_replicate]; exact hn, fill_ok h7 hg c n hn⟩
    · rw [if_neg hn] at e; cases e
  | lowerNew d s =>
    refine createFrom_ok hI (fun s l t k l' t' hg hl e => ?_) hs
    obtain ⟨rfl, rfl⟩ := some_pair e
    rw [← toLower_fun]
    exact ⟨by rw [List.length_map]; exact hl, mapped_ok h7 hC hg hl _⟩
  | upperNew d s =>
    refine createFrom_ok hI (fun s l t k l' t' hg hl e => ?_) hs
    obtain ⟨rfl, rfl⟩ := some_pair e
    rw [← toUpper_fun]
    exact ⟨by rw [List.length_map]; exact hl, mapped_ok h7 hC hg hl _⟩
  | capitalizedNew d s =>
    refine createFrom_ok hI (fun s l t k l' t' hg hl e => ?_) hs
    obtain ⟨rfl, rfl⟩ := some_pair e
    rw [← toUpper_fun, ← toLower_fun]
    refine ⟨?_, capitalized_ok h7 hC hg hl⟩
    rw [List.length_append, List.length_map, List.length_map, List.length_take, List.length_drop]; omega
  | replacedCharsNew d s old new =>
    refine createFrom_ok hI (fun s l t k l' t' hg hl e => ?_) hs
    obtain ⟨rfl, rfl⟩ := some_pair e
    exact ⟨by rw [List.length_map]; exact hl, mapped_ok h7 hC hg hl _⟩
  | capitalize d =>
    refine modify_ok hI (fun s l t k l' t' hg hl e => ?_) hs
    obtain ⟨rfl, rfl⟩ := some_pair e
    rw [← toUpper_fun, ← toLower_fun]
    refine ⟨?_, capitalize_ok hg⟩
    rw [List.length_append, List.length_map, List.length_map, List.length_take, List.length_drop]; omega
  | replaceChars d old new =>
    refine modify_ok hI (fun s l t k l' t' hg hl e => ?_) hs
    obtain ⟨rfl, rfl⟩ := some_pair e
    exact ⟨by rw [List.length_map]; exact hl, replaceChars_ok hg old new⟩
  | removePrefix d n =>
    refine modify_ok hI (fun s l t k l' t' hg hl e => ?_) hs
    by_cases hn : n ≤ l.length
    · rw [if_pos hn] at e
      obtain ⟨rfl, rfl⟩ := some_pair e
      exact ⟨by rw [List.length_drop]; omega, removePrefix_ok hg n hn⟩
    · rw [if_neg hn] at e; cases e
  | removeSuffix d n =>
    refine modify_ok hI (fun s l t k l' t' hg hl e => ?_) hs
    by_cases hn : n ≤ l.length
    · rw [if_pos hn] at e
      obtain ⟨rfl, rfl⟩ := some_pair e
      exact ⟨by rw [List.length_take]; omega, removeSuffix_ok hg n hn⟩
    · rw [if_neg hn] at e; cases e
  | removePrefixStr d p =>
    refine modify_ok hI (fun s l t k l' t' hg hl e => ?_) hs
    by_cases hn : p <+: l
    · rw [if_pos hn] at e
      obtain ⟨rfl, rfl⟩ := some_pair e
      obtain ⟨m, rfl⟩ := hn
      rw [List.length_append] at hl
      rw [List.drop_left' rfl]
      exact ⟨by omega, removePrefixStr_ok hg (by omega)⟩
    · rw [if_neg hn] at e; cases e
  | removeSuffixStr d p =>
    refine modify_ok hI (fun s l t k l' t' hg hl e => ?_) hs
    by_cases hn : p <:+ l
    · rw [if_pos hn] at e
      obtain ⟨rfl, rfl⟩ := some_pair e
      obtain ⟨m, rfl⟩ := hn
      rw [List.length_append] at hl
      rw [List.take_left' (by rw [List.length_append]; omega)]
      exact ⟨by omega, removeSuffixStr_ok hg (by omega)⟩
    · rw [if_neg hn] at e; cases e
  | trimStart d p =>
    refine modify_ok hI (fun s l t k l' t' hg hl e => ?_) hs
    obtain ⟨rfl, rfl⟩ := some_pair e
    refine ⟨by have := dropStart_len p l; omega, ?_⟩
    rw [dropStart_eq]
    exact trimStart_ok hg p
  | trimEnd d p =>
    refine modify_ok hI (fun s l t k l' t' hg hl e => ?_) hs
    obtain ⟨rfl, rfl⟩ := some_pair e
    refine ⟨by have := dropEnd_len p l; omega, ?_⟩
    rw [dropEnd_eq]
    exact trimEnd_ok hg p
  | trim d p =>
    refine modify_ok hI (fun s l t k l' t' hg hl e => ?_) hs
    obtain ⟨rfl, rfl⟩ := some_pair e
    refine ⟨by have := dropEnd_len p (dropStart p l); have := dropStart_len p l; omega, ?_⟩
    rw [dropEnd_eq, dropStart_eq]
    exact trim_ok hg p
  | padStart d n c =>
    refine modify_ok hI (fun s l t k l' t' hg hl e => ?_) hs
    by_cases hn : n < 2 ^ 61
    · rw [if_pos hn] at e
      obtain ⟨rfl, rfl⟩ := some_pair e
      exact ⟨by rw [List.length_append, List.length_replicate]; omega, padStart_ok h7 hg n hn c⟩
    · rw [if_neg hn] at e; cases e
  | padEnd d n c =>
    refine modify_ok hI (fun s l t k l' t' hg hl e => ?_) hs
    by_cases hn : n < 2 ^ 61
    · rw [if_pos hn] at e
      obtain ⟨rfl, rfl⟩ := some_pair e
      exact ⟨by rw [List.length_append, List.length_replicate]; omega, padEnd_ok h7 hg n hn c⟩
    · rw [if_neg hn] at e; cases e
  | replaceAt d pos count m =>
    refine modify_ok hI (fun s l t k l' t' hg hl e => ?_) hs
    by_cases hn : pos + count ≤ l.length
    · rw [if_pos hn] at e
      obtain ⟨rfl, rfl, hl'⟩ := small_eq e
      obtain ⟨x, y, z, he, hp, hc, q1, q2⟩ := split3 hn
      rw [q1, q2, List.append_assoc] at hl' ⊢
      subst he
      exact ⟨hl', replaceAt_ok h7 hg hp hc hl'⟩
    · rw [if_neg hn] at e; cases e
  | insert d pos m =>
    refine modify_ok hI (fun s l t k l' t' hg hl e => ?_) hs
    by_cases hn : pos ≤ l.length
    · rw [if_pos hn] at e
      obtain ⟨rfl, rfl, hl'⟩ := small_eq e
      obtain ⟨x, y, z, he, hp, hc, q1, q2⟩ := split3 (l := l) (pos := pos) (count := 0) (by omega)
      rw [Nat.add_zero] at q2
      rw [q1, q2, List.append_assoc] at hl' ⊢
      subst he
      exact ⟨hl', replaceAt_ok h7 hg hp hc hl'⟩
    · rw [if_neg hn] at e; cases e
  | replaceAll d old new =>
    refine modify_ok hI (fun s l t k l' t' hg hl e => ?_) hs
    by_cases hn : old = []
    · rw [if_pos hn] at e; cases e
    · rw [if_neg hn] at e
      obtain ⟨rfl, rfl, hl'⟩ := small_eq e
      exact ⟨hl', replaceAll_ok h7 hn hg hl hl'⟩
  | append d m =>
    refine modify_ok hI (fun s l t k l' t' hg hl e => ?_) hs
    obtain ⟨rfl, rfl, hl'⟩ := small_eq e
    exact ⟨hl', append_ok h7 hg _ (by rwa [List.length_append] at hl') (Or.inl rfl)⟩
  | appendOwn d off len =>
    refine modify_ok hI (fun s l t k l' t' hg hl e => ?_) hs
    by_cases hn : off + len ≤ l.length
    · rw [if_pos hn] at e
      obtain ⟨rfl, rfl, hl'⟩ := small_eq e
      have hml : ((l.drop off).take len).length = len := by rw [List.length_take, List.length_drop]; omega
      refine ⟨hl', append_ok h7 hg _ (by rwa [List.length_append] at hl') (Or.inr ⟨off, by rw [hml], by rw [hml]; exact hn, by rw [hml]⟩)⟩
    · rw [if_neg hn] at e; cases e
  | replacedAtNew d s pos count m =>
    refine createFrom_ok hI (fun s l t k l' t' hg hl e => ?_) hs
    by_cases hn : pos + count ≤ l.length
    · rw [if_pos hn] at e
      obtain ⟨rfl, rfl, hl'⟩ := small_eq e
      obtain ⟨x, y, z, he, hp, hc, q1, q2⟩ := split3 hn
      rw [q1, q2, List.append_assoc] at hl' ⊢
      subst he
      exact ⟨hl', replacedAt_ok h7 hC hg hp hc hl' _ (Or.inl rfl)⟩
    · rw [if_neg hn] at e; cases e
  | replacedNew d s old new =>
    refine createFrom_ok hI (fun s l t k l' t' hg hl e => ?_) hs
    by_cases hn : old = []
    · rw [if_pos hn] at e; cases e
    · rw [if_neg hn] at e
      obtain ⟨rfl, rfl, hl'⟩ := small_eq e
      exact ⟨hl', replaced_ok h7 hC hn hg hl hl'⟩
  | concatNew d m s =>
    refine createFrom_ok hI (fun s l t k l' t' hg hl e => ?_) hs
    obtain ⟨rfl, rfl, hl'⟩ := small_eq e
    exact ⟨hl', concat_ok h7 hC hg (by rwa [List.length_append] at hl')⟩
  | substringNew d s off n =>
    refine createFrom_ok hI (fun s l t k l' t' hg hl e => ?_) hs
    by_cases hn : off + n ≤ l.length
    · rw [if_pos hn] at e
      obtain ⟨rfl, rfl⟩ := some_pair e
      exact ⟨by rw [List.length_take, List.length_drop]; omega, substring_ok h7 hC hg hn (by omega)⟩
    · rw [if_neg hn] at e; cases e

theorem run_ok {C : Nat} (h7 : 7 ≤ C) (hC : C < 2 ^ 61) {junk : Nat → Chr} (ops : List Op) {st : Sys} {σ σ' : List Cell} (hI : Inv C st σ)
    (hs : Spec.run σ ops = some σ') : ∃ st', Sys.run C junk st ops = .ok st' ∧ Inv C st' σ' := by
  induction ops generalizing st σ with
  | nil =>
    have : σ = σ' := Option.some.inj hs
    subst this
    exact ⟨st, rfl, hI⟩
  | cons op ops ih =>
    rw [Spec.run] at hs
    cases e : Spec.step σ op with
    | none => rw [e] at hs; cases hs
    | some σ1 =>
      rw [e] at hs
      obtain ⟨st1, h1, h2⟩ := step_ok h7 hC (junk := junk) hI op e
      obtain ⟨st2, h3, h4⟩ := ih h2 hs
      refine ⟨st2, ?_, h4⟩
      rw [Sys.run, h1, R.ok_bind, h3]

theorem spec_modify_length {σ σ' : List Cell} {d : Nat} {g : List Chr → Bool → Option (List Chr × Bool)} (h : Spec.modify σ d g = some σ') :
    σ'.length = σ.length := by
  unfold Spec.modify at h
  split at h
  · obtain ⟨p, _, e⟩ := Option.map_eq_some_iff.mp h
    rw [← e, List.length_set]
  · cases h

theorem spec_create_length {σ σ' : List Cell} {d : Nat} {v : Option (List Chr × Bool)} (h : Spec.create σ d v = some σ') :
    σ'.length = σ.length := by
  unfold Spec.create at h
  split at h
  · obtain ⟨p, _, e⟩ := Option.map_eq_some_iff.mp h
    rw [← e, List.length_set]
  · cases h

theorem spec_createFrom_length {σ σ' : List Cell} {d s : Nat} {g : List Chr → Bool → Option (List Chr × Bool)}
    (h : Spec.createFrom σ d s g = some σ') : σ'.length = σ.length := by
  unfold Spec.createFrom at h
  split at h
  · exact spec_create_length h
  · cases h

theorem spec_step_length {σ σ' : List Cell} {op : Op} (h : Spec.step σ op = some σ') : σ'.length = σ.length := by
  cases op with
  | moveNew d s =>
    obtain ⟨p, e1, e⟩ := Option.map_eq_some_iff.mp h
    rw [← e, List.length_set, spec_createFrom_length e1]
  | assign d s =>
    rw [Spec.step] at h
    split at h
    · split at h
      · rw [← Option.some.inj h]
      · split at h
        · rw [← Option.some.inj h, List.length_set]
        · cases h
    · cases h
  | moveAssign d s =>
    rw [Spec.step] at h
    split at h
    · split at h
      · rw [← Option.some.inj h, List.length_set, List.length_set]
      · cases h
    · cases h
  | destroy d =>
    rw [Spec.step] at h
    split at h
    · rw [← Option.some.inj h, List.length_set]
    · cases h
  | clear d =>
    rw [Spec.step] at h
    split at h
    · rw [← Option.some.inj h, List.length_set]
    · cases h
  | _ => first | exact spec_modify_length h | exact spec_create_length h | exact spec_createFrom_length h

theorem spec_run_length {ops : List Op} {σ σ' : List Cell} (h : Spec.run σ ops = some σ') : σ'.length = σ.length := by
  induction ops generalizing σ with
  | nil => rw [← Option.some.inj h]
  | cons op ops ih =>
    obtain ⟨σ1, e1, e2⟩ := Option.bind_eq_some_iff.mp h
    rw [ih e2, spec_step_length e1]

theorem init_inv (C n : Nat) : Inv C (Sys.init n) (Spec.init n) := by
  refine ⟨by simp [Sys.init, Spec.init], fun i o c h1 h2 => ?_, ?_⟩
  · have e1 := List.mem_of_getElem? h1
    have e2 := List.mem_of_getElem? h2
    have e1 := List.eq_of_mem_replicate e1
    have e2 := List.eq_of_mem_replicate e2
    subst e1 e2
    rfl
  · change sumK (List.replicate n none) + 0 = 0
    induction n with
    | zero => rfl
    | succ n ih => rw [List.replicate_succ, sumK, kOf]; omega

end Verif.Str
