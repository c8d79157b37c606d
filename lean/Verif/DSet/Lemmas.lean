import Verif.DSet.Spec

/-! Helper lemmas for disjoint_set. -/
namespace Verif.DSet
open Spec

/-- One entry agrees with the abstract partition; `d` bounds the distance to the representative. -/
structure EntryOK (s : S) (d : Nat → Nat) (e : Nat) (x : Entry) : Prop where
  lt : x.parent < s.n
  rep : s.rep x.parent = s.rep e
  root : x.parent = e ↔ s.rep e = e
  desc : x.parent ≠ e → d x.parent < d e
  size : s.rep e = e → x.size = s.setSize e
  zero : s.rep e = e → d e = 0
  deep : 2 ^ d e ≤ s.setSize (s.rep e)

/-- The data structure represents the abstract partition. -/
structure Rel (ds : DS) (s : S) (d : Nat → Nat) : Prop where
  len : ds.entries.length = s.n
  small : s.n < 2 ^ 31
  ent : ∀ e x, ds.entries[e]? = some x → EntryOK s d e x
  rep_lt : ∀ e, e < s.n → s.rep e < s.n
  idem : ∀ e, e < s.n → s.rep (s.rep e) = s.rep e
  count : ds.count = s.sets

theorem entry_ok {ds : DS} {s : S} {d : Nat → Nat} (h : Rel ds s d) {e : Nat} (he : e < s.n) :
    ∃ x, entry ds e = .ok x ∧ ds.entries[e]? = some x ∧ EntryOK s d e x := by
  have hlt : e < ds.entries.length := by rw [h.len]; exact he
  refine ⟨ds.entries[e], ?_, List.getElem?_eq_getElem hlt, h.ent _ _ (List.getElem?_eq_getElem hlt)⟩
  unfold entry
  rw [List.getElem?_eq_getElem hlt]

theorem entry_bad {ds : DS} {s : S} {d : Nat → Nat} (h : Rel ds s d) {e : Nat} (he : ¬ e < s.n) :
    entry ds e = .error .assert := by
  unfold entry
  rw [List.getElem?_eq_none (by rw [h.len]; omega)]

theorem setSize_le (s : S) (r : Nat) : s.setSize r ≤ s.n := by
  unfold S.setSize
  have := List.countP_le_length (p := fun x => s.rep x == r) (l := List.range s.n)
  simpa using this

theorem Rel.depth {ds : DS} {s : S} {d : Nat → Nat} (h : Rel ds s d) {e : Nat} (he : e < s.n) : 2 ^ d e ≤ s.n := by
  obtain ⟨x, -, -, ok⟩ := entry_ok h he
  exact Nat.le_trans ok.deep (setSize_le s _)

/-- Path compression keeps the representation. -/
theorem Rel.compress {ds : DS} {s : S} {d : Nat → Nat} (h : Rel ds s d) {e : Nat} {x : Entry} (he : e < s.n)
    (hx : ds.entries[e]? = some x) (hp : s.rep e ≠ e) :
    Rel { ds with entries := ds.entries.set e { x with parent := s.rep e } } s d where
  len := by simpa using h.len
  small := h.small
  ent := by
    intro e' x' hx'
    rw [List.getElem?_set] at hx'
    split at hx'
    · rename_i hee
      subst hee
      split at hx'
      · simp only [Option.some.injEq] at hx'
        subst hx'
        have ok := h.ent _ _ hx
        have hr := h.rep_lt e he
        obtain ⟨xr, -, -, okr⟩ := entry_ok h hr
        have h0 : d (s.rep e) = 0 := okr.zero (h.idem e he)
        have hpne : x.parent ≠ e := fun hc => hp (ok.root.1 hc)
        exact ⟨hr, h.idem e he, Iff.rfl, fun _ => by have := ok.desc hpne; simp only; omega, fun hc => absurd hc hp,
          fun hc => absurd hc hp, ok.deep⟩
      · simp at hx'
    · exact h.ent _ _ hx'
  rep_lt := h.rep_lt
  idem := h.idem
  count := h.count

theorem find_ok {s : S} {d : Nat → Nat} (fuel : Nat) : ∀ {ds : DS} {e : Nat}, Rel ds s d → e < s.n → d e < fuel →
    ∃ ds', find fuel ds e = .ok (s.rep e, ds') ∧ Rel ds' s d := by
  induction fuel with
  | zero => intro ds e _ _ h; omega
  | succ f ih =>
    intro ds e h he hd
    obtain ⟨x, hx, -, ok⟩ := entry_ok h he
    simp only [find]
    rw [hx]
    simp only [R.ok_bind]
    by_cases hp : x.parent = e
    · rw [if_neg (by simpa using hp)]
      exact ⟨ds, by rw [hp, ok.root.1 hp], h⟩
    · rw [if_pos hp]
      obtain ⟨ds1, e1, h1⟩ := ih h ok.lt (by have := ok.desc hp; omega)
      rw [e1]
      simp only [R.ok_bind]
      obtain ⟨x1, hx1, hx1', ok1⟩ := entry_ok h1 he
      rw [hx1, ok.rep]
      exact ⟨_, rfl, h1.compress he hx1' (fun hc => hp (ok.root.2 hc))⟩

theorem find_bad {s : S} {d : Nat → Nat} (fuel : Nat) {ds : DS} {e : Nat} (h : Rel ds s d) (he : ¬ e < s.n) :
    find (fuel + 1) ds e = .error .assert := by
  simp only [find]
  rw [entry_bad h he]; rfl

theorem getRep_ok {ds : DS} {s : S} {d : Nat → Nat} (h : Rel ds s d) {e : Nat} (he : e < s.n) :
    ∃ ds', getRepresentative ds e = .ok (s.rep e, ds') ∧ Rel ds' s d := by
  refine find_ok _ h he ?_
  have h1 := h.depth he
  have h2 : d e < 2 ^ d e := Nat.lt_two_pow_self
  rw [h.len]; omega

theorem getRep_bad {ds : DS} {s : S} {d : Nat → Nat} (h : Rel ds s d) {e : Nat} (he : ¬ e < s.n) :
    getRepresentative ds e = .error .assert := find_bad _ h he

theorem isRep_ok {ds : DS} {s : S} {d : Nat → Nat} (h : Rel ds s d) {e : Nat} (he : e < s.n) :
    ∃ ds', isRepresentative ds e = .ok (s.rep e == e, ds') ∧ Rel ds' s d := by
  obtain ⟨ds', e', h'⟩ := getRep_ok h he
  unfold isRepresentative
  rw [e']
  exact ⟨ds', rfl, h'⟩

theorem isRep_bad {ds : DS} {s : S} {d : Nat → Nat} (h : Rel ds s d) {e : Nat} (he : ¬ e < s.n) :
    isRepresentative ds e = .error .assert := by
  unfold isRepresentative
  rw [getRep_bad h he]; rfl

/-! ### counting -/

theorem countP_merge (rep : Nat → Nat) {big small : Nat} (hne : big ≠ small) (l : List Nat) :
    l.countP (fun x => (if rep x = small then big else rep x) == big) =
      l.countP (fun x => rep x == big) + l.countP (fun x => rep x == small) := by
  induction l with
  | nil => rfl
  | cons a l ih =>
    simp only [List.countP_cons, ih]
    by_cases h1 : rep a = small
    · simp [h1, Ne.symm hne]; omega
    · by_cases h2 : rep a = big
      · simp [h2, hne]; omega
      · simp [h1, h2]

theorem countP_other (rep : Nat → Nat) {big small r : Nat} (hb : r ≠ big) (hs : r ≠ small) (l : List Nat) :
    l.countP (fun x => (if rep x = small then big else rep x) == r) = l.countP (fun x => rep x == r) := by
  congr 1
  funext x
  by_cases h1 : rep x = small
  · rw [if_pos h1, h1]
    have e1 : (big == r) = false := by simpa using Ne.symm hb
    have e2 : (small == r) = false := by simpa using Ne.symm hs
    rw [e1, e2]
  · rw [if_neg h1]

theorem countP_remove (p q : Nat → Bool) (c : Nat) : ∀ n, c < n → (∀ x, x < n → q x = (p x && decide (x ≠ c))) → p c = true →
    (List.range n).countP q + 1 = (List.range n).countP p := by
  intro n
  induction n with
  | zero => intro h; omega
  | succ n ih =>
    intro hc hq hp
    rw [List.range_succ, List.countP_append, List.countP_append]
    by_cases h : c = n
    · have h1 : (List.range n).countP q = (List.range n).countP p := by
        apply List.countP_congr
        intro x hx
        have hx' : x < n := List.mem_range.1 hx
        rw [hq x (by omega)]
        have : x ≠ c := by omega
        simp [this]
      rw [h1]
      subst h
      have hq' := hq c (by omega)
      simp at hq'
      simp [hp, hq']
    · have := ih (by omega) (fun x hx => hq x (by omega)) hp
      have hq' := hq n (by omega)
      have hne : n ≠ c := fun e => h e.symm
      simp only [ne_eq, hne, not_false_eq_true, decide_true, Bool.and_true] at hq'
      simp only [List.countP_cons, List.countP_nil, hq']
      omega

theorem setSize_pos (s : S) {r : Nat} (hr : r < s.n) (h : s.rep r = r) : 0 < s.setSize r := by
  unfold S.setSize
  rw [List.countP_pos_iff]
  exact ⟨r, by simpa using hr, by simp [h]⟩

/-- The partition after hanging `small` below `big`. -/
def relabel (s : S) (big small : Nat) : S := { s with rep := fun x => if s.rep x = small then big else s.rep x }

theorem link_ok {ds : DS} {s : S} {d : Nat → Nat} (h : Rel ds s d) {big small : Nat} (hb : big < s.n) (hs : small < s.n)
    (rb : s.rep big = big) (rs : s.rep small = small) (hne : big ≠ small) (hsz : s.setSize small ≤ s.setSize big) :
    ∃ ds' d', link ds big small = .ok ds' ∧ Rel ds' (relabel s big small) d' := by
  obtain ⟨xs, ex, exs, oks⟩ := entry_ok h hs
  obtain ⟨xb, eb, ebs, okb⟩ := entry_ok h hb
  have hlens : small < ds.entries.length := by rw [h.len]; exact hs
  have hlenb : big < ds.entries.length := by rw [h.len]; exact hb
  have hsum : s.setSize big + s.setSize small ≤ s.n := by
    have h1 : (relabel s big small).setSize big = s.setSize big + s.setSize small := countP_merge s.rep hne _
    have := setSize_le (relabel s big small) big
    rw [h1] at this
    exact this
  unfold link
  rw [ex]
  simp only [R.ok_bind]
  have eb' : entry { entries := ds.entries.set small { xs with parent := big }, count := ds.count } big = .ok xb := by
    unfold entry
    rw [List.getElem?_set, if_neg (Ne.symm hne), ebs]
  rw [eb']
  simp only [R.ok_bind]
  rw [okb.size rb, oks.size rs, if_pos (by have := h.small; omega)]
  refine ⟨_, fun x => if s.rep x = small then d x + 1 else d x, rfl, ?_⟩
  have hss : ∀ r, r ≠ small → (relabel s big small).setSize r =
      if r = big then s.setSize big + s.setSize small else s.setSize r := by
    intro r hr
    split
    · rename_i hrb; subst hrb; exact countP_merge s.rep hne _
    · rename_i hrb; exact countP_other s.rep hrb hr _
  have hrep' : ∀ x, (relabel s big small).rep x = if s.rep x = small then big else s.rep x := fun _ => rfl
  refine ⟨by simpa [relabel] using h.len, h.small, ?_, ?_, ?_, ?_⟩
  · intro e x hx
    -- the entry before the change
    have hold : ∃ x0, ds.entries[e]? = some x0 ∧ e < s.n ∧
        x = (if e = big then { xb with size := s.setSize big + s.setSize small } else
          if e = small then { parent := big, size := s.setSize small } else x0) := by
      have hex : e < s.n := by
        have := List.getElem?_eq_some_iff.1 hx
        obtain ⟨hlt, -⟩ := this
        simp only [List.length_set] at hlt
        rw [← h.len]; exact hlt
      obtain ⟨x0, -, hx0, -⟩ := entry_ok h hex
      refine ⟨x0, hx0, hex, ?_⟩
      rw [List.getElem?_set] at hx
      split at hx
      · rename_i hbe
        subst hbe
        rw [if_pos (by simpa using hlenb)] at hx
        simp only [Option.some.injEq] at hx
        rw [if_pos rfl, ← hx]
      · rename_i hbe
        rw [List.getElem?_set] at hx
        split at hx
        · rename_i hse
          subst hse
          simp only [Option.some.injEq] at hx
          rw [if_neg (Ne.symm hbe), if_pos rfl, ← hx]
        · rename_i hse
          rw [if_neg (Ne.symm hbe), if_neg (Ne.symm hse)]
          rw [hx0] at hx
          simpa using hx.symm
    obtain ⟨x0, hx0, hex, rfl⟩ := hold
    have ok := h.ent _ _ hx0
    by_cases heb : e = big
    · subst heb
      rw [if_pos rfl]
      have hpar : xb.parent = e := okb.root.2 rb
      have hr' : (relabel s e small).rep e = e := by rw [hrep', rb, if_neg hne]
      refine ⟨okb.lt, ?_, ?_, ?_, ?_, ?_, ?_⟩
      · simp only [hpar]
      · rw [hr']; simpa using hpar
      · intro hc; exact absurd hpar hc
      · intro _; rw [hss e hne, if_pos rfl]
      · intro _
        simp only [rb, if_neg hne]
        exact okb.zero rb
      · rw [hr', hss e hne, if_pos rfl]
        simp only [rb, if_neg hne]
        have := okb.deep
        rw [rb] at this
        omega
    · rw [if_neg heb]
      by_cases hes : e = small
      · subst hes
        rw [if_pos rfl]
        have hr' : (relabel s big e).rep e = big := by rw [hrep', rs, if_pos rfl]
        refine ⟨hb, ?_, ?_, ?_, ?_, ?_, ?_⟩
        · rw [hr', hrep', rb, if_neg hne]
        · rw [hr']
        · intro _
          simp only [rb, rs, if_neg hne, if_true]
          rw [okb.zero rb, oks.zero rs]; omega
        · intro hc; rw [hr'] at hc; exact absurd hc hne
        · intro hc; rw [hr'] at hc; exact absurd hc hne
        · rw [hr', hss big hne, if_pos rfl]
          simp only [rs, if_true]
          rw [oks.zero rs]
          have h1 := setSize_pos s hb rb
          have h2 := setSize_pos s hs rs
          simp; omega
      · rw [if_neg hes]
        have hne2 : ∀ y, s.rep y = small → (relabel s big small).rep y = big := fun y hy => by rw [hrep', if_pos hy]
        refine ⟨ok.lt, ?_, ?_, ?_, ?_, ?_, ?_⟩
        · rw [hrep', hrep', ok.rep]
        · by_cases hc : s.rep e = small
          · rw [hrep', if_pos hc, ok.root]
            constructor
            · intro h1; rw [hc] at h1; exact absurd h1.symm hes
            · intro h1; exact absurd h1.symm heb
          · rw [hrep', if_neg hc]; exact ok.root
        · intro hc
          have := ok.desc hc
          simp only [ok.rep]
          split <;> omega
        · intro hc
          by_cases hc2 : s.rep e = small
          · rw [hne2 e hc2] at hc; exact absurd hc.symm heb
          · rw [hrep', if_neg hc2] at hc
            rw [hss e hes, if_neg heb]
            exact ok.size hc
        · intro hc
          by_cases hc2 : s.rep e = small
          · rw [hne2 e hc2] at hc; exact absurd hc.symm heb
          · rw [hrep', if_neg hc2] at hc
            simp only [if_neg hc2]
            exact ok.zero hc
        · have hdeep := ok.deep
          by_cases hc2 : s.rep e = small
          · rw [hne2 e hc2, hss big hne, if_pos rfl]
            simp only [hc2, if_true]
            rw [hc2] at hdeep
            rw [Nat.pow_succ]; omega
          · rw [hrep']
            simp only [if_neg hc2]
            rw [hss _ hc2]
            split
            · rename_i h3
              rw [h3] at hdeep; omega
            · exact hdeep
  · intro e he
    rw [hrep']
    split
    · exact hb
    · exact h.rep_lt e he
  · intro e he
    rw [hrep' e]
    split
    · rw [hrep', rb, if_neg hne]
    · rename_i hc
      rw [hrep', h.idem e he, if_neg hc]
  · have hcnt : (relabel s big small).sets + 1 = s.sets := by
      unfold S.sets
      refine countP_remove (fun x => s.rep x == x) _ small s.n hs ?_ (by simpa using rs)
      intro x hx
      rw [hrep']
      by_cases hc : s.rep x = small
      · rw [if_pos hc, hc]
        by_cases hxs : x = small
        · subst hxs; simpa using hne
        · have : big ≠ x := by
            intro hbx; subst hbx; rw [rb] at hc; exact hne hc
          have e1 : (big == x) = false := by simpa using this
          have e2 : (small == x) = false := by simpa using Ne.symm hxs
          rw [e1, e2]; rfl
      · rw [if_neg hc]
        have : x = small → False := by intro e; subst e; exact hc rs
        by_cases hxs : x = small
        · exact (this hxs).elim
        · simp [hxs]
    have hle : s.sets ≤ s.n := by
      unfold S.sets
      have := List.countP_le_length (p := fun x => s.rep x == x) (l := List.range s.n)
      simpa using this
    have hsm := h.small
    simp only
    rw [h.count, ← hcnt]
    rw [show (relabel s big small).sets + 1 + (2 ^ 64 - 1) = (relabel s big small).sets + 2 ^ 64 by omega, Nat.add_mod_right,
      Nat.mod_eq_of_lt (by omega)]

theorem merge_ok {ds : DS} {s : S} {d : Nat → Nat} (h : Rel ds s d) {a b : Nat} (ha : a < s.n) (hb : b < s.n)
    (ra : s.rep a = a) (rb : s.rep b = b) :
    ∃ ds' d', mergeByRepresentative ds a b = .ok (decide (a ≠ b), ds') ∧ Rel ds' (if a = b then s else s.merge a b) d' := by
  obtain ⟨ds1, e1, h1⟩ := isRep_ok h ha
  obtain ⟨ds2, e2, h2⟩ := isRep_ok h1 hb
  unfold mergeByRepresentative
  rw [e1]
  simp only [R.ok_bind]
  rw [ccAssert_true (by simpa using ra)]
  simp only [R.ok_bind]
  rw [e2]
  simp only [R.ok_bind]
  rw [ccAssert_true (by simpa using rb)]
  simp only [R.ok_bind]
  by_cases hab : a = b
  · rw [if_pos hab, if_pos hab]
    exact ⟨ds2, d, by simp [hab], h2⟩
  · rw [if_neg hab, if_neg hab]
    obtain ⟨xa, ea, -, oka⟩ := entry_ok h2 ha
    obtain ⟨xb, eb, -, okb⟩ := entry_ok h2 hb
    rw [ea, eb]
    simp only [R.ok_bind]
    rw [oka.size ra, okb.size rb]
    unfold S.merge
    split
    · rename_i hlt
      obtain ⟨ds', d', e', h'⟩ := link_ok h2 hb ha rb ra (Ne.symm hab) (by omega)
      rw [e']
      exact ⟨ds', d', by simp [hab], h'⟩
    · rename_i hlt
      obtain ⟨ds', d', e', h'⟩ := link_ok h2 ha hb ra rb hab (by omega)
      rw [e']
      exact ⟨ds', d', by simp [hab], h'⟩

theorem Rel.init {n : Nat} (hn : n < 2 ^ 31) : Rel (init n) (Spec.init n) (fun _ => 0) where
  len := by simp [DSet.init, Spec.init]
  small := hn
  ent := by
    intro e x hx
    simp only [DSet.init, List.getElem?_map, Option.map_eq_some_iff] at hx
    obtain ⟨i, hi, rfl⟩ := hx
    obtain ⟨hlt, rfl⟩ := List.getElem?_eq_some_iff.1 hi
    simp only [List.length_range] at hlt
    have hs : (Spec.init n).setSize e = 1 := by
      unfold S.setSize Spec.init
      simp only
      have : (List.range n).countP (fun x => x == e) = (List.range n).count e := rfl
      rw [this, List.count_range]
      simp [hlt]
    simp only [List.getElem_range]
    exact ⟨hlt, rfl, by simp [Spec.init], by simp, fun _ => hs.symm, by simp, by
      show 2 ^ 0 ≤ (Spec.init n).setSize e
      rw [hs]; decide⟩
  rep_lt := fun _ h => h
  idem := fun _ _ => rfl
  count := by
    unfold S.sets Spec.init DSet.init
    simp

theorem step_ok {ds : DS} {s : S} {d : Nat → Nat} (h : Rel ds s d) (op : Op) :
    match Spec.step s op with
    | none => step ds op = .error .assert
    | some (s', o) => ∃ ds' d', step ds op = .ok (ds', o) ∧ Rel ds' s' d' := by
  cases op with
  | representative e =>
    simp only [Spec.step]
    split
    · rename_i heq
      split at heq
      · simp at heq
      · rename_i he
        simp only [step, callN]; rw [getRep_bad h he]; rfl
    · rename_i heq
      split at heq
      · rename_i he
        simp only [Option.some.injEq, Prod.mk.injEq] at heq
        obtain ⟨rfl, rfl⟩ := heq
        obtain ⟨ds', e', h'⟩ := getRep_ok h he
        simp only [step, callN]; rw [e']
        exact ⟨ds', d, rfl, h'⟩
      · simp at heq
  | isRepresentative e =>
    by_cases he : e < s.n
    · simp only [Spec.step, if_pos he, step, callB]
      obtain ⟨ds', e', h'⟩ := isRep_ok h he
      rw [e']
      exact ⟨ds', d, rfl, h'⟩
    · simp only [Spec.step, if_neg he, step, callB]
      rw [isRep_bad h he]; rfl
  | sameSet a b =>
    by_cases ha : a < s.n
    · obtain ⟨ds1, e1, h1⟩ := getRep_ok h ha
      by_cases hb : b < s.n
      · obtain ⟨ds2, e2, h2⟩ := getRep_ok h1 hb
        simp only [Spec.step, if_pos (And.intro ha hb), step, callB, sameSet]
        rw [e1]; simp only [R.ok_bind]; rw [e2]
        exact ⟨ds2, d, rfl, h2⟩
      · simp only [Spec.step, hb, and_false, if_false, step, callB, sameSet]
        rw [e1]; simp only [R.ok_bind]; rw [getRep_bad h1 hb]; rfl
    · simp only [Spec.step, ha, false_and, if_false, step, callB, sameSet]
      rw [getRep_bad h ha]; rfl
  | sizeByElement e =>
    by_cases he : e < s.n
    · simp only [Spec.step, if_pos he, step, callN, sizeByElement]
      obtain ⟨ds', e', h'⟩ := getRep_ok h he
      obtain ⟨x, ex, -, ok⟩ := entry_ok h' (h.rep_lt e he)
      rw [e']; simp only [R.ok_bind]; rw [ex]
      simp only [R.ok_bind]
      rw [ok.size (h.idem e he)]
      exact ⟨ds', d, rfl, h'⟩
    · simp only [Spec.step, if_neg he, step, callN, sizeByElement]
      rw [getRep_bad h he]; rfl
  | sizeByRepresentative e =>
    by_cases he : e < s.n
    · obtain ⟨ds', e', h'⟩ := isRep_ok h he
      by_cases hr : s.rep e = e
      · simp only [Spec.step, if_pos (And.intro he hr), step, callN, sizeByRepresentative]
        obtain ⟨x, ex, -, ok⟩ := entry_ok h' he
        rw [e']; simp only [R.ok_bind]; rw [ccAssert_true (by simpa using hr), ex]
        simp only [R.ok_bind]
        rw [ok.size hr]
        exact ⟨ds', d, rfl, h'⟩
      · simp only [Spec.step, hr, and_false, if_false, step, callN, sizeByRepresentative]
        rw [e']; simp only [R.ok_bind]; rw [ccAssert_false (by simpa using hr)]; rfl
    · simp only [Spec.step, he, false_and, if_false, step, callN, sizeByRepresentative]
      rw [isRep_bad h he]; rfl
  | mergeByElement a b =>
    by_cases ha : a < s.n
    · obtain ⟨ds1, e1, h1⟩ := getRep_ok h ha
      by_cases hb : b < s.n
      · obtain ⟨ds2, e2, h2⟩ := getRep_ok h1 hb
        obtain ⟨ds3, d3, e3, h3⟩ := merge_ok h2 (h.rep_lt a ha) (h.rep_lt b hb) (h.idem a ha) (h.idem b hb)
        simp only [Spec.step, if_pos (And.intro ha hb), step, callB, mergeByElement]
        rw [e1]; simp only [R.ok_bind]; rw [e2]; simp only [R.ok_bind]; rw [e3]
        split at h3
        · rename_i hc
          rw [if_pos hc]
          exact ⟨ds3, d3, by simp [hc], h3⟩
        · rename_i hc
          rw [if_neg hc]
          exact ⟨ds3, d3, by simp [hc], h3⟩
      · simp only [Spec.step, hb, and_false, if_false, step, callB, mergeByElement]
        rw [e1]; simp only [R.ok_bind]; rw [getRep_bad h1 hb]; rfl
    · simp only [Spec.step, ha, false_and, if_false, step, callB, mergeByElement]
      rw [getRep_bad h ha]; rfl
  | mergeByRepresentative a b =>
    simp only [step, callB]
    by_cases ha : a < s.n
    · obtain ⟨ds1, e1, h1⟩ := isRep_ok h ha
      by_cases hra : s.rep a = a
      · by_cases hb : b < s.n
        · obtain ⟨ds2, e2, h2⟩ := isRep_ok h1 hb
          by_cases hrb : s.rep b = b
          · obtain ⟨ds3, d3, e3, h3⟩ := merge_ok h ha hb hra hrb
            simp only [Spec.step, ha, hb, hra, hrb, and_self, if_true]
            rw [e3]
            split at h3
            · rename_i hc
              rw [if_pos hc]
              exact ⟨ds3, d3, by simp [hc], h3⟩
            · rename_i hc
              rw [if_neg hc]
              exact ⟨ds3, d3, by simp [hc], h3⟩
          · simp only [Spec.step, hrb, and_false, if_false, mergeByRepresentative]
            rw [e1]; simp only [R.ok_bind]; rw [ccAssert_true (by simpa using hra)]; simp only [R.ok_bind]; rw [e2]
            simp only [R.ok_bind]; rw [ccAssert_false (by simpa using hrb)]; rfl
        · simp only [Spec.step, hb, false_and, and_false, if_false, mergeByRepresentative]
          rw [e1]; simp only [R.ok_bind]; rw [ccAssert_true (by simpa using hra)]; simp only [R.ok_bind]
          rw [isRep_bad h1 hb]; rfl
      · simp only [Spec.step, hra, false_and, and_false, if_false, mergeByRepresentative]
        rw [e1]; simp only [R.ok_bind]; rw [ccAssert_false (by simpa using hra)]; rfl
    · simp only [Spec.step, ha, false_and, if_false, mergeByRepresentative]
      rw [isRep_bad h ha]; rfl
  | numberOfElements => exact ⟨ds, d, by simp only [step]; rw [h.len], h⟩
  | numberOfPartitions => exact ⟨ds, d, by simp only [step]; rw [h.count], h⟩

theorem run_ok (ops : List Op) : ∀ {ds : DS} {s : S} {d : Nat → Nat}, Rel ds s d →
    match Spec.run s ops with
    | none => run ds ops = .error .assert
    | some (s', os) => ∃ ds' d', run ds ops = .ok (ds', os) ∧ Rel ds' s' d' := by
  induction ops with
  | nil => intro ds s d h; exact ⟨ds, d, rfl, h⟩
  | cons op ops ih =>
    intro ds s d h
    have hst := step_ok h op
    simp only [Spec.run, run]
    cases hs : Spec.step s op with
    | none =>
      rw [hs] at hst
      simp only at hst
      simp only [Option.bind_eq_bind, Option.bind_none]
      rw [hst]; rfl
    | some p =>
      obtain ⟨s1, o⟩ := p
      rw [hs] at hst
      obtain ⟨ds1, d1, e, h1⟩ := hst
      have h2 := ih h1
      simp only [Option.bind_eq_bind, Option.bind_some]
      rw [e]
      simp only [R.ok_bind]
      cases hs2 : Spec.run s1 ops with
      | none => rw [hs2] at h2; simp only [Option.bind_none] at h2 ⊢; rw [h2]; rfl
      | some p2 =>
        obtain ⟨s2, os⟩ := p2
        rw [hs2] at h2
        obtain ⟨ds2, d2, e2, h2⟩ := h2
        simp only [Option.bind_some]
        rw [e2]
        exact ⟨ds2, d2, rfl, h2⟩

/-! ### the partition is connectivity -/

theorem Conn.mono {P Q : List (Nat × Nat)} (h : ∀ p, p ∈ P → p ∈ Q) {a b : Nat} (c : Conn P a b) : Conn Q a b := by
  induction c with
  | pair h1 => exact .pair (h _ h1)
  | refl a => exact .refl a
  | symm _ ih => exact .symm ih
  | trans _ _ ih1 ih2 => exact .trans ih1 ih2

/-- `rep` is a representative function of the connectivity by `P`. -/
structure RepOK (s : S) (P : List (Nat × Nat)) : Prop where
  conn : ∀ a, a < s.n → Conn P a (s.rep a)
  eq : ∀ a b, Conn P a b → s.rep a = s.rep b
  lt : ∀ a, a < s.n → s.rep a < s.n
  idem : ∀ a, a < s.n → s.rep (s.rep a) = s.rep a

theorem RepOK.init (n : Nat) : RepOK (Spec.init n) [] where
  conn := fun a _ => .refl a
  eq := by
    intro a b c
    induction c with
    | pair h => simp at h
    | refl => rfl
    | symm _ ih => exact ih.symm
    | trans _ _ i1 i2 => exact i1.trans i2
  lt := fun _ h => h
  idem := fun _ _ => rfl

theorem RepOK.relabel {s : S} {P Q : List (Nat × Nat)} (h : RepOK s P) {big small : Nat} (hb : big < s.n)
    (rb : s.rep big = big) (hPQ : ∀ p, p ∈ P → p ∈ Q) (hc : Conn Q small big)
    (hQ : ∀ a b, (a, b) ∈ Q → (a, b) ∈ P ∨ (relabel s big small).rep a = (relabel s big small).rep b) (hne : big ≠ small) :
    RepOK (relabel s big small) Q where
  conn := by
    intro a ha
    simp only [DSet.relabel]
    have h1 := Conn.mono hPQ (h.conn a ha)
    split
    · rename_i he; rw [he] at h1; exact .trans h1 hc
    · exact h1
  eq := by
    intro a b c
    induction c with
    | pair hp =>
      rcases hQ _ _ hp with h1 | h1
      · simp only [DSet.relabel]; rw [h.eq _ _ (.pair h1)]
      · exact h1
    | refl => rfl
    | symm _ ih => exact ih.symm
    | trans _ _ i1 i2 => exact i1.trans i2
  lt := by
    intro a ha
    simp only [DSet.relabel]
    split
    · exact hb
    · exact h.lt a ha
  idem := by
    intro a ha
    simp only [DSet.relabel]
    by_cases hc : s.rep a = small
    · simp only [hc, if_true, rb, if_neg hne]
    · simp only [hc, if_false, h.idem a ha]

theorem RepOK.same {s : S} {P Q : List (Nat × Nat)} (h : RepOK s P) (hPQ : ∀ p, p ∈ P → p ∈ Q)
    (hQ : ∀ a b, (a, b) ∈ Q → (a, b) ∈ P ∨ s.rep a = s.rep b) : RepOK s Q where
  conn := fun a ha => Conn.mono hPQ (h.conn a ha)
  eq := by
    intro a b c
    induction c with
    | pair hp =>
      rcases hQ _ _ hp with h1 | h1
      · exact h.eq _ _ (.pair h1)
      · exact h1
    | refl => rfl
    | symm _ ih => exact ih.symm
    | trans _ _ i1 i2 => exact i1.trans i2
  lt := h.lt
  idem := h.idem

theorem RepOK.merge {s : S} {P : List (Nat × Nat)} (h : RepOK s P) {a b : Nat} (ha : a < s.n) (hb : b < s.n) :
    RepOK (if s.rep a = s.rep b then s else s.merge (s.rep a) (s.rep b)) (P ++ [(a, b)]) := by
  have hsub : ∀ p, p ∈ P → p ∈ P ++ [(a, b)] := by intro p hp; simp [hp]
  have hab : Conn (P ++ [(a, b)]) (s.rep a) (s.rep b) :=
    .trans (.symm (Conn.mono hsub (h.conn a ha))) (.trans (.pair (by simp)) (Conn.mono hsub (h.conn b hb)))
  split
  · rename_i he
    refine h.same hsub ?_
    intro x y hxy
    simp only [List.mem_append, List.mem_cons, List.not_mem_nil, or_false, Prod.mk.injEq] at hxy
    rcases hxy with h1 | ⟨rfl, rfl⟩
    · exact Or.inl h1
    · exact Or.inr he
  · rename_i hne
    unfold S.merge
    split
    · refine h.relabel (big := s.rep b) (small := s.rep a) (h.lt b hb) (h.idem b hb) hsub hab ?_ (Ne.symm hne)
      intro x y hxy
      simp only [List.mem_append, List.mem_cons, List.not_mem_nil, or_false, Prod.mk.injEq] at hxy
      rcases hxy with h1 | ⟨rfl, rfl⟩
      · exact Or.inl h1
      · right; simp only [DSet.relabel, if_true, if_neg (Ne.symm hne)]
    · refine h.relabel (big := s.rep a) (small := s.rep b) (h.lt a ha) (h.idem a ha) hsub hab.symm ?_ hne
      intro x y hxy
      simp only [List.mem_append, List.mem_cons, List.not_mem_nil, or_false, Prod.mk.injEq] at hxy
      rcases hxy with h1 | ⟨rfl, rfl⟩
      · exact Or.inl h1
      · right; simp only [DSet.relabel, if_true, if_neg hne]

theorem repOK_step {s s' : S} {P : List (Nat × Nat)} (h : RepOK s P) {op : Op} {o : Obs} (hs : Spec.step s op = some (s', o)) :
    RepOK s' (P ++ pairs [op]) ∧ s'.n = s.n := by
  have hn : ∀ a b, (S.merge s a b).n = s.n := by intro a b; unfold S.merge; split <;> rfl
  cases op <;> simp only [Spec.step, pairs, List.append_nil] at hs ⊢
  case mergeByElement a b =>
    split at hs
    · rename_i hab
      have hm := h.merge hab.1 hab.2
      split at hs <;> rename_i hc <;> simp only [Option.some.injEq, Prod.mk.injEq] at hs <;> obtain ⟨rfl, -⟩ := hs
      · rw [if_pos hc] at hm; exact ⟨hm, rfl⟩
      · rw [if_neg hc] at hm; exact ⟨hm, hn _ _⟩
    · simp at hs
  case mergeByRepresentative a b =>
    split at hs
    · rename_i hab
      have hm := h.merge hab.1 hab.2.1
      rw [hab.2.2.1, hab.2.2.2] at hm
      split at hs <;> rename_i hc <;> simp only [Option.some.injEq, Prod.mk.injEq] at hs <;> obtain ⟨rfl, -⟩ := hs
      · rw [if_pos hc] at hm; exact ⟨hm, rfl⟩
      · rw [if_neg hc] at hm; exact ⟨hm, hn _ _⟩
    · simp at hs
  case numberOfElements => simp at hs; obtain ⟨rfl, -⟩ := hs; exact ⟨h, rfl⟩
  case numberOfPartitions => simp at hs; obtain ⟨rfl, -⟩ := hs; exact ⟨h, rfl⟩
  all_goals
    split at hs
    · simp at hs; obtain ⟨rfl, -⟩ := hs; exact ⟨h, rfl⟩
    · simp at hs

theorem pairs_cons (op : Op) (ops : List Op) : pairs (op :: ops) = pairs [op] ++ pairs ops := by
  cases op <;> simp [pairs]

theorem repOK_run (ops : List Op) : ∀ {s s' : S} {P : List (Nat × Nat)} {os : List Obs}, RepOK s P →
    Spec.run s ops = some (s', os) → RepOK s' (P ++ pairs ops) ∧ s'.n = s.n := by
  induction ops with
  | nil =>
    intro s s' P os h hr
    simp only [Spec.run, Option.some.injEq, Prod.mk.injEq] at hr
    obtain ⟨rfl, -⟩ := hr
    simpa [pairs] using h
  | cons op ops ih =>
    intro s s' P os h hr
    simp only [Spec.run, Option.bind_eq_bind, Option.bind_eq_some_iff] at hr
    obtain ⟨⟨s1, o⟩, h1, ⟨s2, os2⟩, h2, h3⟩ := hr
    simp only [Option.some.injEq, Prod.mk.injEq] at h3
    obtain ⟨rfl, -⟩ := h3
    obtain ⟨r1, n1⟩ := repOK_step h h1
    obtain ⟨r2, n2⟩ := ih r1 h2
    rw [pairs_cons, ← List.append_assoc]
    exact ⟨r2, n2.trans n1⟩

end Verif.DSet
