import Verif.Str.ViewLemmas
import Verif.Str.Props
/-!
# C144: views of a string stay valid exactly while it has the room it needs
-/
namespace Verif.Str
open Verif.StrView (Chr View)
open Spec (Cell subst)

/-- **C144**: after any history, one of the calls that change a string in place (see `Spec.need`) keeps the memory of the string exactly
if its capacity suffices; a view taken before then shows the new characters at its positions. Otherwise the string has a larger
capacity, and reading through the view is undefined. -/
theorem C144_call {C : Nat} (h7 : 7 ≤ C) (hC : C < 2 ^ 61) (junk : Nat → Chr) (n : Nat) (ops : List Op) (σ σ' : List Cell) (op : Op)
    (h : Spec.run (Spec.init n) ops = some σ) (hs : Spec.step σ op = some σ') (l : List Chr) (t : Bool) (m : Nat)
    (hc : σ[Spec.target op]? = some (.val l t)) (hn : Spec.need l.length op = some m) :
    ∃ st st' s s' l' t', Sys.run C junk (Sys.init n) ops = .ok st ∧ st.step C junk op = .ok st' ∧
      st.vars[Spec.target op]? = some (some s) ∧ st'.vars[Spec.target op]? = some (some s') ∧ σ'[Spec.target op]? = some (.val l' t') ∧
      (s'.place = s.place ↔ m ≤ s.capacity C) ∧ (s'.capacity C = s.capacity C ↔ m ≤ s.capacity C) ∧
      (∀ off len, off + len ≤ l'.length →
        s'.through s.place off len = if m ≤ s.capacity C then .ok ((l'.drop off).take len) else .error .ub) := by
  obtain ⟨st, h1, hI⟩ := run_ok h7 hC (junk := junk) ops (init_inv C n) h
  obtain ⟨st', h2, hI'⟩ := step_ok h7 hC (junk := junk) hI op hs
  obtain ⟨s, s', e1, e2, hk⟩ := step_kept h7 hI hs h2 hc hn
  have hlen : Spec.target op < σ'.length := by rw [← hI'.len]; exact (List.getElem?_eq_some_iff.mp e2).1
  obtain ⟨o, ho, hslot⟩ := inv_get hI' (List.getElem?_eq_getElem hlen)
  obtain ⟨l', t', hc'⟩ : ∃ l' t', σ'[Spec.target op]? = some (.val l' t') := by
    cases op <;> simp only [Spec.need, reduceCtorEq] at hn <;>
    · have hs : Spec.modify σ _ _ = some σ' := hs
      unfold Spec.modify at hs
      simp only [Spec.target] at hc hlen ⊢
      rw [hc] at hs
      obtain ⟨p, -, rfl⟩ := Option.map_eq_some_iff.mp hs
      rw [List.length_set] at hlen
      exact ⟨p.1, p.2, by simp [hlen]⟩
  obtain ⟨o', ho', s2, rfl, -, k, hg⟩ := inv_get hI' hc'
  rw [e2] at ho'
  cases ho'
  refine ⟨st, st', s, s', l', t', h1, h2, e1, e2, hc', ?_, ?_, fun off len hb => ?_⟩
  · refine ⟨fun e => ?_, fun g => (hk.stays g).1⟩
    rcases Nat.lt_or_ge (s.capacity C) m with g | g
    · exact absurd (e.symm.trans (hk.grows g).1) (place_ne_next s)
    · exact g
  · refine ⟨fun e => ?_, fun g => (hk.stays g).2⟩
    rcases Nat.lt_or_ge (s.capacity C) m with g | g
    · have := (hk.grows g).2
      omega
    · exact g
  · split
    · rename_i g
      rw [← (hk.stays g).1]
      exact through_ok hg hb
    · rename_i g
      refine through_other ?_ off len
      rw [(hk.grows (by omega)).1]
      exact place_ne_next s

/-- What is kept along a history. -/
theorem within_ok {C : Nat} (h7 : 7 ≤ C) (hC : C < 2 ^ 61) {junk : Nat → Chr} {cap d : Nat} (more : List Op) : ∀ {st : Sys} {σ σ' : List Cell}
    {s : Str}, Inv C st σ → st.vars[d]? = some (some s) → s.capacity C = cap → Spec.run σ more = some σ' → Spec.Within cap d σ more →
    ∃ st' s', Sys.run C junk st more = .ok st' ∧ Inv C st' σ' ∧ st'.vars[d]? = some (some s') ∧ s'.place = s.place ∧ s'.capacity C = cap := by
  induction more with
  | nil =>
    intro st σ σ' s hI hv hcap hr _
    cases hr
    exact ⟨st, s, rfl, hI, hv, rfl, hcap⟩
  | cons op more ih =>
    intro st σ σ' s hI hv hcap hr hw
    obtain ⟨σ1, hs, hr⟩ := Option.bind_eq_some_iff.mp hr
    obtain ⟨st1, h1, hI1⟩ := step_ok h7 hC (junk := junk) hI op hs
    obtain ⟨s1, hv1, hp1, hc1⟩ : ∃ s1, st1.vars[d]? = some (some s1) ∧ s1.place = s.place ∧ s1.capacity C = cap := by
      rcases hw.1 with ⟨a, b⟩ | ⟨rfl, l, t, n, hc, hn, hle⟩
      · exact ⟨s, (step_other a b h1).trans hv, rfl, hcap⟩
      · obtain ⟨s2, s3, e2, e3, hk⟩ := step_kept h7 hI hs h1 hc hn
        rw [hv] at e2
        cases e2
        obtain ⟨q1, q2⟩ := hk.stays (by omega)
        exact ⟨s3, e3, q1, q2.trans hcap⟩
    obtain ⟨st', s', e1, e2, e3, e4, e5⟩ := ih hI1 hv1 hc1 hr (hw.2 σ1 hs)
    refine ⟨st', s', ?_, e2, e3, e4.trans hp1, e5⟩
    unfold Sys.run
    rw [h1, R.ok_bind, e1]

/-- **C144**: a view of a string stays valid through any history, of calls on it that need no more room than its capacity and of any
calls on other strings (also copies and moves between them, and copies of the string): the string stays where it is, with its
capacity, and the view shows the characters that are at its positions then. -/
theorem C144_history {C : Nat} (h7 : 7 ≤ C) (hC : C < 2 ^ 61) (junk : Nat → Chr) (n : Nat) (ops more : List Op) (σ σ' : List Cell)
    (h : Spec.run (Spec.init n) ops = some σ) (h' : Spec.run σ more = some σ') (d : Nat) (l' : List Chr) (t' : Bool)
    (hc' : σ'[d]? = some (.val l' t')) (st : Sys) (s : Str) (hst : Sys.run C junk (Sys.init n) ops = .ok st)
    (hv : st.vars[d]? = some (some s)) (hw : Spec.Within (s.capacity C) d σ more) :
    ∃ st' s', Sys.run C junk st more = .ok st' ∧ st'.vars[d]? = some (some s') ∧ s'.place = s.place ∧ s'.capacity C = s.capacity C ∧
      ∀ off len, off + len ≤ l'.length → s'.through s.place off len = .ok ((l'.drop off).take len) := by
  obtain ⟨st0, h1, hI⟩ := run_ok h7 hC (junk := junk) ops (init_inv C n) h
  rw [hst] at h1
  cases h1
  obtain ⟨st', s', e1, e2, e3, e4, e5⟩ := within_ok h7 hC (junk := junk) more hI hv rfl h' hw
  obtain ⟨o, ho, s2, rfl, -, k, hg⟩ := inv_get e2 hc'
  rw [e3] at ho
  cases ho
  refine ⟨st', s', e1, e3, e4, e5, fun off len hb => ?_⟩
  rw [← e4]
  exact through_ok hg hb

/-- **C144**: assigning another string by copy always exchanges the block, however large the old one is: a long text goes to a new block of
exactly its size, a short one to the small buffer. -/
theorem C144_assign {C : Nat} (h7 : 7 ≤ C) (hC : C < 2 ^ 61) (junk : Nat → Chr) (n : Nat) (ops : List Op) (σ : List Cell)
    (h : Spec.run (Spec.init n) ops = some σ) (d e : Nat) (hne : d ≠ e) (l m : List Chr) (t u : Bool)
    (hd : σ[d]? = some (.val l t)) (he : σ[e]? = some (.val m u)) :
    ∃ st st' s s', Sys.run C junk (Sys.init n) ops = .ok st ∧ st.step C junk (.assign d e) = .ok st' ∧
      st.vars[d]? = some (some s) ∧ st'.vars[d]? = some (some s') ∧
      s'.place = (if m.length ≤ C then .inline else .block (s.news + 1)) ∧
      (C < m.length → s'.place ≠ s.place ∧ s'.capacity C = m.length ∧ ∀ off len, s'.through s.place off len = .error .ub) := by
  obtain ⟨st, h1, hI⟩ := run_ok h7 hC (junk := junk) ops (init_inv C n) h
  obtain ⟨o, ho, s, rfl, -, k, hg⟩ := inv_get hI hd
  obtain ⟨o2, ho2, r, rfl, hl, k2, hr⟩ := inv_get hI he
  have ha : Spec.alive σ d = true := by unfold Spec.alive; rw [hd]
  obtain ⟨st', h2, hI'⟩ := step_ok h7 hC (junk := junk) hI (.assign d e) (σ' := σ.set d (.val m u)) (by
    simp only [Spec.step, he, if_neg hne, ha, if_true])
  have hm := h2
  simp only [Sys.step, if_neg hne, Sys.get, ho2, R.ok_bind, Sys.modify, ho, R.bind_eq_ok, R.pure_eq] at hm
  obtain ⟨s', es, x⟩ := hm
  cases x
  have hlt := (List.getElem?_eq_some_iff.mp ho).1
  have hplace : s'.place = (if m.length ≤ C then .inline else .block (s.news + 1)) ∧ (C < m.length → s'.capacity C = m.length) := by
    unfold copyAssign copyInto at es
    have hf := hr.fits; have hsz := hr.size
    by_cases q : r.isShort = true
    · rw [if_pos q] at es
      cases es
      have : r.capacity C = C := by unfold Str.capacity; rw [if_pos q]
      rw [if_pos (by omega)]
      exact ⟨rfl, fun g => absurd g (by omega)⟩
    · rw [if_neg q] at es
      simp only [R.bind_eq_ok] at es
      obtain ⟨rb, -, src, -, es⟩ := es
      by_cases q2 : r.size ≤ C
      · rw [if_pos q2] at es
        simp only [R.bind_eq_ok, R.pure_eq] at es
        obtain ⟨un, -, x⟩ := es
        cases x
        rw [if_pos (by omega)]
        exact ⟨rfl, fun g => absurd g (by omega)⟩
      · rw [if_neg q2] at es
        simp only [R.bind_eq_ok, R.pure_eq] at es
        obtain ⟨nb, -, x⟩ := es
        cases x
        rw [if_neg (by omega)]
        refine ⟨?_, fun _ => ?_⟩
        · change Place.block (s.release.release.news + 1) = _
          rw [release_news, release_news]
        · change leVal ((leBytes 8 r.size ++ s.release.release.un.drop 8).take 8) = m.length
          rw [List.take_left' (leBytes_length 8 _), leVal_leBytes]
          omega
  refine ⟨st, _, s, s', h1, h2, ho, by simp [hlt], hplace.1, fun g => ?_⟩
  have hne' : s'.place ≠ s.place := by
    rw [hplace.1, if_neg (by omega)]
    exact (place_ne_next s).symm
  exact ⟨hne', hplace.2 g, fun off len => through_other (Ne.symm hne') off len⟩

/-- **C144**: moving a long string hands its block over, with every view of it, and leaves the source without one; moving a short string
copies the characters, so that views stay with the source. (For construction `this` is the empty string, for assignment the target
after it has given up its block.) -/
theorem C144_move (this rhs : Str) :
    (rhs.isShort = false → (moveInto this rhs).1.data = rhs.data ∧ (moveInto this rhs).1.size = rhs.size ∧ (moveInto this rhs).2.place = .none) ∧
    (rhs.isShort = true → (moveInto this rhs).2 = rhs ∧ (moveInto this rhs).1.place = .inline) := by
  refine ⟨fun h => ?_, fun h => ?_⟩ <;> unfold moveInto <;> simp [h, Str.place]

/-- **C144**: `clear` gives the block back (unlike that of a vector), and `shrink_to_fit` keeps the memory exactly if it is the small buffer or
has no spare character. -/
theorem C144_clear_shrink {C : Nat} (junk : Nat → Chr) (s : Str) :
    s.clear.place = .inline ∧
      ∀ s', s.shrinkToFit C junk = .ok s' →
        s'.place = if s.isShort ∨ s.size = s.capacity C then s.place else if s.size ≤ C then .inline else .block (s.news + 1) := by
  refine ⟨rfl, fun s' h => ?_⟩
  unfold Str.shrinkToFit at h
  by_cases q : s.isShort = true
  · rw [if_pos q] at h
    cases h
    rw [if_pos (Or.inl q)]
  · rw [if_neg q] at h
    by_cases q2 : s.size = s.capacity C
    · rw [if_pos q2] at h
      cases h
      rw [if_pos (Or.inr q2)]
    · rw [if_neg q2] at h
      rw [if_neg (by simp [q, q2])]
      simp only [R.bind_eq_ok] at h
      obtain ⟨_, -, _, -, h⟩ := h
      by_cases q3 : s.size ≤ C
      · rw [if_pos q3] at h ⊢
        simp only [R.bind_eq_ok, R.pure_eq] at h
        obtain ⟨_, -, e⟩ := h
        cases e
        rfl
      · rw [if_neg q3] at h ⊢
        simp only [R.bind_eq_ok, R.pure_eq] at h
        obtain ⟨_, -, e⟩ := h
        cases e
        change Place.block (s.release.news + 1) = _
        rw [release_news]

/-- The loop of `replace(old, new)` stays in the memory there is if the result fits: the sizes in between are those of the text or of the
result at most. -/
theorem kept_replaceLoop {C : Nat} (h7 : 7 ≤ C) {junk : Nat → Chr} {old new : List Chr} (h0 : old ≠ []) (hol : old.length < 2 ^ 61) (fuel : Nat) :
    ∀ (s : Str) (don rest : List Chr) (t : Bool) (k : Int) (i : Nat), Good C s (don ++ rest) t k → i = don.length → rest.length < fuel →
      (don ++ rest).length < 2 ^ 61 → (don ++ subst old new rest 0).length < 2 ^ 61 →
      (don ++ subst old new rest 0).length ≤ s.capacity C → ∀ s', replaceLoop C junk old new fuel s i = .ok s' →
      s'.place = s.place ∧ s'.capacity C = s.capacity C := by
  have hpos : 0 < old.length := List.length_pos_iff.mpr h0
  induction fuel with
  | zero => intro s don rest t k i _ _ hf; omega
  | succ fuel ih =>
    intro s don rest t k i h hi hf hl1 hl2 hcap s' hr
    rw [replaceLoop] at hr
    have hsz := h.size
    rw [List.length_append] at hsz hl1 hl2 hcap
    by_cases c : i + old.length ≤ s.size
    · rw [if_pos c] at hr
      obtain ⟨r, hv, hin, hch⟩ := view_ok h
      obtain ⟨hoi, hoc⟩ := ext_inside hol
      have hle : i + old.length ≤ (don ++ rest).length := by rw [List.length_append]; omega
      rw [hv, R.ok_bind, StrView.subview_ok hin hle, R.ok_bind] at hr
      have hin2 := StrView.sub_inside hin hle
      have hch2 : (View.mk (don ++ rest ++ r) (0 + i) old.length).chars = rest.take old.length := by
        have := StrView.sub_chars (v := ⟨don ++ rest ++ r, 0, (don ++ rest).length⟩) (a := i) (n := old.length) hle
        rw [hch, List.drop_left' hi.symm] at this
        exact this
      dsimp only at hr
      rw [StrView.eq_ok hin2 hoi, R.ok_bind, hch2, hoc] at hr
      by_cases p : rest.take old.length = old
      · rw [decide_eq_true p, if_pos rfl] at hr
        obtain ⟨b, rfl⟩ := take_eq_iff_prefix.mp p
        rw [subst_found h0, List.length_append] at hl2 hcap
        rw [List.length_append] at hl1 hsz hf
        have hfit := h.fits
        rw [List.length_append, List.length_append] at hfit
        have hlen : (don ++ (new ++ b)).length < 2 ^ 61 ∧ don.length + new.length + b.length ≤ s.capacity C := by
          simp only [List.length_append]
          by_cases q : old.length ≤ new.length
          · have := subst_length_ge h0 q b.length b (Nat.le_refl _)
            omega
          · omega
        obtain ⟨s1, e1, g1⟩ := replaceAt_ok h7 (junk := junk) h hi rfl (m := new) hlen.1
        rw [e1, R.ok_bind] at hr
        have hk := kept_replaceAt h i old.length (.ext new) (by simp only [List.length_append]; omega)
          (by have := hlen.1; simp only [List.length_append, Arg.size] at this ⊢; omega) e1
        obtain ⟨k1, k2⟩ := hk.stays (by have := hlen.2; simp only [List.length_append, Arg.size]; omega)
        rw [show don ++ (new ++ b) = (don ++ new) ++ b by simp only [List.append_assoc]] at g1
        obtain ⟨q1, q2⟩ := ih s1 (don ++ new) b t k (i + new.length) g1 (by rw [List.length_append, hi]) (by omega)
          (by have := hlen.1; simp only [List.length_append] at this ⊢; omega) (by simp only [List.length_append]; omega)
          (by rw [k2]; simp only [List.length_append]; omega) s' hr
        exact ⟨q1.trans k1, q2.trans k2⟩
      · rw [decide_eq_false p, if_neg (by simp)] at hr
        cases rest with
        | nil => simp only [List.length_nil] at hsz; omega
        | cons x rest =>
          have hnp : ¬ old <+: x :: rest := fun hp => p (take_eq_iff_prefix.mpr hp)
          rw [subst_not new hnp, List.length_cons] at hl2 hcap
          rw [List.length_cons] at hl1 hsz hf
          rw [show don ++ x :: rest = (don ++ [x]) ++ rest by simp] at h
          exact ih s (don ++ [x]) rest t k (i + 1) h (by rw [List.length_append, hi]; rfl) (by omega)
            (by simp only [List.length_append, List.length_cons, List.length_nil]; omega)
            (by simp only [List.length_append, List.length_cons, List.length_nil]; omega)
            (by simp only [List.length_append, List.length_cons, List.length_nil]; omega) s' hr
    · rw [if_neg c] at hr
      cases hr
      exact ⟨rfl, rfl⟩

/-- **C144**: `replace(old, new)` keeps the memory if the result fits into the capacity, and changes the capacity if it does not. -/
theorem C144_replace {C : Nat} (h7 : 7 ≤ C) (hC : C < 2 ^ 61) (junk : Nat → Chr) (n : Nat) (ops : List Op) (σ σ' : List Cell) (d : Nat)
    (old new : List Chr) (h : Spec.run (Spec.init n) ops = some σ) (hs : Spec.step σ (.replaceAll d old new) = some σ')
    (l l' : List Chr) (t t' : Bool) (hc : σ[d]? = some (.val l t)) (hc' : σ'[d]? = some (.val l' t')) :
    ∃ st st' s s', Sys.run C junk (Sys.init n) ops = .ok st ∧ st.step C junk (.replaceAll d old new) = .ok st' ∧
      st.vars[d]? = some (some s) ∧ st'.vars[d]? = some (some s') ∧
      (l'.length ≤ s.capacity C → s'.place = s.place ∧ s'.capacity C = s.capacity C ∧
        ∀ off len, off + len ≤ l'.length → s'.through s.place off len = .ok ((l'.drop off).take len)) ∧
      (s.capacity C < l'.length → s.capacity C < s'.capacity C) := by
  obtain ⟨st, h1, hI⟩ := run_ok h7 hC (junk := junk) ops (init_inv C n) h
  obtain ⟨st', h2, hI'⟩ := step_ok h7 hC (junk := junk) hI _ hs
  obtain ⟨o, ho, s, rfl, hl, k, hg⟩ := inv_get hI hc
  obtain ⟨o', ho', s', rfl, -, k', hg'⟩ := inv_get hI' hc'
  have hlt := (List.getElem?_eq_some_iff.mp ho).1
  have hσ : old ≠ [] ∧ (subst old new l 0).length < 2 ^ 61 ∧ l' = subst old new l 0 := by
    simp only [Spec.step, Spec.modify, hc] at hs
    obtain ⟨p, hp, rfl⟩ := Option.map_eq_some_iff.mp hs
    split at hp
    · cases hp
    · rename_i q
      obtain ⟨e1, -, e3⟩ := small_eq hp
      have hd : d < σ.length := (List.getElem?_eq_some_iff.mp hc).1
      simp only [List.getElem?_set_self hd, Option.some.injEq, Cell.val.injEq] at hc'
      rw [← hc'.1, e1]
      exact ⟨q, e3, rfl⟩
  obtain ⟨q0, q1, rfl⟩ := hσ
  have hm := h2
  simp only [Sys.step, Sys.modify, ho, R.bind_eq_ok, R.pure_eq] at hm
  obtain ⟨s2, es, x⟩ := hm
  cases x
  simp only [List.getElem?_set_self hlt, Option.some.injEq] at ho'
  subst ho'
  have hkey : (subst old new l 0).length ≤ s.capacity C → s2.place = s.place ∧ s2.capacity C = s.capacity C := by
    intro hcap
    unfold Str.replaceAll at es
    have hpos : 0 < old.length := List.length_pos_iff.mpr q0
    rw [ccAssert_true (decide_eq_true (by omega)), R.ok_bind] at es
    have hsz := hg.size
    by_cases c : old.length > s.size
    · rw [if_pos c] at es
      cases es
      exact ⟨rfl, rfl⟩
    · rw [if_neg c] at es
      exact kept_replaceLoop h7 q0 (by omega) (s.size + 1) s [] l t k 0 hg rfl (by omega) hl q1 hcap s2 es
  refine ⟨st, _, s, s2, h1, h2, ho, by simp [hlt], fun hcap => ?_, fun hcap => ?_⟩
  · obtain ⟨e1, e2⟩ := hkey hcap
    refine ⟨e1, e2, fun off len hb => ?_⟩
    rw [← e1]
    exact through_ok hg' hb
  · have := hg'.fits
    omega

/-! ### Cases that meet the hypotheses -/

/-- A string with room for 40 characters. -/
def viewOps : List Op := [.make 0 (txt "hello"), .reserve 0 40, .make 1 (txt "a text that is longer than fifteen")]

/-- It is filled up, changed and shortened, while another string is copied from it and moved around. -/
def viewMore : List Op :=
  [.append 0 (txt " world, how are you"), .copyNew 2 0, .moveNew 3 1, .replaceAt 0 0 5 (txt "goodbye"), .padEnd 0 40 46#8, .moveAssign 1 3,
   .removePrefix 0 8, .pushBack 0 33#8, .assign 2 1]

def viewSys (ops : List Op) : R Sys := Sys.run 15 (fun i => BitVec.ofNat 8 i) (Sys.init 4) ops

/-- The view of the first five characters shows `hello` first and the new characters at the end, in the same block. -/
example :
    (do let st ← viewSys viewOps
        let s ← st.get 0
        let st' ← Sys.run 15 (fun i => BitVec.ofNat 8 i) st viewMore
        let s' ← st'.get 0
        let a ← s.through s.place 0 5
        let b ← s'.through s.place 0 5
        pure (s.capacity 15, s.place, s'.place, a, b)) = .ok (40, .block 1, .block 1, txt "hello", txt "world") := by decide +kernel

/-- All of these calls are within the capacity. -/
example : ∃ σ σ', Spec.run (Spec.init 4) viewOps = some σ ∧ Spec.run σ viewMore = some σ' ∧ Spec.Within 40 0 σ viewMore := by
  refine ⟨[.val (txt "hello") true, .val (txt "a text that is longer than fifteen") true, .dead, .dead], _, by decide +kernel, rfl, ?_⟩
  unfold viewMore
  refine ⟨Or.inr ⟨rfl, _, _, _, rfl, rfl, by decide +kernel⟩, fun σ1 h1 => ?_⟩
  obtain rfl := Option.some.inj h1
  refine ⟨Or.inl ⟨by decide, by decide⟩, fun σ2 h2 => ?_⟩
  obtain rfl := Option.some.inj h2
  refine ⟨Or.inl ⟨by decide, by decide⟩, fun σ3 h3 => ?_⟩
  obtain rfl := Option.some.inj h3
  refine ⟨Or.inr ⟨rfl, _, _, _, rfl, rfl, by decide +kernel⟩, fun σ4 h4 => ?_⟩
  obtain rfl := Option.some.inj h4
  refine ⟨Or.inr ⟨rfl, _, _, _, rfl, rfl, by decide +kernel⟩, fun σ5 h5 => ?_⟩
  obtain rfl := Option.some.inj h5
  refine ⟨Or.inl ⟨by decide, by decide⟩, fun σ6 h6 => ?_⟩
  obtain rfl := Option.some.inj h6
  refine ⟨Or.inr ⟨rfl, _, _, _, rfl, rfl, by decide +kernel⟩, fun σ7 h7 => ?_⟩
  obtain rfl := Option.some.inj h7
  refine ⟨Or.inr ⟨rfl, _, _, _, rfl, rfl, by decide +kernel⟩, fun σ8 h8 => ?_⟩
  obtain rfl := Option.some.inj h8
  exact ⟨Or.inl ⟨by decide, by decide⟩, fun _ _ => trivial⟩

/-- One character too many ends the view. -/
example :
    (do let st ← viewSys viewOps
        let s ← st.get 0
        let st' ← Sys.run 15 (fun i => BitVec.ofNat 8 i) st [.resize 0 41 46#8]
        let s' ← st'.get 0
        pure (s'.place, s'.through s.place 0 5)) = .ok (.block 2, .error .ub) := by decide +kernel

/-- A string of 16 characters is assigned one of 16 characters: the same capacity, but another block. -/
example :
    (do let st ← viewSys [.make 0 (txt "0123456789abcdef"), .make 1 (txt "fedcba9876543210")]
        let s ← st.get 0
        let st' ← Sys.run 15 (fun i => BitVec.ofNat 8 i) st [.assign 0 1]
        let s' ← st'.get 0
        pure (s.capacity 15, s'.capacity 15, s.place, s'.place)) = .ok (16, 16, .block 1, .block 2) := by decide +kernel

/-- `replace` in place: the text gets longer and fits; a view shows the new characters. -/
example :
    (do let st ← viewSys [.make 0 (txt "a-b-c"), .reserve 0 20]
        let s ← st.get 0
        let st' ← Sys.run 15 (fun i => BitVec.ofNat 8 i) st [.replaceAll 0 (txt "-") (txt " to ")]
        let s' ← st'.get 0
        let b ← s'.through s.place 5 6
        pure (s.place, s'.place, b)) = .ok (.block 1, .block 1, txt "b to c") := by decide +kernel

end Verif.Str
