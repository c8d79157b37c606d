import Verif.Str.ViewSpec
import Verif.Str.Growth
import Verif.Str.History
/-! Helper lemmas for C144: which calls exchange the memory of a string. -/
namespace Verif.Str
open Verif.StrView (Chr View)

/-- A call that needs room for `n` characters: the same memory if there is room, another block otherwise. -/
structure Kept (C n : Nat) (s s' : Str) : Prop where
  stays : n ≤ s.capacity C → s'.place = s.place ∧ s'.capacity C = s.capacity C
  grows : s.capacity C < n → s'.place = .block (s.news + 1) ∧ n ≤ s'.capacity C

theorem place_setBuf (s : Str) (b : List Chr) : (s.setBuf b).place = s.place := by
  unfold Str.setBuf Str.place
  cases e : s.data <;> simp [e]

theorem cap_setBuf' (C : Nat) (s : Str) (b : List Chr) : (s.setBuf b).capacity C = s.capacity C := cap_setBuf C s b (s.setBuf b).size

theorem kept_refl {C n : Nat} {s : Str} (h : n ≤ s.capacity C) : Kept C n s s := ⟨fun _ => ⟨rfl, rfl⟩, fun g => absurd g (by omega)⟩

/-- Characters are written and the size is changed in the memory there is. -/
theorem kept_write {C n : Nat} {s s' : Str} (h : Kept C n s s') (b : List Chr) (m : Nat) :
    Kept C n s { s'.setBuf b with size := m } := by
  have h1 : ({ s'.setBuf b with size := m } : Str).place = s'.place := place_setBuf s' b
  have h2 := cap_setBuf C s' b m
  exact ⟨fun g => by rw [h1, h2]; exact h.stays g, fun g => by rw [h1, h2]; exact h.grows g⟩

theorem kept_setBuf {C n : Nat} {s s' : Str} (h : Kept C n s s') (b : List Chr) : Kept C n s (s'.setBuf b) :=
  kept_write h b (s'.setBuf b).size

theorem release_news (s : Str) : s.release.news = s.news := by
  unfold Str.release
  cases s.data <;> rfl

/-- A larger block is adopted. -/
theorem kept_adopt {C n : Nat} {s : Str} (b : List Chr) {cap : Nat} (m : Nat) (h1 : s.capacity C < n) (h2 : n ≤ cap) (h3 : cap < 2 ^ 64) :
    Kept C n s { s.adopt b cap with size := m } := by
  refine ⟨fun g => absurd g (by omega), fun _ => ⟨?_, ?_⟩⟩
  · change Place.block (s.release.news + 1) = _
    rw [release_news]
  · have : ({ s.adopt b cap with size := m } : Str).capacity C = leVal ((leBytes 8 cap ++ s.release.un.drop 8).take 8) := rfl
    rw [this, List.take_left' (leBytes_length 8 cap), leVal_leBytes]
    omega

theorem kept_adopt' {C n : Nat} {s : Str} (b : List Chr) {cap : Nat} (h1 : s.capacity C < n) (h2 : n ≤ cap) (h3 : cap < 2 ^ 64) :
    Kept C n s (s.adopt b cap) := kept_adopt b (s.adopt b cap).size h1 h2 h3

theorem kept_reserve {C : Nat} {junk : Nat → Chr} {s s' : Str} {n : Nat} (hn : n < 2 ^ 64) (h : s.reserve C junk n = .ok s') :
    Kept C n s s' ∧ s'.size = s.size := by
  unfold Str.reserve at h
  by_cases g : n ≤ s.capacity C
  · rw [if_pos g] at h
    cases h
    exact ⟨kept_refl g, rfl⟩
  · rw [if_neg g] at h
    unfold Str.reserveForce at h
    simp only [R.bind_eq_ok, R.pure_eq] at h
    obtain ⟨b, -, src, -, nb, -, e⟩ := h
    cases e
    refine ⟨kept_adopt' nb (by omega) (Nat.le_refl n) hn, ?_⟩
    change s.release.size = s.size
    unfold Str.release
    cases s.data <;> rfl

section Calls
variable {C : Nat} {junk : Nat → Chr} {s s' : Str} {l : List Chr} {t : Bool} {k : Int}

theorem kept_pushBack (h7 : 7 ≤ C) (g : Good C s l t k) (c : Chr) (h : s.pushBack C junk c = .ok s') : Kept C (l.length + 1) s s' := by
  unfold Str.pushBack at h
  simp only [R.bind_eq_ok, R.pure_eq] at h
  obtain ⟨s1, e1, b, -, b1, -, b2, -, e⟩ := h
  cases e
  refine kept_write ?_ _ _
  have h1 := g.fits; have h2 := g.lo; have h3 := g.hi; have h4 := g.size
  by_cases q : s.size = s.capacity C
  · rw [if_pos q] at e1
    unfold Str.grow Str.reserveForce at e1
    simp only [R.bind_eq_ok, R.pure_eq] at e1
    obtain ⟨_, -, _, -, nb, -, e⟩ := e1
    cases e
    exact kept_adopt' nb (by omega) (by omega) (by omega)
  · rw [if_neg q] at e1
    cases e1
    exact kept_refl (by omega)

theorem kept_resize (n : Nat) (hn : n < 2 ^ 64) (c : Chr) (h : s.resize C junk n c = .ok s') : Kept C n s s' := by
  unfold Str.resize at h
  simp only [R.bind_eq_ok, R.pure_eq] at h
  obtain ⟨s1, e1, b, -, b1, -, b2, -, e⟩ := h
  cases e
  exact kept_write (kept_reserve hn e1).1 _ _

theorem kept_fill (n : Nat) (hn : n < 2 ^ 61) (c : Chr) (h : s.fill C junk c n = .ok s') : Kept C n s s' := by
  unfold Str.fill at h
  simp only [R.bind_eq_ok, R.pure_eq] at h
  obtain ⟨s1, e1, b, -, b1, -, e⟩ := h
  cases e
  refine kept_setBuf ?_ _
  by_cases q : n ≤ s.capacity C
  · rw [if_pos q] at e1
    simp only [R.bind_eq_ok] at e1
    obtain ⟨_, -, b2, -, e⟩ := e1
    cases e
    exact kept_write (kept_refl q) _ _
  · have hd : n ≠ dynamicSize := by unfold dynamicSize; omega
    rw [if_neg q, if_pos hd] at e1
    simp only [R.bind_eq_ok] at e1
    obtain ⟨_, -, nb, -, e⟩ := e1
    cases e
    exact kept_adopt nb n (by omega) (Nat.le_refl n) (by omega)

theorem kept_fillAll (g : Good C s l t k) (c : Chr) (h : s.fill C junk c dynamicSize = .ok s') : Kept C l.length s s' := by
  unfold Str.fill at h
  simp only [R.bind_eq_ok, R.pure_eq] at h
  obtain ⟨s1, e1, b, -, b1, -, e⟩ := h
  cases e
  refine kept_setBuf ?_ _
  have h3 := g.hi
  have q : ¬ dynamicSize ≤ s.capacity C := by unfold dynamicSize; omega
  rw [if_neg q, if_neg (by simp)] at e1
  cases e1
  exact kept_refl g.fits

theorem kept_padStart (g : Good C s l t k) (n : Nat) (hn : n < 2 ^ 61) (c : Chr) (h : s.padStart C junk n c = .ok s') :
    Kept C (max l.length n) s s' := by
  have h1 := g.fits; have h4 := g.size
  unfold Str.padStart at h
  by_cases q : s.size ≥ n
  · rw [if_pos q] at h
    cases h
    exact kept_refl (by omega)
  · rw [if_neg q] at h
    simp only [R.bind_eq_ok, R.pure_eq] at h
    obtain ⟨s1, e1, b, -, b1, -, b2, -, b3, -, e⟩ := h
    cases e
    rw [show max l.length n = n by omega]
    exact kept_write (kept_reserve (by omega) e1).1 _ _

theorem kept_padEnd (g : Good C s l t k) (n : Nat) (hn : n < 2 ^ 61) (c : Chr) (h : s.padEnd C junk n c = .ok s') :
    Kept C (max l.length n) s s' := by
  have h1 := g.fits; have h4 := g.size
  unfold Str.padEnd at h
  by_cases q : s.size ≥ n
  · rw [if_pos q] at h
    cases h
    exact kept_refl (by omega)
  · rw [if_neg q] at h
    simp only [R.bind_eq_ok, R.pure_eq] at h
    obtain ⟨s1, e1, b, -, b1, -, b2, -, e⟩ := h
    cases e
    rw [show max l.length n = n by omega]
    exact kept_write (kept_reserve (by omega) e1).1 _ _

theorem kept_append (g : Good C s l t k) (a : Arg) (ha : l.length + a.size < 2 ^ 61) (h : s.append C junk a = .ok s') :
    Kept C (l.length + a.size) s s' := by
  have h3 := g.hi; have h4 := g.size
  unfold Str.append at h
  simp only [R.bind_eq_ok, R.pure_eq] at h
  obtain ⟨b, -, h⟩ := h
  have hm : (s.size + a.size) % 2 ^ 64 = l.length + a.size := by omega
  rw [hm] at h
  by_cases q : l.length + a.size ≤ s.capacity C
  · rw [if_pos q] at h
    simp only [R.bind_eq_ok] at h
    obtain ⟨b1, -, b2, -, e⟩ := h
    cases e
    exact kept_write (kept_refl q) _ _
  · rw [if_neg q] at h
    simp only [R.bind_eq_ok] at h
    obtain ⟨_, -, _, -, _, -, _, -, _, -, nb, -, e⟩ := h
    cases e
    refine kept_adopt nb _ (by omega) ?_ ?_ <;> split <;> omega

theorem kept_replaceAt (g : Good C s l t k) (pos count : Nat) (a : Arg) (hp : pos + count ≤ l.length)
    (ha : l.length - count + a.size < 2 ^ 61) (h : s.replaceAt C junk pos count a = .ok s') :
    Kept C (l.length - count + a.size) s s' := by
  have h1 := g.fits; have h3 := g.hi; have h4 := g.size
  unfold Str.replaceAt at h
  simp only [R.bind_eq_ok] at h
  obtain ⟨_, -, _, -, b, -, h⟩ := h
  by_cases q : count = a.size
  · rw [if_pos q] at h
    simp only [R.bind_eq_ok, R.pure_eq] at h
    obtain ⟨b1, -, e⟩ := h
    cases e
    exact kept_setBuf (kept_refl (by omega)) _
  · rw [if_neg q] at h
    have hm : (sub64 s.size count + a.size) % 2 ^ 64 = l.length - count + a.size := by unfold sub64; omega
    rw [hm] at h
    by_cases q2 : l.length - count + a.size > s.capacity C
    · rw [if_pos q2] at h
      simp only [R.bind_eq_ok, R.pure_eq] at h
      obtain ⟨_, -, _, -, _, -, _, -, _, -, _, -, nb, -, e⟩ := h
      cases e
      refine kept_adopt nb _ (by omega) ?_ ?_ <;> split <;> omega
    · rw [if_neg q2] at h
      simp only [R.bind_eq_ok, R.pure_eq] at h
      obtain ⟨_, -, _, -, _, -, e⟩ := h
      cases e
      exact kept_write (kept_refl (by omega)) _ _

theorem kept_popBack (g : Good C s l t k) (h : s.popBack = .ok s') : Kept C l.length s s' := by
  unfold Str.popBack at h
  simp only [R.bind_eq_ok, R.pure_eq] at h
  obtain ⟨_, -, _, -, _, -, e⟩ := h
  cases e
  exact kept_write (kept_refl g.fits) _ _

theorem kept_capitalize (g : Good C s l t k) (h : s.capitalize = .ok s') : Kept C l.length s s' := by
  unfold Str.capitalize at h
  simp only [R.bind_eq_ok, R.pure_eq] at h
  obtain ⟨_, -, _, -, _, -, e⟩ := h
  cases e
  exact kept_setBuf (kept_refl g.fits) _

theorem kept_replaceChars (g : Good C s l t k) (old new : Chr) (h : s.replaceChars old new = .ok s') : Kept C l.length s s' := by
  unfold Str.replaceChars at h
  simp only [R.bind_eq_ok, R.pure_eq] at h
  obtain ⟨_, -, _, -, e⟩ := h
  cases e
  exact kept_setBuf (kept_refl g.fits) _

theorem kept_removePrefix (g : Good C s l t k) (n : Nat) (h : s.removePrefix n = .ok s') : Kept C l.length s s' := by
  unfold Str.removePrefix at h
  simp only [R.bind_eq_ok, R.pure_eq] at h
  obtain ⟨_, -, _, -, _, -, e⟩ := h
  cases e
  exact kept_write (kept_refl g.fits) _ _

theorem kept_removePrefixStr (g : Good C s l t k) (p : List Chr) (h : s.removePrefixStr p = .ok s') : Kept C l.length s s' := by
  unfold Str.removePrefixStr at h
  simp only [R.bind_eq_ok] at h
  obtain ⟨_, -, _, -, _, -, e⟩ := h
  exact kept_removePrefix g _ e

theorem kept_removeSuffix (g : Good C s l t k) (n : Nat) (h : s.removeSuffix n = .ok s') : Kept C l.length s s' := by
  unfold Str.removeSuffix at h
  simp only [R.bind_eq_ok, R.pure_eq] at h
  obtain ⟨_, -, e⟩ := h
  cases e
  exact ⟨fun _ => ⟨rfl, rfl⟩, fun x => absurd g.fits (by omega)⟩

theorem kept_removeSuffixStr (g : Good C s l t k) (p : List Chr) (h : s.removeSuffixStr p = .ok s') : Kept C l.length s s' := by
  unfold Str.removeSuffixStr at h
  simp only [R.bind_eq_ok, R.pure_eq] at h
  obtain ⟨_, -, _, -, _, -, e⟩ := h
  cases e
  exact ⟨fun _ => ⟨rfl, rfl⟩, fun x => absurd g.fits (by omega)⟩

theorem kept_trimStart (g : Good C s l t k) (p : Chr → Bool) (h : s.trimStart p = .ok s') : Kept C l.length s s' := by
  unfold Str.trimStart at h
  simp only [R.bind_eq_ok] at h
  obtain ⟨b, -, n, -, h⟩ := h
  by_cases q : n = 0
  · rw [if_pos q] at h
    cases h
    exact kept_refl g.fits
  · rw [if_neg q] at h
    simp only [R.bind_eq_ok, R.pure_eq] at h
    obtain ⟨_, -, _, -, e⟩ := h
    cases e
    exact kept_write (kept_refl g.fits) _ _

theorem kept_trimEnd (g : Good C s l t k) (p : Chr → Bool) (h : s.trimEnd p = .ok s') : Kept C l.length s s' := by
  unfold Str.trimEnd at h
  simp only [R.bind_eq_ok, R.pure_eq] at h
  obtain ⟨_, -, _, -, _, -, e⟩ := h
  cases e
  exact kept_write (kept_refl g.fits) _ _

theorem kept_trim (g : Good C s l t k) (p : Chr → Bool) (h : s.trim p = .ok s') : Kept C l.length s s' := by
  unfold Str.trim at h
  simp only [R.bind_eq_ok, R.pure_eq] at h
  obtain ⟨_, -, _, -, _, -, _, -, _, -, e⟩ := h
  cases e
  exact kept_write (kept_refl g.fits) _ _

end Calls

/-! ### Steps of a program -/

open Spec (Cell)

theorem modify_kept {C n d : Nat} {st st' : Sys} {σ σ' : List Cell} (hI : Inv C st σ) {l : List Chr} {t : Bool}
    (hc : σ[d]? = some (.val l t)) {F : List Chr → Bool → Option (List Chr × Bool)} {f : Str → R Str}
    (hs : Spec.modify σ d F = some σ') (hm : st.modify d f = .ok st')
    (hk : ∀ s s' k p, Good C s l t k → F l t = some p → f s = .ok s' → Kept C n s s') :
    ∃ s s', st.vars[d]? = some (some s) ∧ st'.vars[d]? = some (some s') ∧ Kept C n s s' := by
  obtain ⟨o, ho, s, rfl, hl, k, hg⟩ := inv_get hI hc
  unfold Spec.modify at hs
  rw [hc] at hs
  obtain ⟨p, hp, -⟩ := Option.map_eq_some_iff.mp hs
  unfold Sys.modify at hm
  rw [ho] at hm
  simp only [R.bind_eq_ok, R.pure_eq] at hm
  obtain ⟨s', e, x⟩ := hm
  cases x
  have hd := (List.getElem?_eq_some_iff.mp ho).1
  exact ⟨s, s', ho, by simp [hd], hk s s' k p hg hp e⟩

theorem step_kept {C : Nat} (h7 : 7 ≤ C) {junk : Nat → Chr} {st st' : Sys} {σ σ' : List Cell} (hI : Inv C st σ) {op : Op}
    (hs : Spec.step σ op = some σ') (hm : st.step C junk op = .ok st') {l : List Chr} {t : Bool} {n : Nat}
    (hc : σ[Spec.target op]? = some (.val l t)) (hn : Spec.need l.length op = some n) :
    ∃ s s', st.vars[Spec.target op]? = some (some s) ∧ st'.vars[Spec.target op]? = some (some s') ∧ Kept C n s s' := by
  cases op <;> simp only [Spec.need, Option.some.injEq, reduceCtorEq] at hn <;> subst hn <;>
    refine modify_kept hI hc hs hm fun s s' k p g hp e => ?_
  case pushBack => exact kept_pushBack h7 g _ e
  case popBack => exact kept_popBack g e
  case reserve =>
    split at hp
    · exact (kept_reserve (by omega) e).1
    · cases hp
  case resize =>
    split at hp
    · exact kept_resize _ (by omega) _ e
    · cases hp
  case fillAll => exact kept_fillAll g _ e
  case fill =>
    split at hp
    · exact kept_fill _ (by omega) _ e
    · cases hp
  case capitalize => exact kept_capitalize g e
  case replaceChars => exact kept_replaceChars g _ _ e
  case removePrefix => exact kept_removePrefix g _ e
  case removeSuffix => exact kept_removeSuffix g _ e
  case removePrefixStr => exact kept_removePrefixStr g _ e
  case removeSuffixStr => exact kept_removeSuffixStr g _ e
  case trimStart => exact kept_trimStart g _ e
  case trimEnd => exact kept_trimEnd g _ e
  case trim => exact kept_trim g _ e
  case padStart =>
    split at hp
    · exact kept_padStart g _ (by omega) _ e
    · cases hp
  case padEnd =>
    split at hp
    · exact kept_padEnd g _ (by omega) _ e
    · cases hp
  case replaceAt d pos count m =>
    split at hp
    · rename_i q
      obtain ⟨-, -, hl⟩ := small_eq hp
      refine kept_replaceAt g pos count (.ext m) q ?_ e
      simp only [List.length_append, List.length_take, List.length_drop] at hl
      change l.length - count + m.length < 2 ^ 61
      omega
    · cases hp
  case insert d pos m =>
    split at hp
    · rename_i q
      obtain ⟨-, -, hl⟩ := small_eq hp
      refine kept_replaceAt g pos 0 (.ext m) q ?_ e
      simp only [List.length_append, List.length_take, List.length_drop] at hl
      change l.length - 0 + m.length < 2 ^ 61
      omega
    · cases hp
  case append d m =>
    obtain ⟨-, -, hl⟩ := small_eq hp
    rw [List.length_append] at hl
    exact kept_append g (.ext m) hl e
  case appendOwn d off len =>
    split at hp
    · rename_i q
      obtain ⟨-, -, hl⟩ := small_eq hp
      simp only [List.length_append, List.length_take, List.length_drop] at hl
      refine kept_append g (.own off len) ?_ e
      change l.length + len < 2 ^ 61
      omega
    · cases hp

theorem modify_other {st st' : Sys} {e d : Nat} {f : Str → R Str} (hne : e ≠ d) (h : st.modify e f = .ok st') :
    st'.vars[d]? = st.vars[d]? := by
  unfold Sys.modify at h
  split at h
  · simp only [R.bind_eq_ok, R.pure_eq] at h
    obtain ⟨s', -, x⟩ := h
    cases x
    simp [hne]
  · cases h

theorem create_other {st st' : Sys} {e d : Nat} {m : R Str} (hne : e ≠ d) (h : st.create e m = .ok st') :
    st'.vars[d]? = st.vars[d]? := by
  unfold Sys.create at h
  split at h
  · simp only [R.bind_eq_ok, R.pure_eq] at h
    obtain ⟨s', -, x⟩ := h
    cases x
    simp [hne]
  · cases h

theorem createFrom_other {st st' : Sys} {e s d : Nat} {f : Str → R Str} (hne : e ≠ d) (h : st.createFrom e s f = .ok st') :
    st'.vars[d]? = st.vars[d]? := by
  unfold Sys.createFrom at h
  split at h
  · exact create_other hne h
  · cases h

/-- A call on other variables leaves the object as it is. -/
theorem step_other {C : Nat} {junk : Nat → Chr} {st st' : Sys} {op : Op} {d : Nat} (ht : Spec.target op ≠ d) (hs : Spec.source op ≠ some d)
    (h : st.step C junk op = .ok st') : st'.vars[d]? = st.vars[d]? := by
  cases op
  case moveNew e s =>
    have hs : s ≠ d := fun x => hs (by rw [x]; rfl)
    simp only [Sys.step] at h
    simp only [R.bind_eq_ok, R.pure_eq] at h
    obtain ⟨rhs, -, st1, e1, x⟩ := h
    cases x
    rw [← create_other ht e1]
    simp [hs]
  case moveAssign e s =>
    have hs : s ≠ d := fun x => hs (by rw [x]; rfl)
    have ht : e ≠ d := ht
    simp only [Sys.step] at h
    split at h
    · exact modify_other ht h
    · simp only [R.bind_eq_ok, R.pure_eq] at h
      obtain ⟨_, -, _, -, x⟩ := h
      cases x
      simp [hs, ht]
  case assign e s =>
    simp only [Sys.step] at h
    split at h
    · simp only [R.bind_eq_ok, R.pure_eq] at h
      obtain ⟨_, -, x⟩ := h
      cases x
      rfl
    · simp only [R.bind_eq_ok] at h
      obtain ⟨_, -, x⟩ := h
      exact modify_other ht x
  case destroy e =>
    have ht : e ≠ d := ht
    simp only [Sys.step] at h
    simp only [R.bind_eq_ok, R.pure_eq] at h
    obtain ⟨_, -, x⟩ := h
    cases x
    simp [ht]
  all_goals first
    | exact modify_other ht h
    | exact create_other ht h
    | exact createFrom_other ht h

theorem through_ok {C : Nat} {s : Str} {l : List Chr} {t : Bool} {k : Int} (g : Good C s l t k) {off len : Nat} (h : off + len ≤ l.length) :
    s.through s.place off len = .ok ((l.drop off).take len) := by
  obtain ⟨r, hb, -, -⟩ := g.ex
  unfold Str.through
  rw [if_pos rfl, hb, R.ok_bind]
  unfold slice
  rw [if_pos (by rw [List.length_append]; omega), List.drop_append_of_le_length (by omega),
    List.take_append_of_le_length (by rw [List.length_drop]; omega)]
  rfl

theorem through_other {s : Str} {p : Place} (h : p ≠ s.place) (off len : Nat) : s.through p off len = .error .ub := by
  unfold Str.through
  rw [if_neg h]

theorem place_ne_next (s : Str) : s.place ≠ .block (s.news + 1) := by
  unfold Str.place
  cases s.data <;> simp

end Verif.Str
