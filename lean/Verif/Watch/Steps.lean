import Verif.Watch.Lemmas

namespace Verif.Watch
open Spec

theorem match_none {fl : Nat → Option Bool} {ms : List Mon} {a : Option (Option Nat)} (h : Match fl ms a none) : a = none := by
  rcases a with _ | _ | _ <;> first | rfl | cases h

theorem match_invalid {fl : Nat → Option Bool} {ms : List Mon} {a : Option (Option Nat)} (h : Match fl ms a (some none)) : a = some none := by
  rcases a with _ | _ | _ <;> first | rfl | cases h

theorem match_valid {fl : Nat → Option Bool} {ms : List Mon} {a : Option (Option Nat)} {w : W} (h : Match fl ms a (some (some w))) :
    ∃ f, a = some (some f) ∧ fl f = some w.changed ∧ ∃ m, mon ms w.dir = some m ∧ ⟨⟨w.dir, w.name⟩, f⟩ ∈ m.files := by
  rcases a with _ | _ | f
  · cases h
  · cases h
  · exact ⟨f, rfl, h⟩

theorem upd_upd {X : Type} (f : Nat → X) (i : Nat) (x y : X) : upd (upd f i x) i y = upd f i y := by
  funext j; unfold upd; split <;> rfl

theorem upd_upd' {X : Type} (f : Nat → X) (i j : Nat) (x y z : X) : upd (upd (upd f i x) i y) j z = upd (upd f i y) j z := by rw [upd_upd]

theorem inv_new {s : State} {σ : S} (hi : Inv s σ) {i : Nat} (h : σ.watches i = none) :
    Inv { s with watches := upd s.watches i (some none) } { σ with watches := upd σ.watches i (some none) } := by
  have hs : s.watches i = none := match_none (h ▸ hi.watch i)
  refine ⟨hi.diff, ?_, hi.noMon, ?_, ?_, ?_, hi.fresh, hi.plain⟩
  · intro d m hm
    obtain ⟨h1, h2, h3, h4, h5⟩ := hi.monOk d m hm
    refine ⟨h1, h2, h3, h4, fun e he => ?_⟩
    obtain ⟨e1, e2, k, w, e3, e4, e5⟩ := h5 e he
    have hk : k ≠ i := by rintro rfl; rw [hs] at e3; cases e3
    exact ⟨e1, e2, k, w, by dsimp only; rw [upd_ne _ _ hk]; exact e3, by dsimp only; rw [upd_ne _ _ hk]; exact e4, e5⟩
  · intro k
    dsimp only
    by_cases hk : k = i
    · subst hk; rw [upd_self, upd_self]; exact True.intro
    · rw [upd_ne _ _ hk, upd_ne _ _ hk]; exact hi.watch k
  · intro a b f ha hb
    dsimp only at ha hb
    by_cases h1 : a = i
    · subst h1; rw [upd_self] at ha; cases ha
    · by_cases h2 : b = i
      · subst h2; rw [upd_self] at hb; cases hb
      · rw [upd_ne _ _ h1] at ha
        rw [upd_ne _ _ h2] at hb
        exact hi.inj a b f ha hb
  · intro f hf
    obtain ⟨k, hk⟩ := hi.alive f hf
    have : k ≠ i := by rintro rfl; rw [hs] at hk; cases hk
    exact ⟨k, by dsimp only; rw [upd_ne _ _ this]; exact hk⟩

theorem inv_move {s : State} {σ : S} (hi : Inv s σ) {i j : Nat} (h : σ.watches i = none) {v : Option Nat} (hj : s.watches j = some v) :
    Inv { s with watches := upd (upd s.watches i (some v)) j (some none) } { σ with watches := upd (upd σ.watches i (σ.watches j)) j (some none) } := by
  have hs : s.watches i = none := match_none (h ▸ hi.watch i)
  have hij : i ≠ j := by rintro rfl; rw [hs] at hj; cases hj
  -- where a watch is afterwards
  have go : ∀ k f, s.watches k = some (some f) → ∃ l, upd (upd s.watches i (some v)) j (some none) l = some (some f) ∧ upd (upd σ.watches i (σ.watches j)) j (some none) l = σ.watches k := by
    intro k f hk
    by_cases h1 : k = j
    · subst h1
      refine ⟨i, ?_, ?_⟩
      · rw [upd_ne _ _ hij, upd_self, ← hj]; exact hk
      · rw [upd_ne _ _ hij, upd_self]
    · have h2 : k ≠ i := by rintro rfl; rw [hs] at hk; cases hk
      refine ⟨k, ?_, ?_⟩
      · rw [upd_ne _ _ h1, upd_ne _ _ h2]; exact hk
      · rw [upd_ne _ _ h1, upd_ne _ _ h2]
  refine ⟨hi.diff, ?_, hi.noMon, ?_, ?_, ?_, hi.fresh, hi.plain⟩
  · intro d m hm
    obtain ⟨h1, h2, h3, h4, h5⟩ := hi.monOk d m hm
    refine ⟨h1, h2, h3, h4, fun e he => ?_⟩
    obtain ⟨e1, e2, k, w, e3, e4, e5⟩ := h5 e he
    obtain ⟨l, g1, g2⟩ := go k _ e3
    exact ⟨e1, e2, l, w, g1, g2.trans e4, e5⟩
  · intro k
    dsimp only
    by_cases hk : k = j
    · subst hk; rw [upd_self, upd_self]; exact True.intro
    · rw [upd_ne _ _ hk, upd_ne _ _ hk]
      by_cases hk2 : k = i
      · subst hk2; rw [upd_self, upd_self, ← hj]; exact hi.watch j
      · rw [upd_ne _ _ hk2, upd_ne _ _ hk2]; exact hi.watch k
  · have back : ∀ a f, upd (upd s.watches i (some v)) j (some none) a = some (some f) → ∃ k, s.watches k = some (some f) ∧ (k = if a = i then j else a) := by
      intro a f ha
      by_cases h1 : a = j
      · subst h1; rw [upd_self] at ha; cases ha
      · rw [upd_ne _ _ h1] at ha
        by_cases h2 : a = i
        · subst h2; rw [upd_self] at ha; exact ⟨j, by rw [hj]; exact ha, by simp⟩
        · rw [upd_ne _ _ h2] at ha; exact ⟨a, ha, by simp [h2]⟩
    intro a b f ha hb
    obtain ⟨k, k1, k2⟩ := back a f ha
    obtain ⟨l, l1, l2⟩ := back b f hb
    have := hi.inj k l f k1 l1
    subst this
    have haj : a ≠ j := by rintro rfl; dsimp only at ha; rw [upd_self] at ha; cases ha
    have hbj : b ≠ j := by rintro rfl; dsimp only at hb; rw [upd_self] at hb; cases hb
    by_cases h1 : a = i
    · by_cases h2 : b = i
      · rw [h1, h2]
      · rw [if_pos h1] at k2; rw [if_neg h2] at l2
        exact absurd (l2.symm.trans k2) hbj
    · by_cases h2 : b = i
      · rw [if_neg h1] at k2; rw [if_pos h2] at l2
        exact absurd (k2.symm.trans l2) haj
      · rw [if_neg h1] at k2; rw [if_neg h2] at l2
        exact k2.symm.trans l2
  · intro f hf
    obtain ⟨k, hk⟩ := hi.alive f hf
    obtain ⟨l, g1, _⟩ := go k f hk
    exact ⟨l, g1⟩

theorem inv_drop {s : State} {σ : S} (hi : Inv s σ) {i : Nat} {w : Option W} (h : σ.watches i = some w) :
    ∃ v s', s.watches i = some v ∧ release s v = .ok s' ∧ s'.watches = s.watches ∧ Inv { s' with watches := upd s.watches i none } { finish σ w with watches := upd σ.watches i none } := by
  cases w with
  | none =>
    have hs : s.watches i = some none := match_invalid (h ▸ hi.watch i)
    refine ⟨none, s, hs, rfl, rfl, hi.diff, ?_, hi.noMon, ?_, ?_, ?_, hi.fresh, hi.plain⟩
    · intro d m hm
      obtain ⟨h1, h2, h3, h4, h5⟩ := hi.monOk d m hm
      refine ⟨h1, h2, h3, h4, fun e he => ?_⟩
      obtain ⟨e1, e2, k, w, e3, e4, e5⟩ := h5 e he
      have hk : k ≠ i := by rintro rfl; rw [hs] at e3; cases e3
      exact ⟨e1, e2, k, w, by dsimp only; rw [upd_ne _ _ hk]; exact e3, by dsimp only; rw [upd_ne _ _ hk]; exact e4, e5⟩
    · intro k
      dsimp only
      by_cases hk : k = i
      · subst hk; rw [upd_self, upd_self]; exact True.intro
      · rw [upd_ne _ _ hk, upd_ne _ _ hk]; exact hi.watch k
    · intro a b f ha hb
      dsimp only at ha hb
      by_cases h1 : a = i
      · subst h1; rw [upd_self] at ha; cases ha
      · by_cases h2 : b = i
        · subst h2; rw [upd_self] at hb; cases hb
        · rw [upd_ne _ _ h1] at ha
          rw [upd_ne _ _ h2] at hb
          exact hi.inj a b f ha hb
    · intro f hf
      obtain ⟨k, hk⟩ := hi.alive f hf
      have : k ≠ i := by rintro rfl; rw [hs] at hk; cases hk
      exact ⟨k, by dsimp only; rw [upd_ne _ _ this]; exact hk⟩
  | some w =>
    obtain ⟨f, hs, hf, m, hm, hin⟩ := match_valid (h ▸ hi.watch i)
    have mok := hi.monOk _ m hm
    -- no other entry has the flag
    have uniq : ∀ d m', mon s.mons d = some m' → ∀ e, e ∈ m'.files → e.flag = f → d = w.dir ∧ e = ⟨⟨w.dir, w.name⟩, f⟩ := by
      intro d m' hm' e he hef
      obtain ⟨e1, e2, k, w', e3, e4, e5, e6⟩ := (hi.monOk d m' hm').entry e he
      rw [hef] at e3
      have := hi.inj k i f e3 hs
      subst this
      rw [h] at e4
      obtain rfl := Option.some.inj (Option.some.inj e4)
      refine ⟨e5.symm, ?_⟩
      obtain ⟨⟨ed, en⟩, ef⟩ := e
      dsimp only at e1 e6 hef
      rw [e1, ← e5, ← e6, hef]
    obtain ⟨a, b, hab, hrm⟩ := removeFile_some hin (fun x hx hxf => (uniq w.dir m hm x hx hxf).2)
    dsimp only at hrm
    have hnames := mok.names
    rw [hab] at hnames
    simp only [List.map_append, List.map_cons] at hnames
    have hn2 : ∀ e, e ∈ a ++ b → e.path.filename ≠ w.name := by
      intro e he heq
      rw [List.nodup_append] at hnames
      obtain ⟨-, h2, h3⟩ := hnames
      rcases List.mem_append.1 he with he | he
      · exact h3 _ (List.mem_map.2 ⟨e, he, rfl⟩) _ List.mem_cons_self heq
      · rw [List.nodup_cons] at h2
        exact h2.1 (heq ▸ List.mem_map.2 ⟨e, he, rfl⟩)
    have hn3 : ((a ++ b).map (·.path.filename)).Nodup := by
      rw [List.map_append]
      refine List.Nodup.sublist ?_ hnames
      exact List.Sublist.append (List.Sublist.refl _) (List.sublist_cons_self _ _)
    have hlen : (a ++ b).length + 1 = σ.count w.dir := by
      rw [← mok.count, hab]; simp; omega
    obtain ⟨od, om⟩ := onFlagDestruction_spec hi.diff hm hrm (by
      intro m' hm' hp
      refine removeFile_none fun e he hef => ?_
      exact hp ((uniq m'.path m' (mem_mon hi.diff hm') e he hef).1))
    refine ⟨some f, { s with mons := onFlagDestruction f s.mons, flags := upd s.flags f none }, hs, ?_, rfl, ?_⟩
    · unfold release; dsimp only; rw [hf]
    have hsub : ∀ e, e ∈ a ++ b → e ∈ m.files := by
      intro e he; rw [hab]
      rcases List.mem_append.1 he with he | he
      · exact List.mem_append_left _ he
      · exact List.mem_append_right _ (List.mem_cons_of_mem _ he)
    refine ⟨od, ?_, ?_, ?_, ?_, ?_, ?_, ?_⟩
    · intro d m' hm'
      dsimp only at hm'
      rw [om] at hm'
      by_cases hd : d = w.dir
      · subst hd
        rw [if_pos rfl] at hm'
        by_cases he : (a ++ b).isEmpty = true
        · rw [if_pos he] at hm'; cases hm'
        · rw [if_neg he] at hm'
          obtain rfl := Option.some.inj hm'
          have hc : ¬σ.count w.dir = 1 := by
            intro hc
            apply he
            rw [List.isEmpty_iff]
            exact List.eq_nil_of_length_eq_zero (by omega)
          refine ⟨by simpa using he, ?_, ?_, hn3, ?_⟩
          · show m.queue = (if σ.count w.dir = 1 then updS σ.pending w.dir [] else σ.pending) w.dir
            rw [if_neg hc]; exact mok.queue
          · show (a ++ b).length = updS σ.count w.dir (σ.count w.dir - 1) w.dir
            rw [updS_self]; omega
          · intro e he'
            obtain ⟨e1, e2, k, w', e3, e4, e5, e6⟩ := mok.entry e (hsub e he')
            have hne : e.path.filename ≠ w.name := hn2 e he'
            have hk : k ≠ i := by
              rintro rfl
              rw [h] at e4
              obtain rfl := Option.some.inj (Option.some.inj e4)
              exact hne e6.symm
            refine ⟨e1, ?_, k, w', ?_, ?_, e5, e6⟩
            · show updS σ.taken (w.dir, w.name) false (w.dir, e.path.filename) = true
              rw [updS_ne _ _ (by intro he; exact hne (Prod.mk.inj he).2)]
              exact e2
            · dsimp only; rw [upd_ne _ _ hk]; exact e3
            · dsimp only; rw [upd_ne _ _ hk]; exact e4
      · rw [if_neg hd] at hm'
        obtain ⟨h1, h2, h3, h4, h5⟩ := hi.monOk d m' hm'
        refine ⟨h1, ?_, ?_, h4, ?_⟩
        · show m'.queue = (if σ.count w.dir = 1 then updS σ.pending w.dir [] else σ.pending) d
          split
          · rw [updS_ne _ _ hd]; exact h2
          · exact h2
        · show m'.files.length = updS σ.count w.dir _ d
          rw [updS_ne _ _ hd]; exact h3
        · intro e he
          obtain ⟨e1, e2, k, w', e3, e4, e5, e6⟩ := h5 e he
          have hk : k ≠ i := by
            rintro rfl
            rw [h] at e4
            obtain rfl := Option.some.inj (Option.some.inj e4)
            exact hd e5.symm
          refine ⟨e1, ?_, k, w', ?_, ?_, e5, e6⟩
          · show updS σ.taken (w.dir, w.name) false (d, e.path.filename) = true
            rw [updS_ne _ _ (by intro he; exact hd (Prod.mk.inj he).1)]
            exact e2
          · dsimp only; rw [upd_ne _ _ hk]; exact e3
          · dsimp only; rw [upd_ne _ _ hk]; exact e4
    · intro d hm'
      dsimp only at hm'
      rw [om] at hm'
      by_cases hd : d = w.dir
      · subst hd
        rw [if_pos rfl] at hm'
        by_cases he : (a ++ b).isEmpty = true
        · have : a ++ b = [] := List.isEmpty_iff.1 he
          rw [this] at hlen
          simp at hlen
          refine ⟨?_, ?_⟩
          · show updS σ.count w.dir (σ.count w.dir - 1) w.dir = 0
            rw [updS_self]; omega
          · show (if σ.count w.dir = 1 then updS σ.pending w.dir [] else σ.pending) w.dir = []
            rw [if_pos hlen.symm, updS_self]
        · rw [if_neg he] at hm'; cases hm'
      · rw [if_neg hd] at hm'
        obtain ⟨h1, h2⟩ := hi.noMon d hm'
        refine ⟨?_, ?_⟩
        · show updS σ.count w.dir _ d = 0
          rw [updS_ne _ _ hd]; exact h1
        · show (if σ.count w.dir = 1 then updS σ.pending w.dir [] else σ.pending) d = []
          split
          · rw [updS_ne _ _ hd]; exact h2
          · exact h2
    · intro k
      dsimp only
      by_cases hk : k = i
      · subst hk; rw [upd_self, upd_self]; exact True.intro
      · rw [upd_ne _ _ hk, upd_ne _ _ hk]
        have hw := hi.watch k
        revert hw
        rcases hsk : s.watches k with _ | _ | g <;> rcases hσk : σ.watches k with _ | _ | w' <;> intro hw <;> first | exact hw | skip
        obtain ⟨g1, m', g2, g3⟩ := hw
        have hgf : g ≠ f := by rintro rfl; exact hk (hi.inj k i _ hsk hs)
        refine ⟨by rw [upd_ne _ _ hgf]; exact g1, ?_⟩
        rw [om]
        by_cases hd : w'.dir = w.dir
        · rw [hd, hm] at g2
          obtain rfl := Option.some.inj g2
          have hmem : (⟨⟨w'.dir, w'.name⟩, g⟩ : Entry) ∈ a ++ b := by
            rw [hab] at g3
            rcases List.mem_append.1 g3 with g3 | g3
            · exact List.mem_append_left _ g3
            · rcases List.mem_cons.1 g3 with g3 | g3
              · exact absurd (congrArg Entry.flag g3) hgf
              · exact List.mem_append_right _ g3
          rw [if_pos hd, if_neg (by intro he; rw [List.isEmpty_iff] at he; rw [he] at hmem; cases hmem)]
          exact ⟨_, rfl, hmem⟩
        · rw [if_neg hd]; exact ⟨m', g2, g3⟩
    · intro x y g hx hy
      dsimp only at hx hy
      by_cases h1 : x = i
      · subst h1; rw [upd_self] at hx; cases hx
      · by_cases h2 : y = i
        · subst h2; rw [upd_self] at hy; cases hy
        · rw [upd_ne _ _ h1] at hx
          rw [upd_ne _ _ h2] at hy
          exact hi.inj x y g hx hy
    · intro g hg
      dsimp only at hg ⊢
      have hgf : g ≠ f := by rintro rfl; rw [upd_self] at hg; exact hg rfl
      rw [upd_ne _ _ hgf] at hg
      obtain ⟨k, hk⟩ := hi.alive g hg
      have : k ≠ i := by rintro rfl; rw [hs] at hk; exact hgf (Option.some.inj (Option.some.inj hk)).symm
      exact ⟨k, by rw [upd_ne _ _ this]; exact hk⟩
    · intro g hg
      dsimp only at hg ⊢
      have hgf : g ≠ f := by rintro rfl; rw [upd_self] at hg; exact hg rfl
      rw [upd_ne _ _ hgf] at hg
      exact hi.fresh g hg
    · intro d n hn
      have hn' : n ∈ (if σ.count w.dir = 1 then updS σ.pending w.dir [] else σ.pending) d := hn
      split at hn'
      · by_cases hd : d = w.dir
        · subst hd; rw [updS_self] at hn'; cases hn'
        · rw [updS_ne _ _ hd] at hn'; exact hi.plain d n hn'
      · exact hi.plain d n hn'

theorem inv_create {s : State} {σ : S} (hi : Inv s σ) {i : Nat} (h : σ.watches i = none) (p : Str) (ht : σ.taken (parts p) = false) :
    Inv { (createFlag s p).1 with watches := upd s.watches i (some (some (createFlag s p).2)) }
      { watches := upd σ.watches i (some (some { dir := (parts p).1, name := (parts p).2, changed := false })), count := updS σ.count (parts p).1 (σ.count (parts p).1 + 1), taken := updS σ.taken (parts p) true, pending := σ.pending } := by
  have hs : s.watches i = none := match_none (h ▸ hi.watch i)
  unfold parts at ht ⊢
  unfold createFlag
  generalize getFileLocation p = L at ht ⊢
  obtain ⟨D, N⟩ := L
  dsimp only at ht ⊢
  have hnx : s.flags s.next = none := by
    cases hh : s.flags s.next with
    | none => rfl
    | some b => exact absurd (hi.fresh s.next (by rw [hh]; simp)) (Nat.lt_irrefl _)
  have key : ∀ ms' : List Mon, Diff ms' → (∃ m' : Mon, mon ms' D = some m' ∧ m'.queue = σ.pending D ∧ (m'.files = ((mon s.mons D).elim [] (·.files)) ++ [⟨⟨D, N⟩, s.next⟩])) → (∀ d, d ≠ D → mon ms' d = mon s.mons d) →
      Inv { mons := ms', flags := upd s.flags s.next (some false), next := s.next + 1, watches := upd s.watches i (some (some s.next)) }
        { watches := upd σ.watches i (some (some { dir := D, name := N, changed := false })), count := updS σ.count D (σ.count D + 1), taken := updS σ.taken (D, N) true, pending := σ.pending } := by
    rintro ms' hd ⟨m', hm', hq, hfiles⟩ hoth
    refine ⟨hd, ?_, ?_, ?_, ?_, ?_, ?_, hi.plain⟩
    · intro d m hm
      dsimp only at hm
      have lift : ∀ e : Entry, (e.path.directory = d ∧ σ.taken (d, e.path.filename) = true ∧ ∃ k w, s.watches k = some (some e.flag) ∧ σ.watches k = some (some w) ∧ w.dir = d ∧ w.name = e.path.filename) →
          e.path.directory = d ∧ updS σ.taken (D, N) true (d, e.path.filename) = true ∧ ∃ k w, upd s.watches i (some (some s.next)) k = some (some e.flag) ∧
            upd σ.watches i (some (some { dir := D, name := N, changed := false })) k = some (some w) ∧ w.dir = d ∧ w.name = e.path.filename := by
        rintro e ⟨e1, e2, k, w, e3, e4, e5⟩
        have hk : k ≠ i := by rintro rfl; rw [hs] at e3; cases e3
        refine ⟨e1, ?_, k, w, by rw [upd_ne _ _ hk]; exact e3, by rw [upd_ne _ _ hk]; exact e4, e5⟩
        unfold updS; split
        · rfl
        · exact e2
      by_cases hdD : d = D
      · subst hdD
        rw [hm'] at hm
        obtain rfl := Option.some.inj hm
        have last : (⟨⟨d, N⟩, s.next⟩ : Entry).path.directory = d ∧ updS σ.taken (d, N) true (d, N) = true ∧ ∃ k w, upd s.watches i (some (some s.next)) k = some (some s.next) ∧
            upd σ.watches i (some (some { dir := d, name := N, changed := false })) k = some (some w) ∧ w.dir = d ∧ w.name = N :=
          ⟨rfl, updS_self _ _ _, i, { dir := d, name := N, changed := false }, upd_self _ _ _, upd_self _ _ _, rfl, rfl⟩
        cases hold : mon s.mons d with
        | none =>
          rw [hold] at hfiles
          simp only [Option.elim_none, List.nil_append] at hfiles
          have hc := (hi.noMon d hold).1
          refine ⟨by rw [hfiles]; simp, hq, ?_, by rw [hfiles]; simp, ?_⟩
          · dsimp only; rw [hfiles, updS_self, hc]; rfl
          · intro e he
            rw [hfiles, List.mem_singleton] at he
            subst he
            exact last
        | some m0 =>
          rw [hold] at hfiles
          simp only [Option.elim_some] at hfiles
          have mok := hi.monOk d m0 hold
          refine ⟨by rw [hfiles]; simp, hq, ?_, ?_, ?_⟩
          · dsimp only; rw [hfiles, updS_self, ← mok.count]; simp
          · rw [hfiles, List.map_append, List.nodup_append]
            refine ⟨mok.names, by simp, ?_⟩
            intro x hx y hy
            simp only [List.map_cons, List.map_nil, List.mem_singleton] at hy
            subst hy
            rintro rfl
            obtain ⟨e, he, hen⟩ := List.mem_map.1 hx
            have := (mok.entry e he).2.1
            rw [hen, ht] at this
            cases this
          · intro e he
            rw [hfiles] at he
            rcases List.mem_append.1 he with he | he
            · exact lift e (mok.entry e he)
            · rw [List.mem_singleton] at he; subst he; exact last
      · rw [hoth d hdD] at hm
        obtain ⟨h1, h2, h3, h4, h5⟩ := hi.monOk d m hm
        exact ⟨h1, h2, by dsimp only; rw [updS_ne _ _ hdD]; exact h3, h4, fun e he => lift e (h5 e he)⟩
    · intro d hm
      dsimp only at hm
      by_cases hdD : d = D
      · subst hdD; rw [hm'] at hm; cases hm
      · rw [hoth d hdD] at hm
        obtain ⟨h1, h2⟩ := hi.noMon d hm
        exact ⟨by dsimp only; rw [updS_ne _ _ hdD]; exact h1, h2⟩
    · intro k
      dsimp only
      by_cases hk : k = i
      · subst hk
        rw [upd_self, upd_self]
        exact ⟨upd_self _ _ _, m', hm', by rw [hfiles]; exact List.mem_append_right _ List.mem_cons_self⟩
      · rw [upd_ne _ _ hk, upd_ne _ _ hk]
        have hw := hi.watch k
        revert hw
        rcases hsk : s.watches k with _ | _ | g <;> rcases hσk : σ.watches k with _ | _ | w' <;> intro hw <;> first | exact hw | skip
        obtain ⟨g1, m1, g2, g3⟩ := hw
        have hgf : g ≠ s.next := by rintro rfl; rw [hnx] at g1; cases g1
        refine ⟨by rw [upd_ne _ _ hgf]; exact g1, ?_⟩
        by_cases hd' : w'.dir = D
        · refine ⟨m', hd' ▸ hm', ?_⟩
          rw [hd'] at g2
          rw [hfiles, g2]
          exact List.mem_append_left _ g3
        · exact ⟨m1, by rw [hoth _ hd']; exact g2, g3⟩
    · intro a b f ha hb
      have nn : ∀ k, s.watches k ≠ some (some s.next) := by
        intro k hk
        have hw := hi.watch k
        rw [hk] at hw
        rcases hσk : σ.watches k with _ | _ | w'
        · rw [hσk] at hw; cases hw
        · rw [hσk] at hw; cases hw
        · rw [hσk] at hw
          obtain ⟨g1, -⟩ := hw
          rw [hnx] at g1; cases g1
      dsimp only at ha hb
      by_cases h1 : a = i
      · by_cases h2 : b = i
        · rw [h1, h2]
        · subst h1
          rw [upd_self] at ha
          rw [upd_ne _ _ h2] at hb
          rw [← Option.some.inj (Option.some.inj ha)] at hb
          exact absurd hb (nn b)
      · by_cases h2 : b = i
        · subst h2
          rw [upd_self] at hb
          rw [upd_ne _ _ h1] at ha
          rw [← Option.some.inj (Option.some.inj hb)] at ha
          exact absurd ha (nn a)
        · rw [upd_ne _ _ h1] at ha
          rw [upd_ne _ _ h2] at hb
          exact hi.inj a b f ha hb
    · intro f hf
      dsimp only at hf ⊢
      by_cases hfn : f = s.next
      · subst hfn; exact ⟨i, upd_self _ _ _⟩
      · rw [upd_ne _ _ hfn] at hf
        obtain ⟨k, hk⟩ := hi.alive f hf
        have : k ≠ i := by rintro rfl; rw [hs] at hk; cases hk
        exact ⟨k, by rw [upd_ne _ _ this]; exact hk⟩
    · intro f hf
      dsimp only at hf ⊢
      by_cases hfn : f = s.next
      · subst hfn; omega
      · rw [upd_ne _ _ hfn] at hf
        have := hi.fresh f hf
        omega
  cases hold : mon s.mons D with
  | none =>
    rw [addTo_none (e := ⟨⟨D, N⟩, s.next⟩) hold]
    refine key _ ?_ ⟨_, by rw [mon_append_new _ hold, if_pos rfl], (hi.noMon D hold).2.symm, by rw [hold]; rfl⟩ ?_
    · unfold Diff
      rw [List.map_append, List.nodup_append]
      refine ⟨hi.diff, by simp, ?_⟩
      intro x hx y hy
      simp only [List.map_cons, List.map_nil, List.mem_singleton] at hy
      subst hy
      rintro rfl
      exact mon_none.1 hold hx
    · intro d hd
      rw [mon_append_new _ hold, if_neg (fun e => hd e.symm)]
  | some m =>
    obtain ⟨ms', e1, p1, m1⟩ := addTo_some (e := ⟨⟨D, N⟩, s.next⟩) hold
    rw [e1]
    refine key ms' ?_ ⟨{ m with files := m.files ++ [⟨⟨D, N⟩, s.next⟩] }, by rw [m1, if_pos rfl], (hi.monOk D m hold).queue, by rw [hold]; rfl⟩ ?_
    · unfold Diff; rw [p1]; exact hi.diff
    · intro d hd
      rw [m1, if_neg hd]

theorem inv_clear {s : State} {σ : S} (hi : Inv s σ) {i f : Nat} {w : W} (h : σ.watches i = some (some w)) (hs : s.watches i = some (some f)) :
    Inv { s with flags := upd s.flags f (some false) } { σ with watches := upd σ.watches i ((σ.watches i).map (·.map fun w => { w with changed := false })) } := by
  have hw := hi.watch i
  rw [h, hs] at hw
  obtain ⟨g1, m, g2, g3⟩ := hw
  refine ⟨hi.diff, ?_, hi.noMon, ?_, hi.inj, ?_, ?_, hi.plain⟩
  · intro d m' hm'
    obtain ⟨h1, h2, h3, h4, h5⟩ := hi.monOk d m' hm'
    refine ⟨h1, h2, h3, h4, fun e he => ?_⟩
    obtain ⟨e1, e2, k, w', e3, e4, e5, e6⟩ := h5 e he
    by_cases hk : k = i
    · subst hk
      rw [h] at e4
      obtain rfl := Option.some.inj (Option.some.inj e4)
      exact ⟨e1, e2, k, { w with changed := false }, e3, by dsimp only; rw [upd_self, h]; rfl, e5, e6⟩
    · exact ⟨e1, e2, k, w', e3, by dsimp only; rw [upd_ne _ _ hk]; exact e4, e5, e6⟩
  · intro k
    dsimp only
    by_cases hk : k = i
    · subst hk
      rw [upd_self, h, hs]
      exact ⟨upd_self _ _ _, m, g2, g3⟩
    · rw [upd_ne _ _ hk]
      have hw := hi.watch k
      revert hw
      rcases hsk : s.watches k with _ | _ | g <;> rcases hσk : σ.watches k with _ | _ | w' <;> intro hw <;> first | exact hw | skip
      obtain ⟨q1, q2⟩ := hw
      have hgf : g ≠ f := by rintro rfl; exact hk (hi.inj k i _ hsk hs)
      exact ⟨by rw [upd_ne _ _ hgf]; exact q1, q2⟩
  · intro g hg
    dsimp only at hg
    by_cases hgf : g = f
    · subst hgf; exact ⟨i, hs⟩
    · rw [upd_ne _ _ hgf] at hg; exact hi.alive g hg
  · intro g hg
    dsimp only at hg
    by_cases hgf : g = f
    · subst hgf; exact hi.fresh g (by rw [g1]; simp)
    · rw [upd_ne _ _ hgf] at hg; exact hi.fresh g hg

theorem inv_change (resolve : Str → Nat) {s : State} {σ : S} (hi : Inv s σ) (d : Nat) {n : Str} (hn : n ≠ [] ∧ '/' ∉ n) :
    Inv { s with mons := s.mons.map fun m => if resolve m.path = d then { m with queue := m.queue ++ [n] } else m }
      { σ with pending := fun p => if resolve p = d ∧ σ.count p ≠ 0 then σ.pending p ++ [n] else σ.pending p } := by
  have hp : ∀ m : Mon, (if resolve m.path = d then { m with queue := m.queue ++ [n] } else m).path = m.path := by intro m; split <;> rfl
  have hf : ∀ m : Mon, (if resolve m.path = d then { m with queue := m.queue ++ [n] } else m).files = m.files := by intro m; split <;> rfl
  have hm : ∀ p, mon (s.mons.map fun m => if resolve m.path = d then { m with queue := m.queue ++ [n] } else m) p = (mon s.mons p).map fun m => if resolve m.path = d then { m with queue := m.queue ++ [n] } else m :=
    fun p => mon_map _ hp _ _
  refine ⟨?_, ?_, ?_, ?_, hi.inj, hi.alive, hi.fresh, ?_⟩
  · unfold Diff
    rw [List.map_map]
    have : ((fun m : Mon => m.path) ∘ fun m : Mon => if resolve m.path = d then { m with queue := m.queue ++ [n] } else m) = fun m => m.path := by funext m; exact hp m
    rw [this]
    exact hi.diff
  · intro p m hm'
    dsimp only at hm'
    rw [hm] at hm'
    obtain ⟨m0, h0, rfl⟩ := Option.map_eq_some_iff.1 hm'
    obtain ⟨h1, h2, h3, h4, h5⟩ := hi.monOk p m0 h0
    have hpath := mon_path h0
    have hc : σ.count p ≠ 0 := by
      rw [← h3]; intro hz; exact h1 (List.eq_nil_of_length_eq_zero hz)
    refine ⟨by rw [hf]; exact h1, ?_, by rw [hf]; exact h3, by rw [hf]; exact h4, by rw [hf]; exact h5⟩
    dsimp only
    rw [hpath]
    by_cases hr : resolve p = d
    · rw [if_pos hr, if_pos ⟨hr, hc⟩, ← h2]
    · rw [if_neg hr, if_neg (fun h => hr h.1)]; exact h2
  · intro p hm'
    dsimp only at hm'
    rw [hm] at hm'
    have := hi.noMon p (Option.map_eq_none_iff.1 hm')
    exact ⟨this.1, by dsimp only; rw [if_neg (fun h => h.2 this.1)]; exact this.2⟩
  · intro k
    have hw := hi.watch k
    revert hw
    dsimp only
    rcases hsk : s.watches k with _ | _ | g <;> rcases hσk : σ.watches k with _ | _ | w' <;> intro hw <;> first | exact hw | skip
    obtain ⟨q1, m, q2, q3⟩ := hw
    exact ⟨q1, _, by rw [hm, q2]; rfl, by rw [hf]; exact q3⟩
  · intro p x hx
    dsimp only at hx
    split at hx
    · rcases List.mem_append.1 hx with hx | hx
      · exact hi.plain p x hx
      · rw [List.mem_singleton] at hx; subst hx; exact hn
    · exact hi.plain p x hx

theorem find_name {m : Mon} {e : Entry} (he : e ∈ m.files) (hn : (m.files.map (·.path.filename)).Nodup) : m.files.find? (fun x => decide (e.path.filename = x.path.filename)) = some e := by
  generalize m.files = es at he hn
  induction es with
  | nil => cases he
  | cons x es ih =>
    rw [List.find?_cons]
    simp only [List.map_cons, List.nodup_cons] at hn
    rcases List.mem_cons.1 he with rfl | he
    · simp
    · have : ¬e.path.filename = x.path.filename := fun h => hn.1 (h ▸ List.mem_map.2 ⟨e, he, rfl⟩)
      simp only [decide_eq_false this]
      exact ih he hn.2

theorem inv_thread {s : State} {σ : S} (hi : Inv s σ) {p : Str} {m : Mon} (hm : mon s.mons p = some m) {n : Str} {q : List Str} (hq : m.queue = n :: q) :
    ∃ fl, onEvent s.flags n m.files = .ok fl ∧
      Inv { s with flags := fl, mons := s.mons.map fun m => if m.path = p then { m with queue := q } else m }
        { σ with pending := updS σ.pending p q, watches := fun i => (σ.watches i).map (·.map fun w => if w.dir = p ∧ w.name = n then { w with changed := true } else w) } := by
  have mok := hi.monOk p m hm
  have hpn : σ.pending p = n :: q := by rw [← mok.queue, hq]
  obtain ⟨hn1, hn2⟩ := hi.plain p n (by rw [hpn]; exact List.mem_cons_self)
  -- the flags afterwards
  have hfl : ∃ fl, onEvent s.flags n m.files = .ok fl ∧ (∀ g, fl g ≠ none ↔ s.flags g ≠ none) ∧ ∀ i f w, s.watches i = some (some f) → σ.watches i = some (some w) →
      fl f = some (if w.dir = p ∧ w.name = n then true else w.changed) := by
    unfold onEvent
    rw [if_neg (by simpa using hn1)]
    dsimp only
    rw [location_name hn2]
    cases hfd : m.files.find? (fun e => decide (n = e.path.filename)) with
    | none =>
      refine ⟨s.flags, rfl, fun _ => Iff.rfl, ?_⟩
      intro i f w h1 h2
      have hw := hi.watch i
      rw [h1, h2] at hw
      obtain ⟨g1, m', g2, g3⟩ := hw
      rw [if_neg, g1]
      rintro ⟨rfl, rfl⟩
      rw [hm] at g2
      obtain rfl := Option.some.inj g2
      have := List.find?_eq_none.1 hfd _ g3
      simp at this
    | some e =>
      have he := List.mem_of_find?_eq_some hfd
      have hen : n = e.path.filename := by simpa using List.find?_some hfd
      obtain ⟨e1, e2, k, w', e3, e4, e5, e6⟩ := mok.entry e he
      have hw := hi.watch k
      rw [e3, e4] at hw
      obtain ⟨g1, -⟩ := hw
      dsimp only
      rw [g1]
      refine ⟨_, rfl, ?_, ?_⟩
      · intro g
        by_cases hg : g = e.flag
        · subst hg; rw [upd_self, g1]; simp
        · rw [upd_ne _ _ hg]
      · intro i f w h1 h2
        have hw := hi.watch i
        rw [h1, h2] at hw
        obtain ⟨q1, m', q2, q3⟩ := hw
        by_cases hf : f = e.flag
        · subst hf
          have := hi.inj i k _ h1 e3
          subst this
          rw [h2] at e4
          obtain rfl := Option.some.inj (Option.some.inj e4)
          rw [upd_self, if_pos ⟨e5, by rw [e6, hen]⟩]
        · rw [upd_ne _ _ hf, if_neg, q1]
          rintro ⟨rfl, hwn⟩
          rw [hm] at q2
          obtain rfl := Option.some.inj q2
          have f1 := find_name he mok.names
          have f2 := find_name q3 mok.names
          dsimp only at f2
          rw [← hen] at f1
          rw [hwn] at f2
          have := Option.some.inj (f1.symm.trans f2)
          exact hf (by rw [this])
  obtain ⟨fl, ho, hal, hch⟩ := hfl
  refine ⟨fl, ho, ?_⟩
  have hp : ∀ m : Mon, (if m.path = p then { m with queue := q } else m).path = m.path := by intro m; split <;> rfl
  have hf : ∀ m : Mon, (if m.path = p then { m with queue := q } else m).files = m.files := by intro m; split <;> rfl
  have hmm : ∀ c, mon (s.mons.map fun m => if m.path = p then { m with queue := q } else m) c = (mon s.mons c).map fun m => if m.path = p then { m with queue := q } else m :=
    fun c => mon_map _ hp _ _
  refine ⟨?_, ?_, ?_, ?_, hi.inj, ?_, ?_, ?_⟩
  · unfold Diff
    rw [List.map_map]
    have : ((fun m : Mon => m.path) ∘ fun m : Mon => if m.path = p then { m with queue := q } else m) = fun m => m.path := by funext m; exact hp m
    rw [this]
    exact hi.diff
  · intro c m' hm'
    dsimp only at hm'
    rw [hmm] at hm'
    obtain ⟨m0, h0, rfl⟩ := Option.map_eq_some_iff.1 hm'
    obtain ⟨h1, h2, h3, h4, h5⟩ := hi.monOk c m0 h0
    have hpath := mon_path h0
    refine ⟨by rw [hf]; exact h1, ?_, by rw [hf]; exact h3, by rw [hf]; exact h4, ?_⟩
    · dsimp only
      by_cases hc : c = p
      · subst hc; rw [if_pos hpath, updS_self]
      · rw [if_neg (by rw [hpath]; exact hc), updS_ne _ _ hc]; exact h2
    · rw [hf]
      intro e he
      obtain ⟨e1, e2, k, w', e3, e4, e5, e6⟩ := h5 e he
      refine ⟨e1, e2, k, if w'.dir = p ∧ w'.name = n then { w' with changed := true } else w', e3, by dsimp only; rw [e4]; rfl, ?_, ?_⟩
      · split <;> exact e5
      · split <;> exact e6
  · intro c hm'
    dsimp only at hm'
    rw [hmm] at hm'
    have hc0 := Option.map_eq_none_iff.1 hm'
    have hc : c ≠ p := by rintro rfl; rw [hm] at hc0; cases hc0
    exact ⟨(hi.noMon c hc0).1, by dsimp only; rw [updS_ne _ _ hc]; exact (hi.noMon c hc0).2⟩
  · intro k
    have hw := hi.watch k
    revert hw
    dsimp only
    rcases hsk : s.watches k with _ | _ | g <;> rcases hσk : σ.watches k with _ | _ | w' <;> intro hw <;> first | exact hw | skip
    obtain ⟨q1, m', q2, q3⟩ := hw
    refine ⟨?_, (if m'.path = p then { m' with queue := q } else m'), ?_, ?_⟩
    · rw [hch k g w' hsk hσk]
      show _ = some (if w'.dir = p ∧ w'.name = n then { w' with changed := true } else w').changed
      split <;> rfl
    · rw [hmm]
      have : (if w'.dir = p ∧ w'.name = n then { w' with changed := true } else w').dir = w'.dir := by split <;> rfl
      rw [this, q2]; rfl
    · rw [hf]
      have h1 : (if w'.dir = p ∧ w'.name = n then { w' with changed := true } else w').dir = w'.dir := by split <;> rfl
      have h2 : (if w'.dir = p ∧ w'.name = n then { w' with changed := true } else w').name = w'.name := by split <;> rfl
      rw [h1, h2]; exact q3
  · intro g hg
    exact hi.alive g ((hal g).1 hg)
  · intro g hg
    exact hi.fresh g ((hal g).1 hg)
  · intro c x hx
    dsimp only at hx
    by_cases hc : c = p
    · subst hc; rw [updS_self] at hx
      exact hi.plain c x (by rw [hpn]; exact List.mem_cons_of_mem _ hx)
    · rw [updS_ne _ _ hc] at hx; exact hi.plain c x hx

end Verif.Watch
