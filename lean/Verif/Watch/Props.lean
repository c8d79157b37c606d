import Verif.Watch.Steps

namespace Verif.Watch
open Spec

/-- A path is its directory and its name; without a slash, the directory is `./`. -/
theorem C84_paths (p : Str) : '/' ∉ (parts p).2 ∧ (('/' ∉ p ∧ parts p = (['.', '/'], p)) ∨ ((parts p).1 ++ (parts p).2 = p ∧ ∃ q, (parts p).1 = q ++ ['/'])) := by
  obtain ⟨h1, h2, h3⟩ := pivot_spec p
  unfold parts getFileLocation
  dsimp only
  refine ⟨h2, ?_⟩
  rcases h3 with h3 | ⟨q, h3⟩
  · left
    rw [h3] at h1 ⊢
    simp only [List.nil_append] at h1
    rw [h1] at h2 ⊢
    exact ⟨h2, rfl⟩
  · right
    have : (pivot p).1.isEmpty = false := by rw [h3]; simp
    rw [this]
    exact ⟨by simpa using h1, q, by simpa using h3⟩

example : parts "dir/sub/a.txt".toList = ("dir/sub/".toList, "a.txt".toList) ∧ parts "a.txt".toList = ("./".toList, "a.txt".toList) := by decide +kernel

theorem step_ok (resolve : Str → Nat) {s : State} {σ : S} (hi : Inv s σ) (op : Op) (ha : allowed σ op = true) (hd : ∀ i p, op = .create i p → σ.taken (parts p) = false) :
    ∃ s', step resolve s op = .ok (s', (Spec.next resolve σ op).2) ∧ Inv s' (Spec.next resolve σ op).1 := by
  have valid : ∀ i, (σ.watches i).isSome = true → ∃ w v, σ.watches i = some w ∧ s.watches i = some v := by
    intro i h
    have hw := hi.watch i
    rcases hσ : σ.watches i with _ | w
    · rw [hσ] at h; cases h
    · rcases hs : s.watches i with _ | v
      · rw [hσ, hs] at hw; rcases w with _ | w <;> cases hw
      · exact ⟨w, v, rfl, rfl⟩
  cases op with
  | new i =>
    exact ⟨_, rfl, inv_new hi (Option.isNone_iff_eq_none.1 ha)⟩
  | create i p =>
    have hw : (createFlag s p).1.watches = s.watches := by unfold createFlag; dsimp only; split <;> rfl
    refine ⟨{ (createFlag s p).1 with watches := upd (createFlag s p).1.watches i (some (some (createFlag s p).2)) }, rfl, ?_⟩
    rw [hw]
    exact inv_create hi (Option.isNone_iff_eq_none.1 ha) p (hd i p rfl)
  | move i j =>
    simp only [allowed, Bool.and_eq_true] at ha
    obtain ⟨w, v, h1, h2⟩ := valid j ha.2
    refine ⟨_, ?_, inv_move hi (Option.isNone_iff_eq_none.1 ha.1) h2⟩
    simp only [step, look, h2]
    rfl
  | assign i j =>
    simp only [allowed, Bool.and_eq_true] at ha
    obtain ⟨w, v, h1, h2⟩ := valid i ha.1
    obtain ⟨w', v', h1', h2'⟩ := valid j ha.2
    obtain ⟨v2, s', e1, e2, e3, hi'⟩ := inv_drop hi h1
    rw [h2] at e1
    obtain rfl := Option.some.inj e1
    refine ⟨{ s' with watches := upd (upd s.watches i (some v')) j (some none) }, ?_, ?_⟩
    · simp only [step, look, h2, h2', R.ok_bind, e2, e3]
      rfl
    · by_cases hij : j = i
      · subst hij
        have := inv_new hi' (i := j) (by dsimp only; rw [upd_self])
        simp only [Spec.next, h1, Option.getD_some]
        dsimp only at this
        rw [upd_upd] at this ⊢
        rw [upd_upd]
        rw [upd_upd] at this
        exact this
      · have := inv_move hi' (i := i) (j := j) (v := v') (by dsimp only; rw [upd_self]) (by dsimp only; rw [upd_ne _ _ hij]; exact h2')
        simp only [Spec.next, h1, Option.getD_some]
        dsimp only at this
        rw [upd_upd', upd_upd', upd_ne _ _ hij] at this
        exact this
  | drop i =>
    obtain ⟨w, v, h1, h2⟩ := valid i ha
    obtain ⟨v2, s', e1, e2, e3, hi'⟩ := inv_drop hi h1
    rw [h2] at e1
    obtain rfl := Option.some.inj e1
    refine ⟨{ s' with watches := upd s.watches i none }, ?_, ?_⟩
    · simp only [step, look, h2, R.ok_bind, e2, e3]
      rfl
    · simp only [Spec.next, h1, Option.getD_some]
      exact hi'
  | valid i =>
    obtain ⟨w, v, h1, h2⟩ := valid i ha
    refine ⟨s, ?_, hi⟩
    have hw := hi.watch i
    rw [h1, h2] at hw
    simp only [step, look, h2, R.ok_bind, Spec.next, h1, Option.getD_some]
    rcases v with _ | v <;> rcases w with _ | w <;> first | rfl | cases hw
  | has i =>
    obtain ⟨w, v, h1, h2⟩ := valid i ha
    refine ⟨s, ?_, hi⟩
    have hw := hi.watch i
    rw [h1, h2] at hw
    simp only [step, look, h2, R.ok_bind, Spec.next, h1, Option.getD_some]
    rcases v with _ | v <;> rcases w with _ | w <;> first | rfl | exact False.elim hw | skip
    obtain ⟨g, -⟩ := hw
    dsimp only
    rw [g]
    rfl
  | clear i =>
    simp only [allowed] at ha
    rcases hσ : σ.watches i with _ | _ | w
    · rw [hσ] at ha; cases ha
    · rw [hσ] at ha; cases ha
    · obtain ⟨f, h1, h2, -⟩ := match_valid (hσ ▸ hi.watch i)
      refine ⟨_, ?_, inv_clear hi hσ h1⟩
      simp only [step, look, h1, R.ok_bind]
      rw [ccAssert_true (c := (some f).isSome) rfl, R.ok_bind, h2]
      rfl
  | change d n =>
    simp only [allowed, Bool.and_eq_true, Bool.not_eq_true'] at ha
    refine ⟨_, rfl, inv_change resolve hi d ⟨?_, ?_⟩⟩
    · intro h; rw [h] at ha; exact absurd ha.1 (by decide)
    · intro h
      have : n.contains '/' = true := by simpa using h
      rw [this] at ha; exact absurd ha.2 (by decide)
  | thread p =>
    cases hm : mon s.mons p with
    | none =>
      refine ⟨s, ?_, ?_⟩
      · have hp := (hi.noMon p hm).2
        simp only [step, Spec.next, hp]
        unfold mon at hm
        rw [hm]
      · simp only [Spec.next, (hi.noMon p hm).2]; exact hi
    | some m =>
      have hq := (hi.monOk p m hm).queue
      cases hmq : m.queue with
      | nil =>
        rw [hmq] at hq
        refine ⟨s, ?_, ?_⟩
        · simp only [step, Spec.next, ← hq]
          unfold mon at hm
          rw [hm]
          dsimp only
          rw [hmq]
        · simp only [Spec.next, ← hq]; exact hi
      | cons n q =>
        obtain ⟨fl, ho, hi'⟩ := inv_thread hi hm hmq
        rw [hmq] at hq
        refine ⟨{ s with flags := fl, mons := s.mons.map fun m => if m.path = p then { m with queue := q } else m }, ?_, ?_⟩
        · simp only [step, Spec.next, ← hq]
          unfold mon at hm
          rw [hm]
          dsimp only
          rw [hmq]
          dsimp only
          rw [ho, R.ok_bind]
        · simp only [Spec.next, ← hq]; exact hi'

theorem run_ok (resolve : Str → Nat) (ops : List Op) : ∀ {s : State} {σ : S}, Inv s σ → Allowed resolve σ ops →
    ∃ s', run resolve s ops = .ok (s', (Spec.run resolve σ ops).2) ∧ Inv s' (Spec.run resolve σ ops).1 := by
  induction ops with
  | nil => intro s σ hi _; exact ⟨s, rfl, hi⟩
  | cons op ops ih =>
    intro s σ hi ha
    obtain ⟨h1, h2, h3⟩ := ha
    obtain ⟨s1, e1, i1⟩ := step_ok resolve hi op h1 h2
    obtain ⟨s2, e2, i2⟩ := ih i1 h3
    refine ⟨s2, ?_, i2⟩
    show (step resolve s op >>= fun x => run resolve x.1 ops >>= fun y => .ok (y.1, x.2 :: y.2)) = _
    rw [e1, R.ok_bind]
    dsimp only
    rw [e2, R.ok_bind]
    rfl

/-- In every history in which no file has two watches at a time, whatever the threads do in between, each watch reports exactly the changes of its file; nothing is done to a flag that is gone; there are flags
for living watches only, and one monitor for each directory with watches. Missing: two watches for one file (`C84_second_watch_blind`). -/
theorem C84_watches_partial (resolve : Str → Nat) (ops : List Op) (ha : Allowed resolve .init ops) :
    ∃ s, run resolve .init ops = .ok (s, (Spec.run resolve .init ops).2) ∧
      (∀ f, s.flags f ≠ none → ∃ i, s.watches i = some (some f)) ∧
      (s.mons.map (·.path)).Nodup ∧ ∀ d, d ∈ s.mons.map (·.path) ↔ ∃ i w, (Spec.run resolve .init ops).1.watches i = some (some w) ∧ w.dir = d := by
  obtain ⟨s, e, hi⟩ := run_ok resolve ops inv_init ha
  refine ⟨s, e, hi.alive, hi.diff, fun d => ⟨fun h => ?_, ?_⟩⟩
  · cases hm : mon s.mons d with
    | none => exact absurd h (mon_none.1 hm)
    | some m =>
      have mok := hi.monOk d m hm
      cases hf : m.files with
      | nil => exact absurd hf mok.files
      | cons x xs =>
        obtain ⟨-, -, i, w, -, h1, h2, -⟩ := mok.entry x (by rw [hf]; exact List.mem_cons_self)
        exact ⟨i, w, h1, h2⟩
  · rintro ⟨i, w, h1, rfl⟩
    obtain ⟨f, -, -, m, hm, -⟩ := match_valid (h1 ▸ hi.watch i)
    apply Classical.byContradiction
    intro hn
    rw [mon_none.2 hn] at hm
    cases hm

example : ((run (fun _ => 0) .init [.create 0 "a/x".toList, .create 1 "a/y".toList, .has 0, .change 0 "x".toList, .has 0, .thread "a/".toList, .has 0, .has 1, .clear 0, .has 0, .drop 1, .assign 0 0, .valid 0]).map (·.2)).toOption =
    some [.none, .none, .bool false, .none, .bool false, .none, .bool true, .bool false, .none, .bool false, .none, .none, .bool false] := by decide +kernel

example : Allowed (fun _ => 0) .init [.create 0 "a/x".toList, .create 1 "a/y".toList, .change 0 "x".toList, .thread "a/".toList, .has 0, .drop 1] := by
  refine ⟨by decide +kernel, ?_, by decide +kernel, ?_, by decide +kernel, ?_, by decide +kernel, ?_, by decide +kernel, ?_, by decide +kernel, ?_, True.intro⟩
  all_goals (rintro i p h; first | (cases h; decide +kernel) | cases h)

/-- A call that leaves this watch in its variable and does not clear it. -/
def leaves (i : Nat) : Op → Bool
  | .new _ | .create .. | .valid _ | .has _ | .change .. | .thread _ => true
  | .move j k | .assign j k => j != i && k != i
  | .drop j | .clear j => j != i

theorem two_watches {s : State} {σ : S} (hi : Inv s σ) {i k : Nat} {w v : W} (hik : i ≠ k) (h1 : σ.watches i = some (some w)) (h2 : σ.watches k = some (some v)) (hd : v.dir = w.dir) : σ.count w.dir ≠ 1 := by
  obtain ⟨f, f1, -, m, f2, f3⟩ := match_valid (h1 ▸ hi.watch i)
  obtain ⟨g, g1, -, m', g2, g3⟩ := match_valid (h2 ▸ hi.watch k)
  rw [hd, f2] at g2
  obtain rfl := Option.some.inj g2
  intro hc
  have := (hi.monOk _ m f2).count
  rw [hc] at this
  obtain ⟨x, hx⟩ := List.length_eq_one_iff.1 this
  rw [hx, List.mem_singleton] at f3 g3
  have : f = g := by
    have e := f3.trans g3.symm
    exact congrArg Entry.flag e
  subst this
  exact hik (hi.inj i k f f1 g1)

theorem stays (resolve : Str → Nat) (ops : List Op) : ∀ {s : State} {σ : S} {i : Nat} {w : W}, Inv s σ → Allowed resolve σ ops → (∀ op, op ∈ ops → leaves i op = true) → σ.watches i = some (some w) →
    (w.changed = true ∨ w.name ∈ σ.pending w.dir) →
    ∃ w', (Spec.run resolve σ ops).1.watches i = some (some w') ∧ w'.dir = w.dir ∧ w'.name = w.name ∧ (w'.changed = true ∨ w.name ∈ (Spec.run resolve σ ops).1.pending w.dir) := by
  induction ops with
  | nil => intro s σ i w _ _ _ h1 h2; exact ⟨w, h1, rfl, rfl, h2⟩
  | cons op ops ih =>
    intro s σ i w hi ha hl h1 h2
    obtain ⟨a1, a2, a3⟩ := ha
    obtain ⟨s1, -, i1⟩ := step_ok resolve hi op a1 a2
    have hl1 := hl op List.mem_cons_self
    have hl2 := fun o (h : o ∈ ops) => hl o (List.mem_cons_of_mem _ h)
    have key : ∃ w1, (Spec.next resolve σ op).1.watches i = some (some w1) ∧ w1.dir = w.dir ∧ w1.name = w.name ∧ (w1.changed = true ∨ w.name ∈ (Spec.next resolve σ op).1.pending w.dir) := by
      have fin : ∀ j, j ≠ i → (w.changed = true ∨ w.name ∈ (finish σ ((σ.watches j).getD none)).pending w.dir) := by
        intro j hj
        rcases h2 with h2 | h2
        · exact .inl h2
        · right
          rcases hσ : σ.watches j with _ | _ | v
          · exact h2
          · exact h2
          · show w.name ∈ (if σ.count v.dir = 1 then updS σ.pending v.dir [] else σ.pending) w.dir
            split
            · rename_i hc
              by_cases hd : w.dir = v.dir
              · exact absurd (hd ▸ hc) (two_watches hi (fun e => hj e.symm) h1 hσ hd.symm)
              · rw [updS_ne _ _ hd]; exact h2
            · exact h2
      cases op with
      | new j =>
        have hj : i ≠ j := by
          rintro rfl
          have := Option.isNone_iff_eq_none.1 a1
          rw [h1] at this; cases this
        exact ⟨w, by simp only [Spec.next]; rw [upd_ne _ _ hj]; exact h1, rfl, rfl, h2⟩
      | create j p =>
        have hj : i ≠ j := by
          rintro rfl
          have := Option.isNone_iff_eq_none.1 a1
          rw [h1] at this; cases this
        exact ⟨w, by simp only [Spec.next]; rw [upd_ne _ _ hj]; exact h1, rfl, rfl, h2⟩
      | move j k =>
        simp only [leaves, Bool.and_eq_true, bne_iff_ne] at hl1
        exact ⟨w, by simp only [Spec.next]; rw [upd_ne _ _ (fun e => hl1.2 e.symm), upd_ne _ _ (fun e => hl1.1 e.symm)]; exact h1, rfl, rfl, h2⟩
      | assign j k =>
        simp only [leaves, Bool.and_eq_true, bne_iff_ne] at hl1
        exact ⟨w, by simp only [Spec.next]; rw [upd_ne _ _ (fun e => hl1.2 e.symm), upd_ne _ _ (fun e => hl1.1 e.symm)]; exact h1, rfl, rfl, fin j hl1.1⟩
      | drop j =>
        simp only [leaves, bne_iff_ne] at hl1
        exact ⟨w, by simp only [Spec.next]; rw [upd_ne _ _ (fun e => hl1 e.symm)]; exact h1, rfl, rfl, fin j hl1⟩
      | valid j => exact ⟨w, h1, rfl, rfl, h2⟩
      | has j => exact ⟨w, h1, rfl, rfl, h2⟩
      | clear j =>
        simp only [leaves, bne_iff_ne] at hl1
        exact ⟨w, by simp only [Spec.next]; rw [upd_ne _ _ (fun e => hl1 e.symm)]; exact h1, rfl, rfl, h2⟩
      | change d n =>
        refine ⟨w, h1, rfl, rfl, ?_⟩
        rcases h2 with h2 | h2
        · exact .inl h2
        · right
          simp only [Spec.next]
          split
          · exact List.mem_append_left _ h2
          · exact h2
      | thread p =>
        simp only [Spec.next]
        cases hp : σ.pending p with
        | nil => exact ⟨w, h1, rfl, rfl, h2⟩
        | cons n q =>
          dsimp only
          rw [h1]
          refine ⟨if w.dir = p ∧ w.name = n then { w with changed := true } else w, rfl, ?_, ?_, ?_⟩
          · split <;> rfl
          · split <;> rfl
          · by_cases hwn : w.dir = p ∧ w.name = n
            · rw [if_pos hwn]; exact .inl rfl
            · rw [if_neg hwn]
              rcases h2 with h2 | h2
              · exact .inl h2
              · right
                by_cases hd : w.dir = p
                · subst hd
                  rw [updS_self]
                  rw [hp] at h2
                  rcases List.mem_cons.1 h2 with h2 | h2
                  · exact absurd ⟨rfl, h2⟩ hwn
                  · exact h2
                · rw [updS_ne _ _ hd]; exact h2
    obtain ⟨w1, k1, k2, k3, k4⟩ := key
    rw [← k2, ← k3] at k4
    obtain ⟨w', q1, q2, q3, q4⟩ := ih i1 a3 hl2 k1 k4
    exact ⟨w', q1, q2.trans k2, q3.trans k3, by rw [← k2, ← k3]; exact q4⟩

theorem allowed_append (resolve : Str → Nat) (a b : List Op) (σ : S) : Allowed resolve σ (a ++ b) ↔ Allowed resolve σ a ∧ Allowed resolve (Spec.run resolve σ a).1 b := by
  induction a generalizing σ with
  | nil => simp [Allowed, Spec.run]
  | cons op a ih => simp only [List.cons_append, Allowed, Spec.run, ih, and_assoc]

theorem spec_run_append (resolve : Str → Nat) (a b : List Op) (σ : S) : (Spec.run resolve σ (a ++ b)).1 = (Spec.run resolve (Spec.run resolve σ a).1 b).1 := by
  induction a generalizing σ with
  | nil => rfl
  | cons op a ih => simp only [List.cons_append, Spec.run, ih]

/-- No change is lost: when the file of a watch changes, and later all changes in its directory have been reported, then the watch says so, unless it was cleared or given away in between. -/
theorem C84_no_change_lost (resolve : Str → Nat) (before after : List Op) (i : Nat) (w : W)
    (ha : Allowed resolve .init (before ++ .change (resolve w.dir) w.name :: after)) (hw : (Spec.run resolve .init before).1.watches i = some (some w)) (hl : ∀ op, op ∈ after → leaves i op = true)
    (hp : (Spec.run resolve .init (before ++ .change (resolve w.dir) w.name :: after)).1.pending w.dir = []) :
    ∃ s os, run resolve .init (before ++ .change (resolve w.dir) w.name :: after) = .ok (s, os) ∧ step resolve s (.has i) = .ok (s, .bool true) := by
  obtain ⟨s, e, hi⟩ := run_ok resolve _ inv_init ha
  refine ⟨s, _, e, ?_⟩
  rw [allowed_append] at ha
  obtain ⟨s0, e0, hi0⟩ := run_ok resolve _ inv_init ha.1
  obtain ⟨b1, b2, b3⟩ := ha.2
  obtain ⟨s1, e1, hi1⟩ := step_ok resolve hi0 _ b1 b2
  obtain ⟨f, -, -, m, f2, f3⟩ := match_valid (hw ▸ hi0.watch i)
  have hc : (Spec.run resolve .init before).1.count w.dir ≠ 0 := by
    rw [← (hi0.monOk _ m f2).count]
    intro hz
    rw [List.eq_nil_of_length_eq_zero hz] at f3
    cases f3
  obtain ⟨w', q1, q2, q3, q4⟩ := stays resolve after hi1 b3 hl (i := i) (w := w) hw (by
    right
    simp only [Spec.next]
    rw [if_pos ⟨trivial, hc⟩]
    exact List.mem_append_right _ List.mem_cons_self)
  rw [spec_run_append] at hp hi
  have hrun : (Spec.run resolve (Spec.run resolve .init before).1 (.change (resolve w.dir) w.name :: after)).1 = (Spec.run resolve (Spec.next resolve (Spec.run resolve .init before).1 (.change (resolve w.dir) w.name)).1 after).1 := rfl
  rw [hrun] at hp hi
  rw [hp] at q4
  have hch : w'.changed = true := by
    rcases q4 with q4 | q4
    · exact q4
    · cases q4
  obtain ⟨g, g1, g2, -⟩ := match_valid (q1 ▸ hi.watch i)
  simp only [step, look, g1, R.ok_bind, g2, hch]

/-- The code violates the property: of two watches for one file, the second never notices a change while the first exists, whatever happens to files and whatever the threads do. -/
theorem C84_second_watch_blind (resolve : Str → Nat) (p : Str) (ops : List Op) (ho : ∀ op, op ∈ ops → (∃ d n, op = .change d n) ∨ (∃ q, op = .thread q) ∨ op = .has 0 ∨ op = .clear 0) :
    ∃ s os, run resolve .init ([.create 0 p, .create 1 p] ++ ops) = .ok (s, os) ∧ step resolve s (.has 1) = .ok (s, .bool false) := by
  -- the state: one monitor with both files
  have key : ∀ (ops : List Op), (∀ op, op ∈ ops → (∃ d n, op = .change d n) ∨ (∃ q, op = .thread q) ∨ op = .has 0 ∨ op = .clear 0) → ∀ s : State,
      (∃ q, s.mons = [⟨(getFileLocation p).directory, [⟨getFileLocation p, 0⟩, ⟨getFileLocation p, 1⟩], q⟩]) → (s.flags 0).isSome = true → s.flags 1 = some false → s.watches 0 = some (some 0) → s.watches 1 = some (some 1) →
      ∃ s' os, run resolve s ops = .ok (s', os) ∧ step resolve s' (.has 1) = .ok (s', .bool false) := by
    intro ops
    induction ops with
    | nil =>
      intro _ s _ _ h1 _ hw
      refine ⟨s, [], rfl, ?_⟩
      simp only [step, look, hw, R.ok_bind, h1]
    | cons op ops ih =>
      intro ho s hm h0 h1 hw0 hw1
      have fin : ∀ (s1 : State) (o : Obs), step resolve s op = .ok (s1, o) → (∃ q, s1.mons = [⟨(getFileLocation p).directory, [⟨getFileLocation p, 0⟩, ⟨getFileLocation p, 1⟩], q⟩]) → (s1.flags 0).isSome = true →
          s1.flags 1 = some false → s1.watches 0 = some (some 0) → s1.watches 1 = some (some 1) → ∃ s' os, run resolve s (op :: ops) = .ok (s', os) ∧ step resolve s' (.has 1) = .ok (s', .bool false) := by
        intro s1 o e c1 c2 c3 c4 c5
        obtain ⟨s', os, e', e''⟩ := ih (fun x hx => ho x (List.mem_cons_of_mem _ hx)) s1 c1 c2 c3 c4 c5
        refine ⟨s', o :: os, ?_, e''⟩
        show (step resolve s op >>= fun x => run resolve x.1 ops >>= fun y => .ok (y.1, x.2 :: y.2)) = _
        rw [e, R.ok_bind]
        dsimp only
        rw [e', R.ok_bind]
      obtain ⟨q, hm⟩ := hm
      obtain ⟨b, h0⟩ := Option.isSome_iff_exists.1 h0
      rcases ho op List.mem_cons_self with ⟨d, n, rfl⟩ | ⟨c, rfl⟩ | rfl | rfl
      · refine fin _ _ rfl ?_ (by dsimp only; rw [h0]; rfl) h1 hw0 hw1
        dsimp only
        rw [hm]
        simp only [List.map_cons, List.map_nil]
        split
        · exact ⟨_, rfl⟩
        · exact ⟨_, rfl⟩
      · simp only [step, hm] at fin
        by_cases hc : (getFileLocation p).directory = c
        · simp only [List.find?_cons, hc, decide_true] at fin
          cases q with
          | nil =>
            simp only at fin
            exact fin s .none rfl ⟨[], by rw [hm, hc]⟩ (by rw [h0]; rfl) h1 hw0 hw1
          | cons n q =>
            simp only at fin
            by_cases hn : n.isEmpty = true
            · have : onEvent s.flags n [⟨getFileLocation p, 0⟩, ⟨getFileLocation p, 1⟩] = .ok s.flags := by unfold onEvent; rw [if_pos hn]
              rw [this, R.ok_bind] at fin
              exact fin _ _ rfl ⟨q, by simp⟩ (by dsimp only; rw [h0]; rfl) h1 hw0 hw1
            · by_cases hf : (getFileLocation n).filename = (getFileLocation p).filename
              · have : onEvent s.flags n [⟨getFileLocation p, 0⟩, ⟨getFileLocation p, 1⟩] = .ok (upd s.flags 0 (some true)) := by
                  unfold onEvent; rw [if_neg hn]
                  simp only [List.find?_cons, hf, decide_true, h0]
                rw [this, R.ok_bind] at fin
                exact fin _ _ rfl ⟨q, by simp⟩ (by dsimp only; rw [upd_self]; rfl) (by dsimp only; rw [upd_ne _ _ (by decide)]; exact h1) hw0 hw1
              · have : onEvent s.flags n [⟨getFileLocation p, 0⟩, ⟨getFileLocation p, 1⟩] = .ok s.flags := by
                  unfold onEvent; rw [if_neg hn]
                  simp only [List.find?_cons, hf, decide_false, List.find?_nil]
                rw [this, R.ok_bind] at fin
                exact fin _ _ rfl ⟨q, by simp⟩ (by dsimp only; rw [h0]; rfl) h1 hw0 hw1
        · simp only [List.find?_cons, hc, decide_false, List.find?_nil] at fin
          exact fin s .none rfl ⟨q, hm⟩ (by rw [h0]; rfl) h1 hw0 hw1
      · refine fin s (.bool b) ?_ ⟨q, hm⟩ (by rw [h0]; rfl) h1 hw0 hw1
        simp only [step, look, hw0, R.ok_bind, h0]
      · refine fin { s with flags := upd s.flags 0 (some false) } .none ?_ ⟨q, hm⟩ (by dsimp only; rw [upd_self]; rfl) (by dsimp only; rw [upd_ne _ _ (by decide)]; exact h1) hw0 hw1
        simp only [step, look, hw0, R.ok_bind]
        rw [ccAssert_true (c := (some 0).isSome) rfl, R.ok_bind, h0]
        rfl
  have e1 : addTo ⟨getFileLocation p, 1⟩ [⟨(getFileLocation p).directory, [⟨getFileLocation p, 0⟩], []⟩] = some [⟨(getFileLocation p).directory, [⟨getFileLocation p, 0⟩, ⟨getFileLocation p, 1⟩], []⟩] := by
    unfold addTo; rw [if_pos rfl]; rfl
  have c0 : createFlag .init p = (⟨[⟨(getFileLocation p).directory, [⟨getFileLocation p, 0⟩], []⟩], upd (fun _ => none) 0 (some false), 1, fun _ => none⟩, 0) := rfl
  let s1 : State := ⟨[⟨(getFileLocation p).directory, [⟨getFileLocation p, 0⟩], []⟩], upd (fun _ => none) 0 (some false), 1, upd (fun _ => none) 0 (some (some 0))⟩
  let s2 : State := ⟨[⟨(getFileLocation p).directory, [⟨getFileLocation p, 0⟩, ⟨getFileLocation p, 1⟩], []⟩], upd (upd (fun _ => none) 0 (some false)) 1 (some false), 2, upd (upd (fun _ => none) 0 (some (some 0))) 1 (some (some 1))⟩
  have t1 : step resolve .init (.create 0 p) = .ok (s1, .none) := rfl
  have t2 : step resolve s1 (.create 1 p) = .ok (s2, .none) := by
    simp only [step, createFlag, s1, e1]
    rfl
  obtain ⟨s', os, e', e''⟩ := key ops ho s2 ⟨[], rfl⟩ rfl rfl rfl rfl
  refine ⟨s', .none :: .none :: os, ?_, e''⟩
  show (step resolve .init (.create 0 p) >>= fun x => run resolve x.1 (.create 1 p :: ops) >>= fun y => .ok (y.1, x.2 :: y.2)) = _
  rw [t1, R.ok_bind]
  dsimp only
  show ((step resolve s1 (.create 1 p) >>= fun x => run resolve x.1 ops >>= fun y => .ok (y.1, x.2 :: y.2)) >>= fun y => .ok (y.1, Obs.none :: y.2)) = _
  rw [t2, R.ok_bind]
  dsimp only
  rw [e', R.ok_bind]
  rfl

example : ((run (fun _ => 0) .init [.create 0 "a/x".toList, .create 1 "a/x".toList, .change 0 "x".toList, .thread "a/".toList, .has 0, .has 1]).map (·.2)).toOption =
    some [.none, .none, .none, .none, .bool true, .bool false] := by decide +kernel

end Verif.Watch
