import Verif.Own.Lemmas

/-! The calls on owning pointers against the bookkeeping. -/
namespace Verif.Own

open Spec

/-! ### specification states -/

theorem get_set_self {s : State} {l : Loc} {p : Option Nat} (h : s.get l = some p) (q : Option Nat) : (s.set l q).get l = some q := by
  cases l with
  | var i =>
    have hi : i < s.vars.length := (List.getElem?_eq_some_iff.1 h).1
    simp [State.set, State.get, hi]
  | field o k =>
    simp only [State.get] at h
    cases ho : s.objs[o]? with
    | none => rw [ho] at h; simp at h
    | some fs =>
      rw [ho] at h
      have h : fs[k]? = some p := h
      have hk : k < fs.length := (List.getElem?_eq_some_iff.1 h).1
      have hl : o < s.objs.length := (List.getElem?_eq_some_iff.1 ho).1
      simp only [State.set, State.get, ho]
      rw [List.getElem?_set_self hl]
      simp [hk]

theorem get_set_ne {s : State} {l m : Loc} (h : m ≠ l) (q : Option Nat) : (s.set l q).get m = s.get m := by
  cases l with
  | var i =>
    cases m with
    | var j =>
      have : i ≠ j := fun e => h (e ▸ rfl)
      simp [State.set, State.get, List.getElem?_set_ne this]
    | field o k => rfl
  | field o k =>
    cases ho : s.objs[o]? with
    | none => simp [State.set, ho]
    | some fs =>
      cases m with
      | var j => simp [State.set, State.get, ho]
      | field o' k' =>
        simp only [State.set, State.get, ho]
        by_cases e : o = o'
        · subst e
          have : k ≠ k' := fun e => h (e ▸ rfl)
          have hl : o < s.objs.length := (List.getElem?_eq_some_iff.1 ho).1
          rw [List.getElem?_set_self hl]
          simp [List.getElem?_set_ne this, ho]
        · rw [List.getElem?_set_ne e]

theorem get_set_isSome {s : State} {l m : Loc} (h : (s.get m).isSome = true) (q : Option Nat) : ((s.set l q).get m).isSome = true := by
  by_cases e : m = l
  · subst e
    obtain ⟨p, hp⟩ := Option.isSome_iff_exists.1 h
    rw [get_set_self hp]; rfl
  · rw [get_set_ne e]; exact h

theorem set_same {s : State} {l : Loc} {p : Option Nat} (h : s.get l = some p) : s.set l p = s := by
  cases l with
  | var i =>
    have h : s.vars[i]? = some p := h
    obtain ⟨hi, e⟩ := List.getElem?_eq_some_iff.1 h
    simp only [State.set]
    rw [← e, List.set_getElem_self]
  | field o k =>
    simp only [State.get] at h
    cases ho : s.objs[o]? with
    | none => rw [ho] at h; simp at h
    | some fs =>
      rw [ho] at h
      have h : fs[k]? = some p := h
      obtain ⟨hk, e⟩ := List.getElem?_eq_some_iff.1 h
      obtain ⟨hl, e2⟩ := List.getElem?_eq_some_iff.1 ho
      simp only [State.set, ho]
      rw [← e, List.set_getElem_self, ← e2, List.set_getElem_self]

theorem set_set (s : State) (l : Loc) (p q : Option Nat) : (s.set l p).set l q = s.set l q := by
  cases l with
  | var i => simp [State.set]
  | field o k =>
    cases ho : s.objs[o]? with
    | none => simp [State.set, ho]
    | some fs =>
      have hl : o < s.objs.length := (List.getElem?_eq_some_iff.1 ho).1
      simp [State.set, ho, hl]

theorem ptr_of_get {s : State} {l : Loc} {p : Option Nat} (h : s.get l = some p) : s.ptr l = p := by
  unfold State.ptr; rw [h]; rfl

theorem Spec.Reach.set {avoid avoid' : List Loc} {s : State} {l : Loc} {q : Option Nat} (hl : l ∈ avoid) (hs : ∀ m, m ∈ avoid' → m ∈ avoid) {x : Nat}
    (h : Reach avoid s x) : Reach avoid' (s.set l q) x := by
  induction h with
  | var hi hg => exact .var (fun h => hi (hs _ h)) (by rw [get_set_ne (fun e => hi (by rw [e]; exact hl))]; exact hg)
  | field _ hk hg ih => exact .field ih (fun h => hk (hs _ h)) (by rw [get_set_ne (fun e => hk (by rw [e]; exact hl))]; exact hg)

theorem Spec.Acc.set {avoid avoid' : List Loc} {s : State} {l m : Loc} {q : Option Nat} (hl : l ∈ avoid) (hs : ∀ m, m ∈ avoid' → m ∈ avoid)
    (h : Acc avoid s m) : Acc avoid' (s.set l q) m := by
  refine ⟨get_set_isSome h.1 q, ?_⟩
  cases m with
  | var i => trivial
  | field o k => exact Reach.set hl hs h.2

/-- A new object without owners. -/
def addObj (s : State) (n : Nat) : State := { s with objs := s.objs ++ [List.replicate n none] }

theorem get_addObj {s : State} {l : Loc} {p : Option Nat} (n : Nat) (h : s.get l = some p) : (addObj s n).get l = some p := by
  cases l with
  | var i => exact h
  | field o k =>
    simp only [State.get] at h
    cases ho : s.objs[o]? with
    | none => rw [ho] at h; simp at h
    | some fs =>
      rw [ho] at h
      have hl : o < s.objs.length := (List.getElem?_eq_some_iff.1 ho).1
      simp only [addObj, State.get]
      rw [List.getElem?_append_left hl, ho]
      exact h

theorem Spec.Reach.addObj {avoid : List Loc} {s : State} {x : Nat} (n : Nat) (h : Reach avoid s x) : Reach avoid (addObj s n) x := by
  induction h with
  | var hi hg => exact .var hi (get_addObj n hg)
  | field _ hk hg ih => exact .field ih hk (get_addObj n hg)

theorem Spec.Acc.addObj {avoid : List Loc} {s : State} {l : Loc} (n : Nat) (h : Acc avoid s l) : Acc avoid (addObj s n) l := by
  obtain ⟨p, hp⟩ := Option.isSome_iff_exists.1 h.1
  refine ⟨by rw [get_addObj n hp]; rfl, ?_⟩
  cases l with
  | var i => trivial
  | field o k => exact Reach.addObj n h.2

theorem Spec.Acc.reach {avoid : List Loc} {s : State} {l : Loc} {o : Nat} (h : Acc avoid s l) (hl : l ∉ avoid) (hg : s.get l = some (some o)) :
    Reach avoid s o := by
  cases l with
  | var i => exact .var hl hg
  | field a k => exact .field h.2 hl hg

/-! ### locations -/

/-- Location `l` can be used, and holds `p`. -/
def LocAt (w : World) (l : Loc) (p : Option Nat) : Prop :=
  match l with
  | .var i => w.vars[i]? = some p
  | .field o k => ∃ b, w.heap[o]? = some b ∧ b.freed = false ∧ b.rc > 0 ∧ b.fields[k]? = some p

theorem LocAt.get {w : World} {l : Loc} {p : Option Nat} (h : LocAt w l p) : (abs w).get l = some p := by
  cases l with
  | var i => exact h
  | field o k =>
    obtain ⟨b, hb, _, _, hk⟩ := h
    simp [abs, State.get, hb, hk]

theorem LocAt.read {w : World} {l : Loc} {p : Option Nat} (h : LocAt w l p) : w.read l = .ok p := by
  cases l with
  | var i =>
    have h : w.vars[i]? = some p := h
    simp only [World.read]; rw [h]
  | field o k =>
    obtain ⟨b, hb, hf, _, hk⟩ := h
    simp only [World.read]
    rw [live_block hb hf, R.ok_bind, hk]

theorem acc_locAt {d : Option Loc} {P : List Nat} {w : World} (I : Inv d P [] w) {avoid : List Loc} (hd : ∀ l, d = some l → l ∈ avoid) {l : Loc}
    (h : Acc avoid (abs w) l) : ∃ p, LocAt w l p := by
  obtain ⟨p, hp⟩ := Option.isSome_iff_exists.1 h.1
  refine ⟨p, ?_⟩
  cases l with
  | var i => exact hp
  | field o k =>
    have h1 := reach_cnt I hd h.2
    obtain ⟨b, hb, hf, hr⟩ := live_of_cnt I (x := o) (by omega)
    refine ⟨b, hb, hf, hr, ?_⟩
    simpa [abs, State.get, hb] using hp

theorem count_set_none {l : List (Option Nat)} {i : Nat} {p : Option Nat} (h : l[i]? = some p) (x : Nat) :
    l.count (some x) = (l.set i none).count (some x) + p.toList.count x := by
  induction l generalizing i with
  | nil => simp at h
  | cons a l ih =>
    cases i with
    | zero =>
      simp only [List.getElem?_cons_zero, Option.some.injEq] at h
      subst h
      cases a with
      | none => simp
      | some y => simp [List.count_cons]
    | succ i =>
      simp only [List.getElem?_cons_succ] at h
      have := ih h
      simp only [List.set_cons_succ, List.count_cons]
      omega

/-- The owners of `x` are those outside location `l`, and `l` itself if it points there. -/
theorem cnt_none {w : World} {l : Loc} {p : Option Nat} (h : LocAt w l p) (x : Nat) :
    cnt none w x = cnt (some l) w x + p.toList.count x := by
  cases l with
  | var i =>
    have h1 := count_set_none h x
    unfold cnt
    have : sumTo w.heap.length (contrib none w x) = sumTo w.heap.length (contrib (some (.var i)) w x) := by
      apply sumTo_congr
      intro a _
      rfl
    rw [this]
    simp only [effVars]
    omega
  | field o k =>
    obtain ⟨b, hb, hf, hr, hk⟩ := h
    have h1 := count_set_none hk x
    have h2 := sumTo_update (n := w.heap.length) (o := o) (f := contrib none w x) (g := contrib (some (.field o k)) w x)
      (List.getElem?_eq_some_iff.1 hb).1 (by
        intro a ha
        unfold contrib contribB effFields
        have : ¬ o = a := fun e => ha e.symm
        simp only [if_neg this])
    rw [contrib_some hb, contrib_some hb] at h2
    unfold contribB effFields at h2
    rw [isLive_of hf hr] at h2
    simp only [if_true] at h2
    unfold cnt
    simp only [effVars]
    omega

theorem exclude {P A : List Nat} {w : World} (I : Inv none P A w) {l : Loc} {p : Option Nat} (h : LocAt w l p) :
    Inv (some l) (p.toList ++ P) A w := by
  intro x
  have h1 := I x
  have h2 := cnt_none h x
  rw [List.count_append]
  omega

theorem include_ {P A : List Nat} {w : World} {l : Loc} (I : Inv (some l) P A w) {p : Option Nat} (h : LocAt w l p) :
    Inv none P (p.toList ++ A) w := by
  intro x
  have h1 := I x
  have h2 := cnt_none h x
  rw [List.count_append]
  omega

/-! ### states between two steps -/

/-- All bookkeeping at a moment at which location `d` is about to be overwritten and `P` are references owned by nobody. -/
structure St (u : Bool) (d : Option Loc) (P A : List Nat) (w : World) : Prop where
  inv : Inv d P A w
  clean : Clean w
  log : LogOk w
  le1 : u = true → AllLe1 w

theorem St.congr {u : Bool} {d : Option Loc} {P A P' A' : List Nat} {w : World} (h : St u d P A w)
    (e : ∀ x, P.count x + A'.count x = P'.count x + A.count x) : St u d P' A' w := ⟨h.inv.congr e, h.clean, h.log, h.le1⟩

theorem St.exclude {u : Bool} {P A : List Nat} {w : World} (h : St u none P A w) {l : Loc} {p : Option Nat} (hl : LocAt w l p) :
    St u (some l) (p.toList ++ P) A w := ⟨Own.exclude h.inv hl, h.clean, h.log, h.le1⟩

theorem St.include {u : Bool} {P A : List Nat} {w : World} {l : Loc} (h : St u (some l) P A w) {p : Option Nat} (hl : LocAt w l p) :
    St u none P (p.toList ++ A) w := ⟨include_ h.inv hl, h.clean, h.log, h.le1⟩

theorem write_ok {u : Bool} {P A : List Nat} {w : World} {l : Loc} {p : Option Nat} (h : St u (some l) P A w) (hl : LocAt w l p) (q : Option Nat) :
    ∃ w', w.write l q = .ok w' ∧ St u (some l) P A w' ∧ LocAt w' l q ∧ abs w' = (abs w).set l q := by
  cases l with
  | var i =>
    have hi : i < w.vars.length := (List.getElem?_eq_some_iff.1 hl).1
    refine ⟨{ w with vars := w.vars.set i q }, by simp [World.write, hi], ⟨?_, h.clean, h.log, h.le1⟩, by simp [LocAt, hi], rfl⟩
    intro x
    have h1 := h.inv x
    have : cnt (some (.var i)) { w with vars := w.vars.set i q } x = cnt (some (.var i)) w x := by
      unfold cnt
      simp only [effVars, List.set_set]
      rfl
    rw [this]
    exact h1
  | field o k =>
    obtain ⟨b, hb, hf, hr, hk⟩ := hl
    have hkl : k < b.fields.length := (List.getElem?_eq_some_iff.1 hk).1
    have ho : o < w.heap.length := (List.getElem?_eq_some_iff.1 hb).1
    let b' : Block := { b with fields := b.fields.set k q }
    have hw : ∀ y, (w.setBlock o b').heap[y]? = if y = o then some b' else w.heap[y]? := heap_setBlock hb
    refine ⟨w.setBlock o b', ?_, ⟨?_, ?_, ?_, ?_⟩, ⟨b', by rw [hw, if_pos rfl], hf, hr, by simp [b', hkl]⟩, ?_⟩
    · simp only [World.write]
      rw [live_block hb hf, R.ok_bind, if_pos hkl]
    · intro x
      have h1 := h.inv x
      have h2 := cnt_setBlock (d := some (.field o k)) (b' := b') hb x
      have h3 : contribB (some (.field o k)) x o b = contribB (some (.field o k)) x o b' := by
        unfold contribB effFields
        rw [isLive_of hf hr, isLive_of (b := b') hf hr]
        simp [b']
      have h4 : cnt (some (.field o k)) (w.setBlock o b') x = cnt (some (.field o k)) w x := by omega
      have h5 : eff (w.setBlock o b') x = eff w x := by
        by_cases e : x = o
        · subst e
          rw [eff_setBlock_same hb, eff_some hb]
          rfl
        · exact eff_setBlock_ne e
      rw [h4, h5]
      exact h1
    · intro y c hy hcf
      rw [hw] at hy
      by_cases e : y = o
      · rw [if_pos e] at hy
        cases hy
        exact hr
      · rw [if_neg e] at hy
        exact h.clean y c hy hcf
    · intro y
      have : freedAt (w.setBlock o b') y = freedAt w y := by
        unfold freedAt
        rw [hw]
        by_cases e : y = o
        · rw [if_pos e, e, hb]
        · rw [if_neg e]
      rw [this]
      exact h.log y
    · intro hu y c hy hcf
      rw [hw] at hy
      by_cases e : y = o
      · rw [if_pos e] at hy
        cases hy
        exact h.le1 hu o b hb hf
      · rw [if_neg e] at hy
        exact h.le1 hu y c hy hcf
    · unfold abs State.set World.setBlock
      simp [hb, List.map_set, b']

theorem kept_of_acc {s : State} {l : Loc} (h : Acc [l] s l) : Kept (some l) s := by
  intro a k e
  cases e
  exact h.2

/-- Dropping the reference at location `l`. -/
theorem drop_at {u : Bool} {F : Nat → World → Nat → R World} (hF : Drops u F) {P : List Nat} {w : World} {l : Loc} {o : Nat}
    (h : St u none P [] w) (ha : Acc [l] (abs w) l) (hl : LocAt w l (some o)) :
    ∃ w', F w.depth w o = .ok w' ∧ St u (some l) P [] w' ∧ LocAt w' l (some o) ∧ abs w' = abs w := by
  obtain ⟨w', e, D⟩ := release_ok hF (h.exclude hl).inv (kept_of_acc ha) h.le1
  refine ⟨w', e, ⟨D.inv, D.frame.clean h.clean, D.log h.log, fun hu => D.frame.allLe1 (h.le1 hu)⟩, ?_, D.frame.abs⟩
  obtain ⟨p, hp⟩ := acc_locAt D.inv (avoid := [l]) (by intro m e; cases e; simp) (by rw [D.frame.abs]; exact ha)
  have h1 := hp.get
  rw [D.frame.abs, hl.get] at h1
  cases h1
  exact hp

theorem St.noDrop {u : Bool} {P : List Nat} {w : World} {l : Loc} (h : St u none P [] w) (hl : LocAt w l none) : St u (some l) P [] w :=
  (h.exclude hl).congr (fun x => by simp)

theorem decRefcount_ok {P : List Nat} {w : World} {l : Loc} {o : Nat} (h : St false none P [] w) (ha : Acc [l] (abs w) l)
    (hl : LocAt w l (some o)) :
    ∃ w' q, decRefcount w l o = .ok w' ∧ St false (some l) P [] w' ∧ LocAt w' l q ∧ abs w' = (abs w).set l q := by
  obtain ⟨w1, e1, S1, L1, A1⟩ := drop_at drops_release h ha hl
  have hlive : Live w o := live_of_cnt h.inv (by
    have := cnt_none hl o
    simp at this
    omega)
  obtain ⟨b, hb, hf, hr⟩ := hlive
  unfold decRefcount World.last
  rw [live_block hb hf, R.ok_bind, R.ok_bind, e1, R.ok_bind]
  by_cases hz : b.rc - 1 = 0
  · obtain ⟨w2, e2, S2, L2, A2⟩ := write_ok S1 L1 none
    refine ⟨w2, none, ?_, S2, L2, by rw [A2, A1]⟩
    rw [if_pos (by simpa using hz), e2]
  · refine ⟨w1, some o, ?_, S1, L1, ?_⟩
    · rw [if_neg (by simpa using hz)]
    · rw [A1, set_same hl.get]

theorem decIf_ok {P : List Nat} {w : World} {l : Loc} (h : St false none P [] w) (ha : Acc [l] (abs w) l) :
    ∃ w' q, decIf w l = .ok w' ∧ St false (some l) P [] w' ∧ LocAt w' l q ∧ abs w' = (abs w).set l q := by
  obtain ⟨p, hp⟩ := acc_locAt h.inv (avoid := [l]) (by intro m e; cases e) ha
  unfold decIf
  rw [hp.read, R.ok_bind]
  cases p with
  | none => exact ⟨w, none, rfl, h.noDrop hp, hp, (set_same hp.get).symm⟩
  | some o => exact decRefcount_ok h ha hp

theorem destroyIf_ok {P : List Nat} {w : World} {l : Loc} (h : St true none P [] w) (ha : Acc [l] (abs w) l) :
    ∃ w' q, destroyIf w l = .ok w' ∧ St true (some l) P [] w' ∧ LocAt w' l q ∧ abs w' = (abs w).set l q := by
  obtain ⟨p, hp⟩ := acc_locAt h.inv (avoid := [l]) (by intro m e; cases e) ha
  unfold destroyIf
  rw [hp.read, R.ok_bind]
  cases p with
  | none => exact ⟨w, none, rfl, h.noDrop hp, hp, (set_same hp.get).symm⟩
  | some o =>
    obtain ⟨w1, e1, S1, L1, A1⟩ := drop_at drops_destroyObj h ha hp
    exact ⟨w1, some o, e1, S1, L1, by rw [A1, set_same hp.get]⟩

theorem live_at {u : Bool} {d : Option Loc} {P : List Nat} {w : World} (h : St u d P [] w) {avoid : List Loc} (hd : ∀ l, d = some l → l ∈ avoid)
    {l : Loc} {o : Nat} (ha : Acc avoid (abs w) l) (hn : l ∉ avoid) (hg : (abs w).get l = some (some o)) : Live w o :=
  live_of_cnt h.inv (by
    have := reach_cnt h.inv hd (ha.reach hn hg)
    omega)

theorem inc_ok {w : World} {o : Nat} (h : St false none [] [o] w) (hl : Live w o) :
    ∃ w', w.inc o = .ok w' ∧ St false none [] [] w' ∧ abs w' = abs w := by
  obtain ⟨b, hb, hf, hr⟩ := hl
  let b' : Block := { b with rc := b.rc + 1 }
  have hr' : b'.rc > 0 := by change b.rc + 1 > 0; omega
  have hw : ∀ y, (w.setBlock o b').heap[y]? = if y = o then some b' else w.heap[y]? := heap_setBlock hb
  refine ⟨w.setBlock o b', ?_, ⟨?_, ?_, ?_, ?_⟩, ?_⟩
  · unfold World.inc
    rw [live_block hb hf, R.ok_bind]
  · intro x
    have h1 := h.inv x
    have h2 := cnt_setBlock (d := none) (b' := b') hb x
    have h3 : contribB none x o b = contribB none x o b' := by
      unfold contribB
      rw [isLive_of hf hr, isLive_of (b := b') hf hr']
    have h4 : cnt none (w.setBlock o b') x = cnt none w x := by omega
    rw [h4]
    by_cases e : x = o
    · subst e
      rw [eff_setBlock_same hb]
      rw [eff_some hb] at h1
      simp only [effB, hf, Bool.false_eq_true, if_false, List.count_nil, List.count_cons_self, b'] at *
      omega
    · rw [eff_setBlock_ne e]
      rw [List.count_cons_of_ne (fun e' => e e'.symm)] at h1
      exact h1
  · intro y c hy hcf
    rw [hw] at hy
    by_cases e : y = o
    · rw [if_pos e] at hy
      cases hy
      exact hr'
    · rw [if_neg e] at hy
      exact h.clean y c hy hcf
  · intro y
    have : freedAt (w.setBlock o b') y = freedAt w y := by
      unfold freedAt
      rw [hw]
      by_cases e : y = o
      · rw [if_pos e, e, hb]
      · rw [if_neg e]
    rw [this]
    exact h.log y
  · intro hu; cases hu
  · unfold abs
    congr 1
    apply List.ext_getElem?
    intro y
    rw [List.getElem?_map, List.getElem?_map, hw]
    by_cases e : y = o
    · rw [if_pos e, e, hb]; rfl
    · rw [if_neg e]

/-- A new object, owned by nobody yet. -/
theorem alloc_ok {u : Bool} {w : World} (n : Nat) (h : St u none [] [] w) :
    St u none [w.heap.length] [] { w with heap := w.heap ++ [{ rc := 1, fields := List.replicate n none, freed := false }] } ∧
      abs { w with heap := w.heap ++ [{ rc := 1, fields := List.replicate n none, freed := false }] } = addObj (abs w) n := by
  let b : Block := { rc := 1, fields := List.replicate n none, freed := false }
  have hw : ∀ y, (w.heap ++ [b])[y]? = if y = w.heap.length then some b else w.heap[y]? := by
    intro y
    by_cases e : y = w.heap.length
    · subst e; simp
    · rw [if_neg e]
      by_cases h2 : y < w.heap.length
      · rw [List.getElem?_append_left h2]
      · rw [List.getElem?_eq_none (by simp; omega), List.getElem?_eq_none (by omega)]
  refine ⟨⟨?_, ?_, ?_, ?_⟩, ?_⟩
  · intro x
    have h1 := h.inv x
    have h2 : cnt none { w with heap := w.heap ++ [b] } x = cnt none w x := by
      unfold cnt
      change _ + sumTo (w.heap ++ [b]).length (contrib none { w with heap := w.heap ++ [b] } x) = _
      rw [List.length_append]
      change _ + (sumTo w.heap.length (contrib none { w with heap := w.heap ++ [b] } x) + contrib none { w with heap := w.heap ++ [b] } x w.heap.length) = _
      have h3 : contrib none { w with heap := w.heap ++ [b] } x w.heap.length = 0 := by
        rw [contrib_some (b := b) (by rw [hw, if_pos rfl])]
        unfold contribB
        simp [effFields, b, List.count_replicate]
      rw [h3, Nat.add_zero]
      congr 1
      apply sumTo_congr
      intro a ha
      unfold contrib
      rw [hw, if_neg (by omega)]
    rw [h2]
    by_cases e : x = w.heap.length
    · have e1 : eff { w with heap := w.heap ++ [b] } x = 1 := by
        rw [eff_some (b := b) (by rw [hw, if_pos e])]; rfl
      have e2 : eff w x = 0 := by
        unfold eff; rw [List.getElem?_eq_none (by omega)]
      rw [e1]
      rw [e2] at h1
      rw [e, List.count_cons_self]
      rw [e] at h1
      simp only [List.count_nil] at h1 ⊢
      omega
    · have e1 : eff { w with heap := w.heap ++ [b] } x = eff w x := by
        unfold eff; rw [hw, if_neg e]
      rw [e1, List.count_cons_of_ne (fun e' => e e'.symm)]
      exact h1
  · intro y c hy hcf
    rw [hw] at hy
    by_cases e : y = w.heap.length
    · rw [if_pos e] at hy
      cases hy
      exact (by decide : (1 : Int) > 0)
    · rw [if_neg e] at hy
      exact h.clean y c hy hcf
  · intro y
    have : freedAt { w with heap := w.heap ++ [b] } y = freedAt w y := by
      unfold freedAt
      rw [hw]
      by_cases e : y = w.heap.length
      · rw [if_pos e, List.getElem?_eq_none (by omega)]
      · rw [if_neg e]
    rw [this]
    exact h.log y
  · intro hu y c hy hcf
    rw [hw] at hy
    by_cases e : y = w.heap.length
    · rw [if_pos e] at hy
      cases hy
      exact Int.le_refl 1
    · rw [if_neg e] at hy
      exact h.le1 hu y c hy hcf
  · unfold abs addObj
    simp

/-! ### the calls -/

theorem sharedReset_ok {w : World} {l : Loc} (h : St false none [] [] w) (ha : Acc [l] (abs w) l) :
    ∃ w', sharedReset w l = .ok w' ∧ St false none [] [] w' ∧ abs w' = (abs w).set l none := by
  obtain ⟨p, hp⟩ := acc_locAt h.inv (avoid := [l]) (by intro m e; cases e) ha
  unfold sharedReset
  rw [hp.read, R.ok_bind]
  cases p with
  | none => exact ⟨w, rfl, h, (set_same hp.get).symm⟩
  | some o =>
    obtain ⟨w1, q, e1, S1, L1, A1⟩ := decRefcount_ok h ha hp
    obtain ⟨w2, e2, S2, L2, A2⟩ := write_ok S1 L1 none
    refine ⟨w2, ?_, S2.include L2, by rw [A2, A1, set_set]⟩
    simp only [e1, R.ok_bind, e2]

theorem sharedMake_ok {w : World} {l : Loc} (n : Nat) (h : St false none [] [] w) (ha : Acc [l] (abs w) l) :
    ∃ w', sharedMake w l n = .ok w' ∧ St false none [] [] w' ∧ abs w' = (addObj (abs w) n).set l (some w.heap.length) := by
  obtain ⟨S0, A0⟩ := alloc_ok n h
  obtain ⟨w1, q, e1, S1, L1, A1⟩ := decIf_ok S0 (by rw [A0]; exact ha.addObj n)
  obtain ⟨w2, e2, S2, L2, A2⟩ := write_ok S1 L1 (some w.heap.length)
  refine ⟨w2, ?_, (S2.include L2).congr (fun x => by simp), by rw [A2, A1, set_set, A0]⟩
  unfold sharedMake
  simp only [e1, R.ok_bind, e2]

theorem sharedMove_ok {w : World} {dst src : Loc} (h : St false none [] [] w) (hd : Acc [dst] (abs w) dst) (hs : Acc [dst] (abs w) src) :
    ∃ w', sharedMove w dst src = .ok w' ∧ St false none [] [] w' ∧ abs w' = ((abs w).set dst ((abs w).ptr src)).set src none := by
  obtain ⟨w1, q, e1, S1, L1, A1⟩ := decIf_ok h hd
  have hs1 : Acc [dst] (abs w1) src := by rw [A1]; exact hs.set (by simp) (fun _ h => h)
  obtain ⟨p, Lp⟩ := acc_locAt S1.inv (avoid := [dst]) (by intro m e; cases e; simp) hs1
  obtain ⟨w2, e2, S2, L2, A2⟩ := write_ok S1 L1 p
  unfold sharedMove
  rw [e1, R.ok_bind, Lp.read, R.ok_bind, e2, R.ok_bind]
  by_cases e : dst = src
  · subst e
    obtain ⟨w3, e3, S3, L3, A3⟩ := write_ok S2 L2 none
    exact ⟨w3, e3, S3.include L3, by rw [A3, A2, A1, set_set, set_set, set_set]⟩
  · have hs2 : Acc [dst] (abs w2) src := by rw [A2]; exact hs1.set (by simp) (fun _ h => h)
    obtain ⟨p', Lp'⟩ := acc_locAt S2.inv (avoid := [dst]) (by intro m e; cases e; simp) hs2
    have hp : p' = p := by
      have h1 := Lp'.get
      rw [A2, get_set_ne (fun e' => e e'.symm), Lp.get] at h1
      cases h1; rfl
    subst hp
    have S3 : St false (some src) [] [] w2 := ((S2.include L2).exclude Lp').congr (fun x => by simp)
    obtain ⟨w3, e3, S4, L4, A4⟩ := write_ok S3 Lp' none
    refine ⟨w3, e3, S4.include L4, ?_⟩
    have hptr : (abs w).ptr src = p' := by
      apply ptr_of_get
      have h1 := Lp.get
      rw [A1, get_set_ne (fun e' => e e'.symm)] at h1
      exact h1
    rw [A4, A2, A1, set_set, hptr]

theorem sharedCopy_ok {w : World} {dst src : Loc} (h : St false none [] [] w) (hd : Acc [dst] (abs w) dst) (hs : Acc [dst] (abs w) src) :
    ∃ w', sharedCopy w dst src = .ok w' ∧ St false none [] [] w' ∧ abs w' = (abs w).set dst ((abs w).ptr src) := by
  unfold sharedCopy
  by_cases e : dst = src
  · subst e
    rw [if_pos rfl]
    obtain ⟨p, hp⟩ := Option.isSome_iff_exists.1 hd.1
    exact ⟨w, rfl, h, by rw [ptr_of_get hp, set_same hp]⟩
  · rw [if_neg e]
    obtain ⟨w1, q, e1, S1, L1, A1⟩ := decIf_ok h hd
    have hs1 : Acc [dst] (abs w1) src := by rw [A1]; exact hs.set (by simp) (fun _ h => h)
    obtain ⟨p, Lp⟩ := acc_locAt S1.inv (avoid := [dst]) (by intro m e; cases e; simp) hs1
    obtain ⟨w2, e2, S2, L2, A2⟩ := write_ok S1 L1 p
    rw [e1, R.ok_bind, Lp.read, R.ok_bind, e2, R.ok_bind]
    have hptr : (abs w).ptr src = p := by
      apply ptr_of_get
      have h1 := Lp.get
      rw [A1, get_set_ne (fun e' => e e'.symm)] at h1
      exact h1
    have hA : abs w2 = (abs w).set dst ((abs w).ptr src) := by rw [A2, A1, set_set, hptr]
    have S3 := S2.include L2
    cases p with
    | none => exact ⟨w2, rfl, S3, hA⟩
    | some o =>
      have hs2 : Acc [dst] (abs w2) src := by rw [A2]; exact hs1.set (by simp) (fun _ h => h)
      have hl : Live w2 o := live_at S2 (avoid := [dst]) (by intro m e; cases e; simp) hs2 (by simp; exact fun e' => e e'.symm) (by
        rw [A2, get_set_ne (fun e' => e e'.symm), Lp.get])
      obtain ⟨w3, e3, S4, A4⟩ := inc_ok S3 hl
      exact ⟨w3, e3, S4, by rw [A4, hA]⟩

theorem deref_ok {u : Bool} {w : World} {l : Loc} (h : St u none [] [] w) (ha : Acc [] (abs w) l) :
    deref w l = match (abs w).ptr l with | some o => .ok o | none => .error .assert := by
  obtain ⟨p, hp⟩ := acc_locAt h.inv (avoid := []) (by intro m e; cases e) ha
  unfold deref
  rw [hp.read, R.ok_bind, ptr_of_get hp.get]
  cases p with
  | none => rfl
  | some o =>
    obtain ⟨b, hb, hf, hr⟩ := live_at h (avoid := []) (by intro m e; cases e) ha (by simp) hp.get
    simp only [live_block hb hf, R.ok_bind]

theorem uniqueReset_ok {w : World} {l : Loc} (h : St true none [] [] w) (ha : Acc [l] (abs w) l) :
    ∃ w', uniqueReset w l = .ok w' ∧ St true none [] [] w' ∧ abs w' = (abs w).set l none := by
  obtain ⟨w1, q, e1, S1, L1, A1⟩ := destroyIf_ok h ha
  obtain ⟨w2, e2, S2, L2, A2⟩ := write_ok S1 L1 none
  refine ⟨w2, ?_, S2.include L2, by rw [A2, A1, set_set]⟩
  unfold uniqueReset
  rw [e1, R.ok_bind, e2]

theorem uniqueMake_ok {w : World} {l : Loc} (n : Nat) (h : St true none [] [] w) (ha : Acc [l] (abs w) l) :
    ∃ w', uniqueMake w l n = .ok w' ∧ St true none [] [] w' ∧ abs w' = (addObj (abs w) n).set l (some w.heap.length) := by
  obtain ⟨S0, A0⟩ := alloc_ok n h
  obtain ⟨w1, q, e1, S1, L1, A1⟩ := destroyIf_ok S0 (by rw [A0]; exact ha.addObj n)
  obtain ⟨w2, e2, S2, L2, A2⟩ := write_ok S1 L1 (some w.heap.length)
  refine ⟨w2, ?_, (S2.include L2).congr (fun x => by simp), by rw [A2, A1, set_set, A0]⟩
  unfold uniqueMake
  simp only [e1, R.ok_bind, e2]

theorem uniqueMove_ok {w : World} {dst src : Loc} (h : St true none [] [] w) (hd : Acc [dst] (abs w) dst) (hs : Acc [dst] (abs w) src) :
    ∃ w', uniqueMove w dst src = .ok w' ∧ St true none [] [] w' ∧ abs w' = ((abs w).set dst ((abs w).ptr src)).set src none := by
  obtain ⟨w1, q, e1, S1, L1, A1⟩ := destroyIf_ok h hd
  have hs1 : Acc [dst] (abs w1) src := by rw [A1]; exact hs.set (by simp) (fun _ h => h)
  obtain ⟨p, Lp⟩ := acc_locAt S1.inv (avoid := [dst]) (by intro m e; cases e; simp) hs1
  obtain ⟨w2, e2, S2, L2, A2⟩ := write_ok S1 L1 p
  unfold uniqueMove
  rw [e1, R.ok_bind, Lp.read, R.ok_bind, e2, R.ok_bind]
  by_cases e : dst = src
  · subst e
    obtain ⟨w3, e3, S3, L3, A3⟩ := write_ok S2 L2 none
    exact ⟨w3, e3, S3.include L3, by rw [A3, A2, A1, set_set, set_set, set_set]⟩
  · have hs2 : Acc [dst] (abs w2) src := by rw [A2]; exact hs1.set (by simp) (fun _ h => h)
    obtain ⟨p', Lp'⟩ := acc_locAt S2.inv (avoid := [dst]) (by intro m e; cases e; simp) hs2
    have hp : p' = p := by
      have h1 := Lp'.get
      rw [A2, get_set_ne (fun e' => e e'.symm), Lp.get] at h1
      cases h1; rfl
    subst hp
    have S3 : St true (some src) [] [] w2 := ((S2.include L2).exclude Lp').congr (fun x => by simp)
    obtain ⟨w3, e3, S4, L4, A4⟩ := write_ok S3 Lp' none
    refine ⟨w3, e3, S4.include L4, ?_⟩
    have hptr : (abs w).ptr src = p' := by
      apply ptr_of_get
      have h1 := Lp.get
      rw [A1, get_set_ne (fun e' => e e'.symm)] at h1
      exact h1
    rw [A4, A2, A1, set_set, hptr]

theorem uniqueResetFrom_ok {w : World} {dst src : Loc} (h : St true none [] [] w) (hs : Acc [] (abs w) src) (hd : Acc [src, dst] (abs w) dst) :
    ∃ w', uniqueResetFrom w dst src = .ok w' ∧ St true none [] [] w' ∧ abs w' = ((abs w).set src none).set dst ((abs w).ptr src) := by
  obtain ⟨p, Lp⟩ := acc_locAt h.inv (avoid := []) (by intro m e; cases e) hs
  obtain ⟨w1, e1, S1, L1, A1⟩ := write_ok (h.exclude Lp) Lp none
  have S1 : St true none p.toList [] w1 := (S1.include L1).congr (fun x => by simp)
  have hd1 : Acc [dst] (abs w1) dst := by rw [A1]; exact hd.set (by simp) (fun m hm => by simp at hm ⊢; exact Or.inr hm)
  obtain ⟨q, Lq⟩ := acc_locAt S1.inv (avoid := [dst]) (by intro m e; cases e) hd1
  have hpq : p = none ∨ p ≠ q := by
    cases p with
    | none => exact Or.inl rfl
    | some x =>
      refine Or.inr (fun e => ?_)
      subst e
      have h1 := S1.inv x
      have h2 := cnt_none Lq x
      simp only [Option.toList_some, List.count_cons_self, List.count_nil] at h1 h2
      obtain ⟨b, hb, hf, hr⟩ := live_of_cnt S1.inv (x := x) (by omega)
      have := S1.le1 rfl x b hb hf
      rw [eff_some hb, effB, hf] at h1
      simp only [Bool.false_eq_true, if_false] at h1
      omega
  obtain ⟨w2, r, e2, S2, L2, A2⟩ := destroyIf_ok S1 hd1
  obtain ⟨w3, e3, S3, L3, A3⟩ := write_ok S2 L2 p
  refine ⟨w3, ?_, (S3.include L3).congr (fun x => by simp), by rw [A3, A2, A1, set_set, ptr_of_get Lp.get]⟩
  unfold uniqueResetFrom
  rw [Lp.read, R.ok_bind, e1, R.ok_bind, Lq.read, R.ok_bind, ccAssert_true (c := (p == none || p != q)) (by
    rcases hpq with h | h
    · simp [h]
    · simp [h]), R.ok_bind, e2, R.ok_bind, e3]

end Verif.Own
