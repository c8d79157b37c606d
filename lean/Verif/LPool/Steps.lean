import Verif.LPool.Lemmas

/-! Every step keeps the invariant. -/
namespace Verif.LPool
open Spec

variable {α : Type}

/-- A step went well, or an assertion failed; if the step read the newest head, the free list is empty then. -/
def Good (s : State α) (fl : List Nat) (c : Nat) (r : R (State α)) : Prop :=
  (∃ s' fl' φ', r = .ok s' ∧ Inv s' fl' φ' ∧ s'.n = s.n) ∨ (r = .error .assert ∧ (c = 0 → fl = []))

theorem Good.stay {s : State α} {fl : List Nat} {φ : Nat → Own} (I : Inv s fl φ) (c : Nat) : Good s fl c (.ok s) := Or.inl ⟨s, fl, φ, rfl, I, rfl⟩

theorem Inv.lt {s : State α} {fl : List Nat} {φ : Nat → Own} (I : Inv s fl φ) {i : Nat} (h : φ i ≠ .free) : i < s.n := by
  by_cases e : i < s.n
  · exact e
  · exact absurd (I.shape.out i (by omega)) h

theorem Inv.notMem {s : State α} {fl : List Nat} {φ : Nat → Own} (I : Inv s fl φ) {i : Nat} (h : φ i ≠ .free) : i ∉ fl :=
  fun e => h ((I.shape.free i).mp e).2

theorem Inv.busy {s : State α} {fl : List Nat} {φ : Nat → Own} (I : Inv s fl φ) {t i : Nat} (h : transit (s.threads t).pc = some i) : φ i = .busy t :=
  (I.objs.busy i t).mpr h

theorem Inv.acc {s : State α} {fl : List Nat} {φ : Nat → Own} (I : Inv s fl φ) {t i : Nat} (h : φ i = .held t ∨ φ i = .busy t) : access s t i = .ok () :=
  if_pos (I.views.own t i h)

/-! ### the head -/

theorem Inv.candidate {s : State α} {fl : List Nat} {φ : Nat → Own} (I : Inv s fl φ) {t : Nat} {m : Head} (hm : m ∈ s.head :: s.older) (c : Nat)
    (hc : c = 0 → m = s.head) (ht : transit (s.threads t).pc = none) (h2 : ∀ j, (s.threads t).pc ≠ .rDtor j) : Good s fl c (candidate s t m) := by
  have hs := I.snaps.heads m hm
  unfold LPool.candidate
  by_cases e : m.idx = -1
  · rw [ccAssert_false (by simp [e])]
    refine Or.inr ⟨rfl, fun h0 => ?_⟩
    have := I.shape.chain
    rw [← hc h0, e] at this
    exact this.neg
  · rw [ccAssert_true (decide_eq_true e)]
    refine Or.inl ⟨_, fl, φ, rfl, I.learn t hm _ ?_ h2 (fun j => by simp) ⟨hs, ?_⟩, rfl⟩
    · rw [ht]; rfl
    · have := hs.2.2
      omega

theorem mem_of_get {l : List Head} {c : Nat} {m : Head} (h : l[c]? = some m) : m ∈ l := List.mem_of_getElem? h

theorem Inv.aLoad {s : State α} {fl : List Nat} {φ : Nat → Own} (I : Inv s fl φ) {t : Nat} (c : Nat) (hp : (s.threads t).pc = .aLoad) :
    Good s fl c (aLoad s t c) := by
  unfold LPool.aLoad
  split
  · next m e =>
    exact I.candidate (mem_of_get e) c (fun h => by subst h; simpa using e.symm) (by rw [hp]; rfl) (fun j => by rw [hp]; simp)
  · exact .stay I c

theorem Inv.aNext {s : State α} {fl : List Nat} {φ : Nat → Own} (I : Inv s fl φ) {t c : Nat} {x : Int} {v : Nat} (hp : (s.threads t).pc = .aNext x v) :
    Good s fl c (aNext s t x v) := by
  have hk := I.snaps.pcs t
  simp only [hp] at hk
  have := hk.1.2.2
  have := hk.2
  have := I.shape.capn
  unfold LPool.aNext
  rw [if_pos (by omega)]
  exact Or.inl ⟨_, fl, φ, rfl, I.goto t _ (by rw [hp]; rfl) (fun j => by rw [hp]; simp) (fun j => by simp) ⟨hk.1, hk.2, fun _ => rfl⟩, rfl⟩

theorem Snap.bump {n : Nat} {head head' : Head} {x : Int} {v : Nat} (h : Snap n head x v) (hv : head'.ver = head.ver + 1) : Snap n head' x v := by
  have := h.1
  exact ⟨by omega, fun e => by omega, h.2.2⟩

theorem Snaps.bump {n : Nat} {next : Nat → Int} {head head' : Head} {older : List Head} {pc : Nat → Pc}
    (S : Snaps n next head older pc) (hv : head'.ver = head.ver + 1) (hx : head'.idx = -1 ∨ 0 ≤ head'.idx ∧ head'.idx < n) :
    Snaps n next head' (head :: older) pc := by
  refine ⟨fun h hh => ?_, fun t => ?_⟩
  · rcases List.mem_cons.mp hh with rfl | hh
    · exact ⟨Nat.le_refl _, fun _ => rfl, hx⟩
    · exact (S.heads h hh).bump hv
  · have := S.pcs t
    revert this
    cases pc t with
    | aNext x v => exact fun h => ⟨h.1.bump hv, h.2⟩
    | aCas x v nxt => exact fun h => ⟨h.1.bump hv, h.2.1, fun e => by have := h.1.1; omega⟩
    | rSwap i x v => exact fun h => h.bump hv
    | rCas i x v => exact fun h => ⟨h.1.bump hv, h.2⟩
    | _ => exact fun h => h

theorem ver_eq {s : State α} {x : Int} {v : Nat} (h : same s x v) (h1 : v ≤ s.head.ver) (h2 : s.head.ver < v + 2 ^ 32) : v = s.head.ver := by
  have := h.2
  omega

theorem Inv.aCasOk {s : State α} {fl : List Nat} {φ : Nat → Own} (I : Inv s fl φ) {t : Nat} {x : Int} {v : Nat} {nxt : Int}
    (hp : (s.threads t).pc = .aCas x v nxt) (hf : s.head.ver < v + 2 ^ 32) (hs : same s x v) :
    ∃ i l, fl = i :: l ∧ x = i ∧ Inv { s.learn t s.head (.aCtor x.toNat) with head := { idx := nxt, ver := s.head.ver + 1, view := s.head.view }, older := s.head :: s.older } l (upd φ i (.busy t)) := by
  have hk := I.snaps.pcs t
  simp only [hp] at hk
  have hv := ver_eq hs hk.1.1 hf
  have hx := hs.1
  have h0 := hk.2.1
  obtain ⟨i, l, rfl, hi, hc⟩ := I.shape.chain.nonneg (by rw [hx]; omega)
  have hxi : x = i := by rw [← hx]; exact hi
  subst hxi
  have hn : nxt = s.next i := hk.2.2 hv
  have hifree := (I.shape.free i).mp (by simp)
  have hil := (List.nodup_cons.mp I.shape.nodup).1
  refine ⟨i, l, rfl, rfl, ?_⟩
  have hl : ∀ j ∈ l, j < s.n := fun j hj => ((I.shape.free j).mp (by simp [hj])).1
  refine ⟨⟨I.shape.n1, I.shape.n2, I.shape.capn, ?_, (List.nodup_cons.mp I.shape.nodup).2, ?_, ?_⟩, ?_, ?_, ?_, I.gens⟩
  · rw [hn]; exact hc
  · intro j
    by_cases e : j = i
    · subst e
      rw [upd_same]
      exact ⟨fun h => absurd h hil, fun h => by cases h.2⟩
    · rw [upd_ne _ _ e]
      refine ⟨fun h => (I.shape.free j).mp (List.mem_cons_of_mem _ h), fun h => ?_⟩
      exact (List.mem_cons.mp ((I.shape.free j).mpr h)).resolve_left e
  · intro j hj
    change s.n ≤ j at hj
    rw [upd_ne _ _ (by omega)]
    exact I.shape.out j hj
  · have V := I.views.learn t (fun c => max ((s.threads t).known c) (s.head.view c)) (fun _ => Nat.le_max_left _ _)
      (fun j => Nat.max_le.mpr ⟨I.views.le t j, I.views.heads s.head (by simp) j⟩)
    simp only [State.learn, kn_upd]
    refine ⟨V.le, ?_, fun j hj => I.views.fl j (by simp [hj]), ?_⟩
    · intro u j h
      by_cases e : j = i
      · subst e
        rw [upd_same] at h
        have eu : u = t := by rcases h with h | h <;> cases h; rfl
        subst eu
        rw [upd_same]
        have h1 := I.views.fl j (by simp)
        have h2 : (s.threads u).known j ≤ s.acc j := I.views.le u j
        change max ((s.threads u).known j) (s.head.view j) = s.acc j
        omega
      · rw [upd_ne _ _ e] at h
        exact V.own u j h
    · intro h hh j
      rcases List.mem_cons.mp hh with rfl | hh
      · exact I.views.heads s.head (by simp) j
      · exact I.views.heads h hh j
  · have O := I.objs
    simp only [State.learn, pc_upd, Int.toNat_natCast]
    have hnt : ∀ j, φ j ≠ .busy t := by
      intro j h
      have := (O.busy j t).mp h
      simp only [hp] at this
      cases this
    refine ⟨?_, O.givn, ?_, ?_, ?_, ?_⟩
    · intro g hg
      have := O.giv g hg
      have e : slot g.handle ≠ i := fun e => by rw [e, hifree.2] at this; cases this.1
      rw [upd_ne _ _ e]
      exact this
    · intro j u h
      have e : j ≠ i := fun e => by subst e; rw [upd_same] at h; cases h
      rw [upd_ne _ _ e] at h
      exact O.held j u h
    · intro j u
      by_cases e : j = i
      · subst e
        rw [upd_same]
        by_cases eu : u = t
        · subst eu
          rw [upd_same]
          exact ⟨fun _ => rfl, fun _ => rfl⟩
        · rw [upd_ne _ _ eu]
          refine ⟨fun h => absurd (by cases h; rfl) eu, fun h => ?_⟩
          have := (O.busy j u).mpr h
          rw [hifree.2] at this
          cases this
      · rw [upd_ne _ _ e]
        by_cases eu : u = t
        · subst eu
          rw [upd_same]
          refine ⟨fun h => absurd h (hnt j), fun h => ?_⟩
          simp only [transit, Option.some.injEq] at h
          exact absurd h.symm e
        · rw [upd_ne _ _ eu]
          exact O.busy j u
    · intro j hj
      have e : j ≠ i := by
        intro e
        subst e
        rcases O.some j hj with ⟨u, h⟩ | ⟨u, h, _⟩ <;> rw [hifree.2] at h <;> cases h
      rw [upd_ne _ _ e]
      rcases O.some j hj with h | ⟨u, h, hu⟩
      · exact Or.inl h
      · have eu : u ≠ t := fun eu => hnt j (eu ▸ h)
        exact Or.inr ⟨u, h, by rw [upd_ne _ _ eu]; exact hu⟩
    · intro u j hu
      by_cases eu : u = t
      · subst eu; rw [upd_same] at hu; cases hu
      · rw [upd_ne _ _ eu] at hu; exact O.dtor u j hu
  · simp only [State.learn, pc_upd]
    have := (I.snaps.bump (head' := { idx := nxt, ver := s.head.ver + 1, view := s.head.view }) rfl (hc.range hl |> fun h => by rw [hn]; exact h)).move t (.aCtor (Int.toNat i)) trivial
    exact this

theorem Inv.aCas {s : State α} {fl : List Nat} {φ : Nat → Own} (I : Inv s fl φ) {t : Nat} {x : Int} {v : Nat} {nxt : Int} (c : Nat)
    (hp : (s.threads t).pc = .aCas x v nxt) (hf : s.head.ver < v + 2 ^ 32) : Good s fl c (aCas s t x v nxt c) := by
  unfold LPool.aCas
  by_cases e : c = 0
  · rw [if_pos e]
    by_cases hs : same s x v
    · rw [if_pos hs]
      obtain ⟨i, l, _, _, h⟩ := I.aCasOk hp hf hs
      exact Or.inl ⟨_, _, _, rfl, h, rfl⟩
    · rw [if_neg hs]
      exact I.candidate (by simp) c (fun _ => rfl) (by rw [hp]; rfl) (fun j => by rw [hp]; simp)
  · rw [if_neg e]
    split
    · next m em => exact I.candidate (mem_of_get em) c (fun h => absurd h e) (by rw [hp]; rfl) (fun j => by rw [hp]; simp)
    · exact .stay I c

/-! ### objects -/

theorem Shape.rename {n cap : Nat} {next : Nat → Int} {idx : Int} {fl : List Nat} {φ : Nat → Own} (S : Shape n cap next idx fl φ) {i : Nat} {o : Own}
    (hi : φ i ≠ .free) (ho : o ≠ .free) : Shape n cap next idx fl (upd φ i o) := by
  refine ⟨S.n1, S.n2, S.capn, S.chain, S.nodup, fun j => ?_, fun j hj => ?_⟩
  · by_cases e : j = i
    · subst e
      rw [upd_same]
      exact ⟨fun h => absurd ((S.free j).mp h).2 hi, fun h => absurd h.2 ho⟩
    · rw [upd_ne _ _ e]; exact S.free j
  · have e : j ≠ i := fun e => hi (e ▸ S.out j hj)
    rw [upd_ne _ _ e]
    exact S.out j hj

theorem Views.own' {acc : Nat → Nat} {head : Head} {older : List Head} {known : Nat → View} {fl : List Nat} {φ : Nat → Own}
    (V : Views acc head older known fl φ) {t i : Nat} {o : Own} (hi : known t i = acc i) (ho : o = .held t ∨ o = .busy t) :
    Views acc head older known fl (upd φ i o) := by
  refine V.rename fun u j h => ?_
  by_cases e : j = i
  · subst e
    rw [upd_same] at h
    have eu : u = t := by
      rcases h with h | h <;> rcases ho with ho | ho <;> rw [ho] at h <;> cases h <;> rfl
    rw [eu]
    exact hi
  · rw [upd_ne _ _ e] at h
    exact V.own u j h

theorem Inv.aCtor {s : State α} {fl : List Nat} {φ : Nat → Own} (I : Inv s fl φ) (d0 : α) {t i : Nat} (hp : (s.threads t).pc = .aCtor i) :
    aCtor s d0 t i = .ok { s.accessed t i (some d0) (s.gen i) .idle with
        given := { thread := t, handle := mkHandle i (s.gen i), val := d0 } :: s.given, log := .acquired t (mkHandle i (s.gen i)) :: s.log } ∧
    Inv { s.accessed t i (some d0) (s.gen i) .idle with
        given := { thread := t, handle := mkHandle i (s.gen i), val := d0 } :: s.given, log := .acquired t (mkHandle i (s.gen i)) :: s.log } fl (upd φ i (.held t)) := by
  have hb : φ i = .busy t := I.busy (by rw [hp]; rfl)
  have hne : φ i ≠ .free := by rw [hb]; simp
  have hi := I.lt hne
  have hn2 := I.shape.n2
  have O := I.objs
  have hnone : s.obj i = none := by
    cases e : s.obj i with
    | none => rfl
    | some w =>
      rcases O.some i (by rw [e]; rfl) with ⟨u, h⟩ | ⟨u, h, hu⟩
      · rw [hb] at h; cases h
      · rw [hb] at h
        cases h
        simp only [hp] at hu
        cases hu
  unfold LPool.aCtor
  rw [I.acc (Or.inr hb)]
  simp only [R.ok_bind]
  rw [ccAssert_true (decide_eq_true hi)]
  simp only [R.ok_bind]
  rw [if_neg (by rw [hnone]; simp)]
  refine ⟨rfl, ⟨I.shape.rename hne (by simp), ?_, ?_, ?_, ?_⟩⟩
  · simp only [State.accessed, kn_upd]
    exact (I.views.access (Or.inr hb) (I.notMem hne)).own' (t := t) (by rw [upd_same, upd_same, upd_same]) (Or.inl rfl)
  · simp only [State.accessed, pc_upd, upd_self]
    have hsl : slot (mkHandle i (s.gen i)) = i := slot_mk _ (by omega)
    refine ⟨?_, ?_, ?_, ?_, ?_, ?_⟩
    · intro g hg
      rcases List.mem_cons.mp hg with rfl | hg
      · simp only [hsl, upd_same]
        exact ⟨trivial, trivial, trivial⟩
      · have := O.giv g hg
        have e : slot g.handle ≠ i := fun e => by rw [e, hb] at this; cases this.1
        rw [upd_ne _ _ e, upd_ne _ _ e]
        exact this
    · rw [List.map_cons, List.nodup_cons]
      refine ⟨?_, O.givn⟩
      rw [hsl]
      intro h
      obtain ⟨g, hg, e⟩ := List.mem_map.mp h
      have := (O.giv g hg).1
      rw [e, hb] at this
      cases this
    · intro j u h
      by_cases e : j = i
      · subst e
        exact ⟨_, List.mem_cons_self .., hsl⟩
      · rw [upd_ne _ _ e] at h
        obtain ⟨g, hg, h⟩ := O.held j u h
        exact ⟨g, List.mem_cons_of_mem _ hg, h⟩
    · intro j u
      by_cases e : j = i
      · subst e
        rw [upd_same]
        refine ⟨fun h => (by cases h), fun h => ?_⟩
        by_cases eu : u = t
        · subst eu; rw [upd_same] at h; cases h
        · rw [upd_ne _ _ eu] at h
          have := (O.busy j u).mpr h
          rw [hb] at this
          cases this
          exact absurd rfl eu
      · rw [upd_ne _ _ e]
        by_cases eu : u = t
        · subst eu
          rw [upd_same, O.busy j u]
          simp only [hp, transit]
          exact ⟨fun h => absurd (by cases h; rfl) e, fun h => by cases h⟩
        · rw [upd_ne _ _ eu]; exact O.busy j u
    · intro j hj
      by_cases e : j = i
      · subst e
        exact Or.inl ⟨t, upd_same _ _ _⟩
      · rw [upd_ne _ _ e] at hj
        rw [upd_ne _ _ e]
        rcases O.some j hj with h | ⟨u, h, hu⟩
        · exact Or.inl h
        · have eu : u ≠ t := fun eu => by subst eu; simp only [hp] at hu; cases hu
          exact Or.inr ⟨u, h, by rw [upd_ne _ _ eu]; exact hu⟩
    · intro u j hu
      by_cases eu : u = t
      · subst eu; rw [upd_same] at hu; cases hu
      · rw [upd_ne _ _ eu] at hu
        by_cases e : j = i
        · subst e; rw [upd_same]; rfl
        · rw [upd_ne _ _ e]; exact O.dtor u j hu
  · simp only [State.accessed, pc_upd]
    exact I.snaps.move t _ trivial
  · simp only [State.accessed, upd_self]
    refine ⟨I.gens.gen, ⟨?_, I.gens.log⟩⟩
    rw [slot_mk _ (by omega), I.gens.gen i]
    exact ⟨rfl, hi⟩

theorem Inv.has {s : State α} {fl : List Nat} {φ : Nat → Own} (I : Inv s fl φ) {t : Nat} {h : BitVec 32} (hh : Has s t h) :
    φ (slot h) = .held t ∧ slot h < s.n ∧ h = mkHandle (slot h) (s.gen (slot h)) ∧ readIndex s h = .ok (slot h) ∧ (s.obj (slot h)).isSome := by
  obtain ⟨g, hg, rfl, rfl⟩ := hh
  obtain ⟨h1, h2, h3⟩ := I.objs.giv g hg
  have hlt := I.lt (i := slot g.handle) (by rw [h1]; simp)
  refine ⟨h1, hlt, h2, ?_, by rw [h3]; rfl⟩
  have := readIndex_mk (s := s) (s.gen (slot g.handle)) hlt I.shape.n2
  rw [← h2, if_pos rfl] at this
  exact this

theorem releases_released (i : Nat) (t : Nat) (h : BitVec 32) (l : List Ev) : releases i (.released t h :: l) = releases i l + (if slot h = i then 1 else 0) := by
  unfold releases
  rw [List.countP_cons]
  simp

theorem releases_acquired (i : Nat) (t : Nat) (h : BitVec 32) (l : List Ev) : releases i (.acquired t h :: l) = releases i l := by
  unfold releases
  rw [List.countP_cons]
  simp

theorem Gens.release {n : Nat} {gen : Nat → BitVec 13} {log : List Ev} (G : Gens n gen log) (t : Nat) {h : BitVec 32}
    (h1 : h = mkHandle (slot h) (gen (slot h))) (h2 : slot h < n) : Gens n (upd gen (slot h) (gen (slot h) + 1)) (.released t h :: log) := by
  refine ⟨fun j => ?_, ⟨⟨by rw [← G.gen]; exact h1, h2⟩, G.log⟩⟩
  rw [releases_released]
  by_cases e : j = slot h
  · subst e
    rw [upd_same, if_pos rfl, G.gen, BitVec.ofNat_add]
    rfl
  · rw [upd_ne _ _ e, if_neg (fun h => e h.symm), G.gen]
    rfl

theorem Inv.rCall {s : State α} {fl : List Nat} {φ : Nat → Own} (I : Inv s fl φ) {t : Nat} {h : BitVec 32} (hp : (s.threads t).pc = .idle) (hh : Has s t h) :
    ∃ s', rCall s t h = .ok s' ∧ Inv s' fl (upd φ (slot h) (.busy t)) ∧ s'.n = s.n ∧ (s'.threads = upd s.threads t (s'.threads t)) ∧ (s'.threads t).pc = .rDtor (slot h)
      ∧ s'.given = dropGiven s.given h ∧ s'.head = s.head := by
  obtain ⟨hφ, hi, hg, hr, hob⟩ := I.has hh
  have hne : φ (slot h) ≠ .free := by rw [hφ]; simp
  have O := I.objs
  have hidle : ∀ j, φ j ≠ .busy t := by
    intro j hj
    have := (O.busy j t).mp hj
    simp only [hp] at this
    cases this
  unfold LPool.rCall
  rw [hr]
  simp only [R.ok_bind]
  rw [I.acc (Or.inl hφ)]
  simp only [R.ok_bind]
  refine ⟨_, rfl, ⟨I.shape.rename hne (by simp), ?_, ?_, ?_, ?_⟩, rfl, ?_, congrArg Thread.pc (upd_same _ _ _), rfl, rfl⟩
  · simp only [State.accessed, kn_upd]
    exact (I.views.access (Or.inl hφ) (I.notMem hne)).own' (t := t) (by rw [upd_same, upd_same, upd_same]) (Or.inr rfl)
  · simp only [State.accessed, pc_upd, upd_self]
    have hdrop : ∀ g ∈ dropGiven s.given h, g ∈ s.given ∧ slot g.handle ≠ slot h := by
      intro g hg'
      obtain ⟨h1, h2⟩ := List.mem_filter.mp hg'
      refine ⟨h1, fun e => ?_⟩
      have h3 := (O.giv g h1).2.1
      rw [e, ← hg] at h3
      simp [h3] at h2
    refine ⟨?_, ?_, ?_, ?_, ?_, ?_⟩
    · intro g hg'
      obtain ⟨h1, h2⟩ := hdrop g hg'
      rw [upd_ne _ _ h2, upd_ne _ _ h2]
      exact O.giv g h1
    · exact O.givn.sublist (List.filter_sublist.map _)
    · intro j u hj
      have e : j ≠ slot h := fun e => by subst e; rw [upd_same] at hj; cases hj
      rw [upd_ne _ _ e] at hj
      obtain ⟨g, hg', e'⟩ := O.held j u hj
      refine ⟨g, List.mem_filter.mpr ⟨hg', ?_⟩, e'⟩
      simp only [ne_eq, decide_eq_true_eq]
      intro eh
      rw [eh] at e'
      exact e e'.symm
    · intro j u
      by_cases e : j = slot h
      · subst e
        rw [upd_same]
        by_cases eu : u = t
        · subst eu; rw [upd_same]; exact ⟨fun _ => rfl, fun _ => rfl⟩
        · rw [upd_ne _ _ eu]
          refine ⟨fun h => absurd (by cases h; rfl) eu, fun h => ?_⟩
          have := (O.busy _ u).mpr h
          rw [hφ] at this
          cases this
      · rw [upd_ne _ _ e]
        by_cases eu : u = t
        · subst eu
          rw [upd_same]
          refine ⟨fun h => absurd h (hidle j), fun h => ?_⟩
          simp only [transit, Option.some.injEq] at h
          exact absurd h.symm e
        · rw [upd_ne _ _ eu]; exact O.busy j u
    · intro j hj
      by_cases e : j = slot h
      · subst e
        exact Or.inr ⟨t, upd_same _ _ _, upd_same _ _ _⟩
      · rw [upd_ne _ _ e]
        rcases O.some j hj with h | ⟨u, h, hu⟩
        · exact Or.inl h
        · have eu : u ≠ t := fun eu => hidle j (eu ▸ h)
          exact Or.inr ⟨u, h, by rw [upd_ne _ _ eu]; exact hu⟩
    · intro u j hu
      by_cases eu : u = t
      · subst eu; rw [upd_same] at hu; cases hu; exact hob
      · rw [upd_ne _ _ eu] at hu; exact O.dtor u j hu
  · simp only [State.accessed, pc_upd]
    exact I.snaps.move t _ trivial
  · simp only [State.accessed]
    exact I.gens.release t hg hi
  · simp only [State.accessed, upd_same]

theorem Inv.rDtor {s : State α} {fl : List Nat} {φ : Nat → Own} (I : Inv s fl φ) {t i : Nat} (hp : (s.threads t).pc = .rDtor i) :
    rDtor s t i = .ok (s.accessed t i none (s.gen i) (.rLoad i)) ∧ Inv (s.accessed t i none (s.gen i) (.rLoad i)) fl φ := by
  have hb : φ i = .busy t := I.busy (by rw [hp]; rfl)
  have hne : φ i ≠ .free := by rw [hb]; simp
  have O := I.objs
  constructor
  · unfold LPool.rDtor
    rw [I.acc (Or.inr hb)]
    simp only [R.ok_bind]
    rw [if_pos (O.dtor t i hp)]
  · refine ⟨I.shape, ?_, ?_, ?_, ?_⟩
    · simp only [State.accessed, kn_upd]
      exact I.views.access (Or.inr hb) (I.notMem hne)
    · simp only [State.accessed, pc_upd, upd_self]
      refine ⟨?_, O.givn, O.held, ?_, ?_, ?_⟩
      · intro g hg
        have := O.giv g hg
        have e : slot g.handle ≠ i := fun e => by rw [e, hb] at this; cases this.1
        rw [upd_ne _ _ e]
        exact this
      · intro j u
        by_cases eu : u = t
        · subst eu
          rw [upd_same, O.busy j u]
          simp only [hp, transit]
        · rw [upd_ne _ _ eu]; exact O.busy j u
      · intro j hj
        have e : j ≠ i := fun e => by subst e; rw [upd_same] at hj; cases hj
        rw [upd_ne _ _ e] at hj
        rcases O.some j hj with h | ⟨u, h, hu⟩
        · exact Or.inl h
        · have eu : u ≠ t := fun eu => by subst eu; simp only [hp] at hu; cases hu; exact e rfl
          exact Or.inr ⟨u, h, by rw [upd_ne _ _ eu]; exact hu⟩
      · intro u j hu
        by_cases eu : u = t
        · subst eu; rw [upd_same] at hu; cases hu
        · rw [upd_ne _ _ eu] at hu
          have e : j ≠ i := by
            intro e
            subst e
            have := (O.busy j u).mpr (by simp only [hu]; rfl)
            rw [hb] at this
            cases this
            exact eu rfl
          rw [upd_ne _ _ e]
          exact O.dtor u j hu
    · simp only [State.accessed, pc_upd]
      exact I.snaps.move t _ trivial
    · simp only [State.accessed, upd_self]
      exact I.gens

theorem Inv.rRetry {s : State α} {fl : List Nat} {φ : Nat → Own} (I : Inv s fl φ) {t i : Nat} {m : Head} (hm : m ∈ s.head :: s.older)
    (hp : transit (s.threads t).pc = some i) (h2 : ∀ j, (s.threads t).pc ≠ .rDtor j) : Inv (s.goto t (.rSwap i m.idx m.ver)) fl φ :=
  I.goto t _ (by rw [hp]; rfl) h2 (fun j => by simp) (I.snaps.heads m hm)

theorem Inv.rLoad {s : State α} {fl : List Nat} {φ : Nat → Own} (I : Inv s fl φ) {t i : Nat} (c : Nat) (hp : (s.threads t).pc = .rLoad i) :
    Good s fl c (rLoad s t i c) := by
  unfold LPool.rLoad
  split
  · next m e => exact Or.inl ⟨_, _, _, rfl, I.rRetry (mem_of_get e) (by rw [hp]; rfl) (fun j => by rw [hp]; simp), rfl⟩
  · exact .stay I c

theorem Inv.rSwap {s : State α} {fl : List Nat} {φ : Nat → Own} (I : Inv s fl φ) {t i : Nat} {x : Int} {v : Nat} (hp : (s.threads t).pc = .rSwap i x v) :
    rSwap s t i x v = .ok { s.goto t (.rCas i x v) with next := upd s.next i x } ∧ Inv { s.goto t (.rCas i x v) with next := upd s.next i x } fl φ := by
  have hb : φ i = .busy t := I.busy (by rw [hp]; rfl)
  have hne : φ i ≠ .free := by rw [hb]; simp
  have hi := I.lt hne
  have hnm := I.notMem hne
  have hc := I.shape.capn
  have hk := I.snaps.pcs t
  simp only [hp] at hk
  constructor
  · unfold LPool.rSwap
    rw [if_pos (by omega)]
  · have I1 := I.goto t (.rLoad i) (by rw [hp]; rfl) (fun j => by rw [hp]; simp) (fun j => by simp) trivial
    have hpc : (fun u => (State.goto s t (.rCas i x v)).threads u |>.pc) = upd (fun u => (s.threads u).pc) t (.rCas i x v) := pc_upd _ _ _
    have I2 := I.objs.move t (.rCas i x v) (by simp only [hp]; rfl) (fun j => by simp only [hp]; simp) (fun j => by simp)
    refine ⟨⟨I.shape.n1, I.shape.n2, I.shape.capn, ?_, I.shape.nodup, I.shape.free, I.shape.out⟩, ?_, ?_, ⟨I.snaps.heads, ?_⟩, I.gens⟩
    · exact I.shape.chain.congr fun j hj => (upd_ne _ _ (show j ≠ i from fun e => hnm (e ▸ hj))).symm
    · simp only [State.goto, kn_upd]
      exact I.views.learn t _ (fun _ => Nat.le_refl _) (I.views.le t)
    · simp only [hpc]
      exact I2
    · intro u
      change PcOk s.n (upd s.next i x) s.head ((upd s.threads t { pc := .rCas i x v, known := (s.threads t).known } u).pc)
      by_cases eu : u = t
      · subst eu
        rw [upd_same]
        exact ⟨hk, upd_same _ _ _⟩
      · rw [upd_ne _ _ eu]
        have := I.snaps.pcs u
        revert this
        cases e : (s.threads u).pc with
        | aNext y w => exact fun h => h
        | aCas y w nxt =>
          refine fun h => ⟨h.1, h.2.1, fun hw => ?_⟩
          have hy := h.1.2.1 hw
          have h0 := h.2.1
          obtain ⟨j, l, hl, hj, _⟩ := I.shape.chain.nonneg (by rw [← hy]; omega)
          have hjm : j ∈ fl := by rw [hl]; simp
          have hyj : y.toNat = j := by omega
          change nxt = upd s.next i x y.toNat
          rw [hyj, upd_ne _ _ (show j ≠ i from fun e => hnm (e ▸ hjm)), ← hyj]
          exact h.2.2 hw
        | rSwap j y w => exact fun h => h
        | rCas j y w =>
          refine fun h => ⟨h.1, ?_⟩
          have hj : φ j = .busy u := I.busy (by rw [e]; rfl)
          have : j ≠ i := by
            intro e'
            rw [e', hb] at hj
            cases hj
            exact eu rfl
          change upd s.next i x j = y
          rw [upd_ne _ _ this]
          exact h.2
        | _ => exact fun h => h

theorem Inv.rCasOk {s : State α} {fl : List Nat} {φ : Nat → Own} (I : Inv s fl φ) {t i : Nat} {x : Int} {v : Nat}
    (hp : (s.threads t).pc = .rCas i x v) (hs : same s x v) :
    Inv { s.goto t .idle with head := { idx := i, ver := s.head.ver + 1, view := fun j => max (s.head.view j) ((s.threads t).known j) }, older := s.head :: s.older }
      (i :: fl) (upd φ i .free) := by
  have hb : φ i = .busy t := I.busy (by rw [hp]; rfl)
  have hne : φ i ≠ .free := by rw [hb]; simp
  have hi := I.lt hne
  have hnm := I.notMem hne
  have hk := I.snaps.pcs t
  simp only [hp] at hk
  have hx := hs.1
  have O := I.objs
  refine ⟨⟨I.shape.n1, I.shape.n2, I.shape.capn, ⟨rfl, ?_⟩, List.nodup_cons.mpr ⟨hnm, I.shape.nodup⟩, ?_, ?_⟩, ?_, ?_, ?_, I.gens⟩
  · change Chain s.next (s.next i) fl
    rw [hk.2, ← hx]
    exact I.shape.chain
  · intro j
    by_cases e : j = i
    · subst e
      rw [upd_same]
      exact ⟨fun _ => ⟨hi, rfl⟩, fun _ => by simp⟩
    · rw [upd_ne _ _ e, List.mem_cons]
      exact ⟨fun h => (I.shape.free j).mp (h.resolve_left e), fun h => Or.inr ((I.shape.free j).mpr h)⟩
  · intro j hj
    change s.n ≤ j at hj
    rw [upd_ne _ _ (by omega)]
    exact I.shape.out j hj
  · have V := I.views
    simp only [State.goto, kn_upd, upd_self]
    refine ⟨V.le, ?_, ?_, ?_⟩
    · intro u j h
      have e : j ≠ i := fun e => by subst e; rw [upd_same] at h; rcases h with h | h <;> cases h
      rw [upd_ne _ _ e] at h
      exact V.own u j h
    · intro j hj
      have h2 : (s.threads t).known j ≤ s.acc j := V.le t j
      change max (s.head.view j) ((s.threads t).known j) = s.acc j
      rcases List.mem_cons.mp hj with rfl | hj
      · have h1 : (s.threads t).known j = s.acc j := V.own t j (Or.inr hb)
        have h3 := V.heads s.head (by simp) j
        omega
      · have h1 := V.fl j hj
        omega
    · intro h hh j
      rcases List.mem_cons.mp hh with rfl | hh
      · exact Nat.max_le.mpr ⟨V.heads s.head (by simp) j, V.le t j⟩
      · exact V.heads h hh j
  · simp only [State.goto, pc_upd]
    refine ⟨?_, O.givn, ?_, ?_, ?_, ?_⟩
    · intro g hg
      have := O.giv g hg
      have e : slot g.handle ≠ i := fun e => by rw [e, hb] at this; cases this.1
      rw [upd_ne _ _ e]
      exact this
    · intro j u h
      have e : j ≠ i := fun e => by subst e; rw [upd_same] at h; cases h
      rw [upd_ne _ _ e] at h
      exact O.held j u h
    · intro j u
      by_cases e : j = i
      · subst e
        rw [upd_same]
        refine ⟨fun h => (by cases h), fun h => ?_⟩
        by_cases eu : u = t
        · subst eu; rw [upd_same] at h; cases h
        · rw [upd_ne _ _ eu] at h
          have := (O.busy j u).mpr h
          rw [hb] at this
          cases this
          exact absurd rfl eu
      · rw [upd_ne _ _ e]
        by_cases eu : u = t
        · subst eu
          rw [upd_same, O.busy j u]
          simp only [hp, transit]
          exact ⟨fun h => absurd (by cases h; rfl) e, fun h => by cases h⟩
        · rw [upd_ne _ _ eu]; exact O.busy j u
    · intro j hj
      have e : j ≠ i := by
        intro e
        subst e
        rcases O.some j hj with ⟨u, h⟩ | ⟨u, h, hu⟩
        · rw [hb] at h; cases h
        · rw [hb] at h
          cases h
          simp only [hp] at hu
          cases hu
      rw [upd_ne _ _ e]
      rcases O.some j hj with h | ⟨u, h, hu⟩
      · exact Or.inl h
      · have eu : u ≠ t := fun eu => by subst eu; simp only [hp] at hu; cases hu
        exact Or.inr ⟨u, h, by rw [upd_ne _ _ eu]; exact hu⟩
    · intro u j hu
      by_cases eu : u = t
      · subst eu; rw [upd_same] at hu; cases hu
      · rw [upd_ne _ _ eu] at hu; exact O.dtor u j hu
  · simp only [State.goto, pc_upd]
    exact (I.snaps.bump (head' := { idx := i, ver := s.head.ver + 1, view := fun j => max (s.head.view j) ((s.threads t).known j) }) rfl
      (Or.inr ⟨by simp only; omega, by simp only; omega⟩)).move t .idle trivial

theorem Inv.rCas {s : State α} {fl : List Nat} {φ : Nat → Own} (I : Inv s fl φ) {t i : Nat} {x : Int} {v : Nat} (c : Nat)
    (hp : (s.threads t).pc = .rCas i x v) : Good s fl c (rCas s t i x v c) := by
  unfold LPool.rCas
  by_cases e : c = 0
  · rw [if_pos e]
    by_cases hs : same s x v
    · rw [if_pos hs]
      exact Or.inl ⟨_, _, _, rfl, I.rCasOk hp hs, rfl⟩
    · rw [if_neg hs]
      exact Or.inl ⟨_, _, _, rfl, I.rRetry (by simp) (by rw [hp]; rfl) (fun j => by rw [hp]; simp), rfl⟩
  · rw [if_neg e]
    split
    · next m em => exact Or.inl ⟨_, _, _, rfl, I.rRetry (mem_of_get em) (by rw [hp]; rfl) (fun j => by rw [hp]; simp), rfl⟩
    · exact .stay I c

/-! ### accesses through handles -/

theorem Inv.put {s : State α} {fl : List Nat} {φ : Nat → Own} (I : Inv s fl φ) {t : Nat} {h : BitVec 32} (v : α) (hp : (s.threads t).pc = .idle) (hh : Has s t h) :
    Inv { s.accessed t (slot h) (some v) (s.gen (slot h)) .idle with
          given := s.given.map (fun g => if g.handle = h then { thread := g.thread, handle := g.handle, val := v } else g) } fl φ := by
  obtain ⟨hφ, hi, hg, hr, hob⟩ := I.has hh
  have hne : φ (slot h) ≠ .free := by rw [hφ]; simp
  have O := I.objs
  refine ⟨I.shape, ?_, ?_, ?_, ?_⟩
  · simp only [State.accessed, kn_upd]
    exact I.views.access (Or.inl hφ) (I.notMem hne)
  · simp only [State.accessed, pc_upd, upd_self]
    have hpc : upd (fun u => (s.threads u).pc) t .idle = (fun u => (s.threads u).pc) := by
      have := upd_self (fun u => (s.threads u).pc) t
      simp only [hp] at this
      exact this
    rw [hpc]
    have hmap : (s.given.map (fun g => if g.handle = h then { thread := g.thread, handle := g.handle, val := v } else g)).map (fun g => slot g.handle) = s.given.map (fun g => slot g.handle) := by
      rw [List.map_map]
      apply List.map_congr_left
      intro g _
      simp only [Function.comp]
      split <;> rfl
    refine ⟨?_, by rw [hmap]; exact O.givn, ?_, O.busy, ?_, ?_⟩
    · intro g hg'
      obtain ⟨g0, hg0, rfl⟩ := List.mem_map.mp hg'
      have h0 := O.giv g0 hg0
      by_cases e : g0.handle = h
      · subst e
        rw [if_pos rfl]
        exact ⟨h0.1, h0.2.1, upd_same _ _ _⟩
      · rw [if_neg e]
        have es : slot g0.handle ≠ slot h := by
          intro es
          have h3 := h0.2.1
          rw [es, ← hg] at h3
          exact e h3
        rw [upd_ne _ _ es]
        exact h0
    · intro j u hj
      obtain ⟨g, hg', e⟩ := O.held j u hj
      refine ⟨_, List.mem_map.mpr ⟨g, hg', rfl⟩, ?_⟩
      split
      · exact e
      · exact e
    · intro j hj
      by_cases e : j = slot h
      · subst e; exact Or.inl ⟨t, hφ⟩
      · rw [upd_ne _ _ e] at hj
        exact O.some j hj
    · intro u j hu
      by_cases e : j = slot h
      · subst e; rw [upd_same]; rfl
      · rw [upd_ne _ _ e]; exact O.dtor u j hu
  · simp only [State.accessed, pc_upd]
    exact I.snaps.move t _ trivial
  · simp only [State.accessed, upd_self]
    exact I.gens

theorem Inv.write {s : State α} {fl : List Nat} {φ : Nat → Own} (I : Inv s fl φ) {t c : Nat} {h : BitVec 32} (v : α) (hp : (s.threads t).pc = .idle) (hh : Has s t h) :
    Good s fl c (write s t h v) := by
  obtain ⟨hφ, hi, hg, hr, hob⟩ := I.has hh
  unfold LPool.write
  rw [hr]
  simp only [R.ok_bind]
  rw [I.acc (Or.inl hφ)]
  simp only [R.ok_bind]
  rw [if_pos hob]
  exact Or.inl ⟨_, _, _, rfl, I.put v hp hh, rfl⟩

theorem Inv.read {s : State α} {fl : List Nat} {φ : Nat → Own} (I : Inv s fl φ) {t : Nat} {g : Given α} (hp : (s.threads t).pc = .idle) (hg : g ∈ s.given) (ht : g.thread = t) :
    ∃ s', read s t g.handle = .ok s' ∧ Inv s' fl φ ∧ s'.n = s.n ∧ s'.reads = (t, g.val) :: s.reads := by
  have hh : Has s t g.handle := ⟨g, hg, ht, rfl⟩
  obtain ⟨hφ, hi, hm, hr, hob⟩ := I.has hh
  have hv := (I.objs.giv g hg).2.2
  unfold LPool.read
  rw [hr]
  simp only [R.ok_bind]
  rw [I.acc (Or.inl hφ)]
  simp only [R.ok_bind, hv]
  refine ⟨_, rfl, ?_, rfl, rfl⟩
  have I' := I.put g.val hp hh
  have hid : s.given.map (fun g' => if g'.handle = g.handle then { thread := g'.thread, handle := g'.handle, val := g.val } else g') = s.given := by
    have : ∀ g' ∈ s.given, (fun g' : Given α => if g'.handle = g.handle then { thread := g'.thread, handle := g'.handle, val := g.val } else g') g' = id g' := by
      intro g' hg'
      simp only [id]
      split
      · next e =>
        have h1 := (I.objs.giv g' hg').2.2
        rw [e, hv] at h1
        rw [Option.some.inj h1]
      · rfl
    rw [List.map_congr_left this, List.map_id]
  rw [hid] at I'
  exact ⟨I'.shape, I'.views, I'.objs, I'.snaps, I'.gens⟩

theorem Inv.give {s : State α} {fl : List Nat} {φ : Nat → Own} (I : Inv s fl φ) {t : Nat} {h : BitVec 32} (u : Nat) (hh : Has s t h) :
    Inv (give s t h u) fl (upd φ (slot h) (.held u)) := by
  obtain ⟨hφ, hi, hg, hr, hob⟩ := I.has hh
  have hne : φ (slot h) ≠ .free := by rw [hφ]; simp
  have O := I.objs
  have hpc : (fun w => ((LPool.give s t h u).threads w).pc) = (fun w => (s.threads w).pc) := by
    unfold LPool.give
    simp only [pc_upd]
    exact upd_self (fun w => (s.threads w).pc) u
  refine ⟨I.shape.rename hne (by simp), ?_, ?_, ?_, I.gens⟩
  · unfold LPool.give
    simp only [kn_upd]
    refine (I.views.learn u _ (fun _ => Nat.le_max_left _ _) (fun j => Nat.max_le.mpr ⟨I.views.le u j, I.views.le t j⟩)).own' (t := u) ?_ (Or.inl rfl)
    rw [upd_same]
    have h1 : (s.threads t).known (slot h) = s.acc (slot h) := I.views.own t _ (Or.inl hφ)
    have h2 : (s.threads u).known (slot h) ≤ s.acc (slot h) := I.views.le u (slot h)
    change max ((s.threads u).known (slot h)) ((s.threads t).known (slot h)) = s.acc (slot h)
    omega
  · rw [hpc]
    unfold LPool.give
    have hmap : (s.given.map (fun g => if g.handle = h then { thread := u, handle := g.handle, val := g.val } else g)).map (fun g => slot g.handle) = s.given.map (fun g => slot g.handle) := by
      rw [List.map_map]
      apply List.map_congr_left
      intro g _
      simp only [Function.comp]
      split <;> rfl
    refine ⟨?_, by rw [hmap]; exact O.givn, ?_, ?_, ?_, O.dtor⟩
    · intro g hg'
      obtain ⟨g0, hg0, rfl⟩ := List.mem_map.mp hg'
      have h0 := O.giv g0 hg0
      by_cases e : g0.handle = h
      · subst e
        rw [if_pos rfl]
        exact ⟨upd_same _ _ _, h0.2⟩
      · rw [if_neg e]
        have es : slot g0.handle ≠ slot h := by
          intro es
          have h3 := h0.2.1
          rw [es, ← hg] at h3
          exact e h3
        rw [upd_ne _ _ es]
        exact h0
    · intro j w hj
      have : ∃ g ∈ s.given, slot g.handle = j := by
        by_cases e : j = slot h
        · subst e; exact O.held _ t hφ
        · rw [upd_ne _ _ e] at hj; exact O.held j w hj
      obtain ⟨g, hg', e⟩ := this
      refine ⟨_, List.mem_map.mpr ⟨g, hg', rfl⟩, ?_⟩
      split
      · exact e
      · exact e
    · intro j w
      by_cases e : j = slot h
      · subst e
        rw [upd_same]
        refine ⟨fun h => (by cases h), fun h => ?_⟩
        have := (O.busy _ w).mpr h
        rw [hφ] at this
        cases this
      · rw [upd_ne _ _ e]; exact O.busy j w
    · intro j hj
      by_cases e : j = slot h
      · subst e; exact Or.inl ⟨u, upd_same _ _ _⟩
      · rw [upd_ne _ _ e]; exact O.some j hj
  · rw [hpc]
    exact I.snaps

/-! ### all steps -/

/-- Which value the step reads; steps that are not a load read none. -/
def pick : Act α → Nat
  | .go c => c
  | _ => 1

theorem Inv.step {s : State α} {fl : List Nat} {φ : Nat → Own} (I : Inv s fl φ) (d0 : α) (t : Nat) (a : Act α) (ha : allowed s t a) (hf : Fresh s) :
    Good s fl (pick a) (step s d0 t a) := by
  cases a with
  | go c =>
    change Good s fl c (advance s d0 t c (s.threads t).pc)
    have hf := hf t
    cases hp : (s.threads t).pc with
    | idle => exact .stay I c
    | aLoad => exact I.aLoad c hp
    | aNext x v => exact I.aNext hp
    | aCas x v nxt =>
      rw [hp] at hf
      exact I.aCas c hp hf
    | aCtor i => exact Or.inl ⟨_, _, _, (I.aCtor d0 hp).1, (I.aCtor d0 hp).2, rfl⟩
    | rDtor i => exact Or.inl ⟨_, _, _, (I.rDtor hp).1, (I.rDtor hp).2, rfl⟩
    | rLoad i => exact I.rLoad c hp
    | rSwap i x v => exact Or.inl ⟨_, _, _, (I.rSwap hp).1, (I.rSwap hp).2, rfl⟩
    | rCas i x v => exact I.rCas c hp
  | acquire =>
    unfold LPool.step
    by_cases e : (s.threads t).pc = .idle
    · simp only [if_pos e]
      exact Or.inl ⟨_, _, _, rfl, I.goto t .aLoad (by rw [e]; rfl) (fun j => by rw [e]; simp) (fun j => by simp) trivial, rfl⟩
    · simp only [if_neg e]
      exact .stay I _
  | release h =>
    unfold LPool.step
    by_cases e : (s.threads t).pc = .idle
    · simp only [if_pos e]
      obtain ⟨s', h1, h2, h3, _⟩ := I.rCall e (ha e)
      exact Or.inl ⟨_, _, _, h1, h2, h3⟩
    · simp only [if_neg e]
      exact .stay I _
  | write h v =>
    unfold LPool.step
    by_cases e : (s.threads t).pc = .idle
    · simp only [if_pos e]
      exact I.write v e (ha e)
    · simp only [if_neg e]
      exact .stay I _
  | read h =>
    unfold LPool.step
    by_cases e : (s.threads t).pc = .idle
    · simp only [if_pos e]
      obtain ⟨g, hg, ht, rfl⟩ := ha e
      obtain ⟨s', h1, h2, h3, _⟩ := I.read e hg ht
      exact Or.inl ⟨_, _, _, h1, h2, h3⟩
    · simp only [if_neg e]
      exact .stay I _
  | give h u =>
    unfold LPool.step
    by_cases e : (s.threads t).pc = .idle
    · simp only [if_pos e]
      exact Or.inl ⟨_, _, _, rfl, I.give u (ha e), rfl⟩
    · simp only [if_neg e]
      exact .stay I _

end Verif.LPool
