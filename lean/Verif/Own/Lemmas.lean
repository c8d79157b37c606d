import Verif.Own.Spec

/-! Bookkeeping of owners for the owning pointers. -/
namespace Verif.Own

open Spec

/-! ### finite sums -/

/-- `f 0 + … + f (n - 1)`. -/
def sumTo : Nat → (Nat → Nat) → Nat
  | 0, _ => 0
  | n + 1, f => sumTo n f + f n

theorem sumTo_congr {n : Nat} {f g : Nat → Nat} (h : ∀ a, a < n → f a = g a) : sumTo n f = sumTo n g := by
  induction n with
  | zero => rfl
  | succ n ih => rw [sumTo, sumTo, ih (fun a ha => h a (by omega)), h n (by omega)]

theorem sumTo_mono {n : Nat} {f g : Nat → Nat} (h : ∀ a, a < n → f a ≤ g a) : sumTo n f ≤ sumTo n g := by
  induction n with
  | zero => exact Nat.le_refl _
  | succ n ih =>
    have h1 := ih (fun a ha => h a (by omega))
    have h2 := h n (by omega)
    rw [sumTo, sumTo]; omega

theorem sumTo_update {n o : Nat} {f g : Nat → Nat} (ho : o < n) (h : ∀ a, a ≠ o → f a = g a) : sumTo n f + g o = sumTo n g + f o := by
  induction n with
  | zero => omega
  | succ n ih =>
    rw [sumTo, sumTo]
    by_cases e : o = n
    · subst e
      rw [sumTo_congr (f := f) (g := g) (n := o) (fun a ha => h a (by omega))]
      omega
    · have h1 := ih (by omega)
      have h2 := h n (fun e' => e e'.symm)
      omega

theorem le_sumTo {n o : Nat} {f : Nat → Nat} (ho : o < n) : f o ≤ sumTo n f := by
  induction n with
  | zero => omega
  | succ n ih =>
    rw [sumTo]
    by_cases e : o = n
    · subst e; omega
    · have := ih (by omega); omega

/-! ### counting owners -/

/-- The pointers of the state. -/
def abs (w : World) : State := { vars := w.vars, objs := w.heap.map (·.fields) }

/-- The object is alive and its destructor has not begun. -/
def isLive (b : Block) : Bool := !b.freed && decide (b.rc > 0)

/-- Members of object `a`, without the one at location `d`. -/
def effFields (d : Option Loc) (a : Nat) (fs : List (Option Nat)) : List (Option Nat) :=
  match d with
  | some (.field o k) => if o = a then fs.set k none else fs
  | _ => fs

/-- The variables, without the one at location `d`. -/
def effVars (d : Option Loc) (vs : List (Option Nat)) : List (Option Nat) :=
  match d with
  | some (.var i) => vs.set i none
  | _ => vs

/-- Owners of `x` among the members of `b`, which is object `a`. -/
def contribB (d : Option Loc) (x a : Nat) (b : Block) : Nat := if isLive b then (effFields d a b.fields).count (some x) else 0

/-- Owners of `x` among the members of object `a`. -/
def contrib (d : Option Loc) (w : World) (x a : Nat) : Nat :=
  match w.heap[a]? with
  | some b => contribB d x a b
  | none => 0

/-- Owners of `x` outside location `d`. -/
def cnt (d : Option Loc) (w : World) (x : Nat) : Nat := (effVars d w.vars).count (some x) + sumTo w.heap.length (contrib d w x)

/-- Reference count, 0 for freed objects. -/
def effB (b : Block) : Int := if b.freed then 0 else b.rc

/-- Reference count of object `x`, 0 if there is none. -/
def eff (w : World) (x : Nat) : Int :=
  match w.heap[x]? with
  | some b => effB b
  | none => 0

/-- Every reference count is the number of owners (outside `d`), plus references `P` still to be released, minus references `A` not yet
counted. -/
def Inv (d : Option Loc) (P A : List Nat) (w : World) : Prop := ∀ x, eff w x + A.count x = cnt d w x + P.count x

/-- Living object. -/
def Live (w : World) (x : Nat) : Prop := ∃ b, w.heap[x]? = some b ∧ b.freed = false ∧ b.rc > 0

/-- No destructor is running. -/
def Clean (w : World) : Prop := ∀ (x : Nat) b, w.heap[x]? = some b → b.freed = false → b.rc > 0

/-- The object has been freed. -/
def freedAt (w : World) (x : Nat) : Bool :=
  match w.heap[x]? with
  | some b => b.freed
  | none => false

/-- Destructors ran exactly once for the freed objects and not at all for the others. -/
def LogOk (w : World) : Prop := ∀ x, w.log.count x = if freedAt w x then 1 else 0

/-- Uniquely owned objects. -/
def AllLe1 (w : World) : Prop := ∀ (x : Nat) b, w.heap[x]? = some b → b.freed = false → b.rc ≤ 1

theorem Inv.congr {d : Option Loc} {P A P' A' : List Nat} {w : World} (h : Inv d P A w)
    (e : ∀ x, P.count x + A'.count x = P'.count x + A.count x) : Inv d P' A' w := by
  intro x
  have h1 := h x
  have h2 := e x
  omega

theorem eff_some {w : World} {x : Nat} {b : Block} (h : w.heap[x]? = some b) : eff w x = effB b := by unfold eff; rw [h]

theorem contrib_some {d : Option Loc} {w : World} {x a : Nat} {b : Block} (h : w.heap[a]? = some b) : contrib d w x a = contribB d x a b := by
  unfold contrib; rw [h]

theorem live_of_cnt {d : Option Loc} {P : List Nat} {w : World} (I : Inv d P [] w) {x : Nat} (h : 0 < cnt d w x + P.count x) : Live w x := by
  have h1 := I x
  rw [List.count_nil] at h1
  unfold eff at h1
  cases hb : w.heap[x]? with
  | none => rw [hb] at h1; simp only at h1; omega
  | some b =>
    rw [hb] at h1
    simp only [effB] at h1
    refine ⟨b, hb, ?_⟩
    cases hf : b.freed with
    | true => rw [hf] at h1; simp only [if_true] at h1; omega
    | false => rw [hf] at h1; simp only [Bool.false_eq_true, if_false] at h1; exact ⟨rfl, by omega⟩

theorem live_block {w : World} {x : Nat} {b : Block} (h : w.heap[x]? = some b) (hf : b.freed = false) : w.block x = .ok b := by
  unfold World.block
  rw [h]
  simp [hf]

theorem isLive_of {b : Block} (hf : b.freed = false) (hr : b.rc > 0) : isLive b = true := by simp [isLive, hf, hr]

/-- What replacing one object does to the owner counts. -/
theorem cnt_setBlock {d : Option Loc} {w : World} {o : Nat} {b b' : Block} (h : w.heap[o]? = some b) (x : Nat) :
    cnt d (w.setBlock o b') x + contribB d x o b = cnt d w x + contribB d x o b' := by
  have ho : o < w.heap.length := (List.getElem?_eq_some_iff.1 h).1
  have hs : (w.heap.set o b')[o]? = some b' := by simp [ho]
  have h1 := sumTo_update (n := w.heap.length) (o := o) (f := contrib d w x) (g := contrib d (w.setBlock o b') x) ho (by
    intro a ha
    unfold contrib World.setBlock
    rw [List.getElem?_set_ne (fun e => ha e.symm)])
  rw [contrib_some h, show contrib d (w.setBlock o b') x o = contribB d x o b' from contrib_some hs] at h1
  unfold cnt
  rw [show (w.setBlock o b').heap.length = w.heap.length from List.length_set, show (w.setBlock o b').vars = w.vars from rfl]
  omega

theorem eff_setBlock_same {w : World} {o : Nat} {b b' : Block} (h : w.heap[o]? = some b) : eff (w.setBlock o b') o = effB b' := by
  have ho : o < w.heap.length := (List.getElem?_eq_some_iff.1 h).1
  exact eff_some (by simp [World.setBlock, ho])

theorem eff_setBlock_ne {w : World} {o x : Nat} {b' : Block} (h : x ≠ o) : eff (w.setBlock o b') x = eff w x := by
  unfold eff World.setBlock
  rw [List.getElem?_set_ne (fun e => h e.symm)]

theorem heap_setBlock {w : World} {o : Nat} {b b' : Block} (h : w.heap[o]? = some b) (y : Nat) :
    (w.setBlock o b').heap[y]? = if y = o then some b' else w.heap[y]? := by
  have ho : o < w.heap.length := (List.getElem?_eq_some_iff.1 h).1
  unfold World.setBlock
  by_cases e : y = o
  · subst e; simp [ho]
  · rw [if_neg e]
    exact List.getElem?_set_ne (fun e' => e e'.symm)

/-! ### reachability -/

theorem count_pos_of_getElem {l : List (Option Nat)} {i : Nat} {p : Option Nat} (h : l[i]? = some p) : 0 < l.count p :=
  List.count_pos_iff.2 (List.mem_of_getElem? h)

theorem reach_cnt {d : Option Loc} {P : List Nat} {w : World} (I : Inv d P [] w) {avoid : List Loc} (hd : ∀ l, d = some l → l ∈ avoid) {x : Nat}
    (h : Reach avoid (abs w) x) : 0 < cnt d w x := by
  induction h with
  | @var i o hi hg =>
    have hg : w.vars[i]? = some (some o) := hg
    have : (effVars d w.vars)[i]? = some (some o) := by
      unfold effVars
      split
      · rename_i j
        have : j ≠ i := fun e => hi (e ▸ hd _ rfl)
        rw [List.getElem?_set_ne this]; exact hg
      · exact hg
    have := count_pos_of_getElem this
    unfold cnt; omega
  | @field a k o ha hk hg ih =>
    obtain ⟨b, hb, hf, hr⟩ := live_of_cnt I (x := a) (by omega)
    have hbf : b.fields[k]? = some (some o) := by
      simpa [abs, State.get, hb] using hg
    have : (effFields d a b.fields)[k]? = some (some o) := by
      unfold effFields
      split
      · rename_i o' k'
        split
        · rename_i e
          subst e
          have : k' ≠ k := fun e => hk (e ▸ hd _ rfl)
          rw [List.getElem?_set_ne this]; exact hbf
        · exact hbf
      · exact hbf
    have h1 := count_pos_of_getElem this
    have h2 : contrib d w o a = (effFields d a b.fields).count (some o) := by
      rw [contrib_some hb]; unfold contribB; rw [if_pos (isLive_of hf hr)]
    have h3 := le_sumTo (n := w.heap.length) (f := contrib d w o) (List.getElem?_eq_some_iff.1 hb).1
    unfold cnt; omega

/-! ### releasing an object -/

/-- Number of living objects. -/
def liveCount (w : World) : Nat := sumTo w.heap.length (fun a => match w.heap[a]? with | some b => if isLive b then 1 else 0 | none => 0)

/-- What releasing references does to the other objects. -/
structure Frame (w w' : World) : Prop where
  vars : w'.vars = w.vars
  len : w'.heap.length = w.heap.length
  blk : ∀ (y : Nat) b, w.heap[y]? = some b → ∃ b', w'.heap[y]? = some b' ∧ b'.fields = b.fields ∧ (isLive b = false → b' = b) ∧
    (isLive b = true → b'.freed = true ∨ b'.rc > 0) ∧ (b'.freed = false → b.freed = false ∧ b'.rc ≤ b.rc)

theorem Frame.refl (w : World) : Frame w w :=
  ⟨rfl, rfl, fun y b h => ⟨b, h, rfl, fun _ => rfl, fun hl => by
    unfold isLive at hl
    simp only [Bool.and_eq_true, decide_eq_true_eq] at hl
    exact Or.inr hl.2, fun hf => ⟨hf, by omega⟩⟩⟩

theorem Frame.trans {a b c : World} (h1 : Frame a b) (h2 : Frame b c) : Frame a c := by
  refine ⟨h2.vars.trans h1.vars, h2.len.trans h1.len, fun y x hx => ?_⟩
  obtain ⟨x', hx', f1, s1, l1, m1⟩ := h1.blk y x hx
  obtain ⟨x'', hx'', f2, s2, l2, m2⟩ := h2.blk y x' hx'
  refine ⟨x'', hx'', f2.trans f1, fun h => ?_, fun h => ?_, fun h => ?_⟩
  · have e := s1 h
    rw [e] at s2
    exact s2 h
  · cases hl : isLive x' with
    | true => exact l2 hl
    | false =>
      have e := s2 hl
      rw [e]
      exact l1 h
  · have a1 := m2 h
    have a2 := m1 a1.1
    exact ⟨a2.1, by omega⟩

theorem Frame.abs {w w' : World} (h : Frame w w') : abs w' = abs w := by
  unfold Own.abs
  rw [h.vars]
  congr 1
  apply List.ext_getElem?
  intro y
  rw [List.getElem?_map, List.getElem?_map]
  cases hy : w.heap[y]? with
  | none =>
    have : w'.heap[y]? = none := by
      rw [List.getElem?_eq_none_iff] at hy ⊢; rw [h.len]; exact hy
    rw [this]
  | some b =>
    obtain ⟨b', e, f, _⟩ := h.blk y b hy
    rw [e]
    simp [f]

theorem Frame.clean {w w' : World} (h : Frame w w') (c : Clean w) : Clean w' := by
  intro y b' hb' hf
  have hy : y < w.heap.length := by rw [← h.len]; exact (List.getElem?_eq_some_iff.1 hb').1
  obtain ⟨b2, e, f, s, l, m⟩ := h.blk y _ (List.getElem?_eq_getElem hy)
  rw [hb'] at e
  cases e
  have hf2 := (m hf).1
  have hr := c y _ (List.getElem?_eq_getElem hy) hf2
  rcases l (isLive_of hf2 hr) with h1 | h1
  · rw [hf] at h1; cases h1
  · exact h1

theorem Frame.allLe1 {w w' : World} (h : Frame w w') (c : AllLe1 w) : AllLe1 w' := by
  intro y b' hb' hf
  have hy : y < w.heap.length := by rw [← h.len]; exact (List.getElem?_eq_some_iff.1 hb').1
  obtain ⟨b2, e, f, s, l, m⟩ := h.blk y _ (List.getElem?_eq_getElem hy)
  rw [hb'] at e
  cases e
  have hm := m hf
  have := c y _ (List.getElem?_eq_getElem hy) hm.1
  omega

theorem Frame.liveCount {w w' : World} (h : Frame w w') : liveCount w' ≤ liveCount w := by
  unfold Own.liveCount
  rw [h.len]
  apply sumTo_mono
  intro a ha
  obtain ⟨b', e, f, s, l, m⟩ := h.blk a _ (List.getElem?_eq_getElem ha)
  rw [e, List.getElem?_eq_getElem ha]
  simp only
  cases hl : isLive w.heap[a] with
  | true => split <;> simp
  | false => rw [s hl, hl]; simp

theorem liveCount_pos {w : World} {x : Nat} (h : Live w x) : 0 < liveCount w := by
  obtain ⟨b, hb, hf, hr⟩ := h
  have := le_sumTo (n := w.heap.length) (f := fun a => match w.heap[a]? with | some b => if isLive b then 1 else 0 | none => 0)
    (List.getElem?_eq_some_iff.1 hb).1
  simp only [hb, isLive_of hf hr, if_true] at this
  unfold liveCount; omega

/-- A way of dropping a reference: `release` or `destroyObj`. -/
structure Drops (u : Bool) (F : Nat → World → Nat → R World) : Prop where
  last : ∀ n w o b, w.block o = .ok b → b.rc = 1 →
    F (n + 1) w o = (releaseAll (F n) (w.setBlock o { b with rc := 0 }) b.fields.reverse).bind (fun w => w.free o)
  other : u = false → ∀ n w o b, w.block o = .ok b → b.rc > 1 → F (n + 1) w o = .ok (w.setBlock o { b with rc := b.rc - 1 })

theorem drops_release : Drops false release := by
  refine ⟨fun n w o b h hr => ?_, fun _ n w o b h hr => ?_⟩
  · rw [release, h, R.ok_bind]
    simp only
    rw [if_pos (by omega), show b.rc - 1 = 0 by omega]
    rfl
  · rw [release, h, R.ok_bind]
    simp only
    rw [if_neg (by omega)]

theorem drops_destroyObj : Drops true destroyObj := by
  refine ⟨fun n w o b h hr => ?_, fun h => by cases h⟩
  rw [destroyObj, h, R.ok_bind, if_pos hr]
  rfl

/-- What a drop establishes. -/
structure Dropped (d : Option Loc) (P : List Nat) (w w' : World) : Prop where
  inv : Inv d P [] w'
  frame : Frame w w'
  log : LogOk w → LogOk w'

/-- The object in which location `d` lies does not depend on `d`. -/
def Kept (d : Option Loc) (s : State) : Prop := ∀ a k, d = some (.field a k) → Reach [.field a k] s a

theorem releaseAll_ok {u : Bool} {F : World → Nat → R World} {d : Option Loc} {n : Nat}
    (hF : ∀ w o P, Inv d (o :: P) [] w → Kept d (abs w) → liveCount w ≤ n → (u = true → AllLe1 w) → ∃ w', F w o = .ok w' ∧ Dropped d P w w') :
    ∀ (ps : List (Option Nat)) (P : List Nat) (w : World), Inv d (ps.filterMap id ++ P) [] w → Kept d (abs w) → liveCount w ≤ n →
      (u = true → AllLe1 w) → ∃ w', releaseAll F w ps = .ok w' ∧ Dropped d P w w' := by
  intro ps
  induction ps with
  | nil => intro P w I _ _ _; exact ⟨w, rfl, I, Frame.refl w, id⟩
  | cons p ps ih =>
    intro P w I hk hl hu
    cases p with
    | none => exact ih P w I hk hl hu
    | some o =>
      obtain ⟨w1, e1, D1⟩ := hF w o (ps.filterMap id ++ P) I hk hl hu
      obtain ⟨w2, e2, D2⟩ := ih P w1 D1.inv (by rw [D1.frame.abs]; exact hk) (Nat.le_trans D1.frame.liveCount hl)
        (fun h => D1.frame.allLe1 (hu h))
      refine ⟨w2, ?_, D2.inv, D1.frame.trans D2.frame, fun h => D2.log (D1.log h)⟩
      rw [releaseAll, e1, R.ok_bind, e2]

theorem count_filterMap (fs : List (Option Nat)) (x : Nat) : (fs.filterMap id).count x = fs.count (some x) := by
  induction fs with
  | nil => rfl
  | cons p fs ih =>
    cases p with
    | none => simp [ih]
    | some y => simp [List.count_cons, ih]

theorem drop_ok {u : Bool} {F : Nat → World → Nat → R World} (hF : Drops u F) (d : Option Loc) (n : Nat) :
    ∀ w o P, Inv d (o :: P) [] w → Kept d (abs w) → liveCount w ≤ n → (u = true → AllLe1 w) → ∃ w', F n w o = .ok w' ∧ Dropped d P w w' := by
  induction n with
  | zero =>
    intro w o P I _ hl _
    have := liveCount_pos (live_of_cnt I (x := o) (by rw [List.count_cons_self]; omega))
    omega
  | succ n ih =>
    intro w o P I hk hl hu
    obtain ⟨b, hb, hf, hr⟩ := live_of_cnt I (x := o) (by rw [List.count_cons_self]; omega)
    have hblk := live_block hb hf
    by_cases h1 : b.rc = 1
    · -- the last reference
      rw [hF.last n w o b hblk h1]
      have hIo := I o
      rw [eff_some hb, effB, hf] at hIo
      simp only [Bool.false_eq_true, if_false, List.count_nil, List.count_cons_self] at hIo
      have hc0 : cnt d w o = 0 := by omega
      have hP0 : P.count o = 0 := by omega
      -- location `d` is not in the dying object
      have heff : effFields d o b.fields = b.fields := by
        unfold effFields
        split
        · rename_i a k
          split
          · rename_i e
            subst e
            have := reach_cnt I (avoid := [.field a k]) (by intro l e; cases e; simp) (hk a k rfl)
            omega
          · rfl
        · rfl
      let b0 : Block := { b with rc := 0 }
      have hb0 : isLive b0 = false := by simp [isLive, b0]
      have hbl : isLive b = true := isLive_of hf hr
      let w1 := w.setBlock o b0
      have hw1 : ∀ y, w1.heap[y]? = if y = o then some b0 else w.heap[y]? := heap_setBlock hb
      have habs1 : abs w1 = abs w := by
        unfold Own.abs
        congr 1
        apply List.ext_getElem?
        intro y
        rw [List.getElem?_map, List.getElem?_map, hw1]
        split
        · rename_i e; subst e; rw [hb]; rfl
        · rfl
      have I1 : Inv d (b.fields.reverse.filterMap id ++ P) [] w1 := by
        intro x
        have hx := I x
        have hc := cnt_setBlock (d := d) (b' := b0) hb x
        unfold contribB at hc
        rw [hbl, hb0, heff] at hc
        simp only [if_true, Bool.false_eq_true, if_false] at hc
        rw [List.count_append, count_filterMap, List.count_reverse]
        have hc : cnt d w1 x + b.fields.count (some x) = cnt d w x := hc
        by_cases e : x = o
        · rw [e] at hc ⊢
          have e1 : eff w1 o = 0 := by
            rw [show eff w1 o = effB b0 from eff_setBlock_same hb]; simp [effB, b0]
          rw [e1, List.count_nil]
          omega
        · rw [show eff w1 x = eff w x from eff_setBlock_ne e]
          rw [List.count_cons_of_ne (fun e' => e e'.symm)] at hx
          omega
      have hlen1 : w1.heap.length = w.heap.length := List.length_set
      have hlc : liveCount w1 ≤ n := by
        have h2 := sumTo_update (n := w.heap.length) (o := o)
          (f := fun a => match w.heap[a]? with | some b => if isLive b then 1 else 0 | none => 0)
          (g := fun a => match w1.heap[a]? with | some b => if isLive b then 1 else 0 | none => 0)
          (List.getElem?_eq_some_iff.1 hb).1 (by intro a ha; rw [hw1, if_neg ha])
        simp only [hw1 o, if_true, hb, hbl, hb0, Bool.false_eq_true, if_false] at h2
        unfold liveCount at hl ⊢
        rw [hlen1]
        omega
      obtain ⟨w2, e2, D2⟩ := releaseAll_ok (u := u) ih b.fields.reverse P w1 I1 (by rw [habs1]; exact hk) hlc (by
        intro h y c hy hcf
        rw [hw1] at hy
        split at hy
        · cases hy; simp [b0]
        · exact hu h y c hy hcf)
      -- the dying object is untouched
      obtain ⟨b2, hb2, _, hs2, _, _⟩ := D2.frame.blk o b0 (by rw [hw1, if_pos rfl])
      have hb2 : w2.heap[o]? = some b0 := by rw [hb2, hs2 hb0]
      let bf : Block := { b0 with freed := true }
      let w3 : World := { (w2.setBlock o bf) with log := w2.log ++ [o] }
      have hw3 : ∀ y, w3.heap[y]? = if y = o then some bf else w2.heap[y]? := heap_setBlock hb2
      refine ⟨w3, ?_, ?_, ?_, ?_⟩
      · change (releaseAll (F n) w1 b.fields.reverse).bind (fun w => w.free o) = .ok w3
        rw [e2]
        change w2.free o = .ok w3
        unfold World.free
        rw [live_block hb2 hf]
        rfl
      · intro x
        have hx := D2.inv x
        have hc := cnt_setBlock (d := d) (b' := bf) hb2 x
        have hbf : isLive bf = false := by simp [isLive, bf]
        unfold contribB at hc
        rw [hbf, hb0] at hc
        simp only [Bool.false_eq_true, if_false] at hc
        have hcc : cnt d w3 x = cnt d w2 x := hc
        rw [hcc]
        by_cases e : x = o
        · subst e
          have e1 : eff w3 x = 0 := by
            rw [eff_some (b := bf) (by rw [hw3, if_pos rfl])]; simp [effB, bf]
          have e2 : eff w2 x = 0 := by
            rw [eff_some hb2]; simp [effB, b0]
          rw [e1, ← e2]; exact hx
        · have : eff w3 x = eff w2 x := by
            unfold eff; rw [hw3, if_neg e]
          rw [this]; exact hx
      · refine ⟨D2.frame.vars, ?_, fun y c hy => ?_⟩
        · change (w2.heap.set o bf).length = _
          rw [List.length_set, D2.frame.len, hlen1]
        · by_cases e : y = o
          · subst e
            rw [hb] at hy
            cases hy
            refine ⟨bf, by rw [hw3, if_pos rfl], rfl, fun h => ?_, fun _ => Or.inl rfl, fun h => ?_⟩
            · rw [hbl] at h; cases h
            · cases h
          · rw [hw3, if_neg e]
            exact D2.frame.blk y c (by rw [hw1, if_neg e]; exact hy)
      · intro hlog
        have hlog1 : LogOk w1 := by
          intro y
          have : freedAt w1 y = freedAt w y := by
            unfold freedAt
            rw [hw1]
            by_cases e : y = o
            · rw [if_pos e, e, hb]
            · rw [if_neg e]
          rw [this]; exact hlog y
        have hlog2 := D2.log hlog1
        intro y
        have hy := hlog2 y
        change (w2.log ++ [o]).count y = _
        rw [List.count_append, hy]
        have hfa : freedAt w3 y = if y = o then true else freedAt w2 y := by
          unfold freedAt
          rw [hw3]
          by_cases e : y = o
          · rw [if_pos e, if_pos e]
          · rw [if_neg e, if_neg e]
        rw [hfa]
        by_cases e : y = o
        · subst e
          have : freedAt w2 y = false := by
            unfold freedAt; rw [hb2]; exact hf
          rw [this]; simp
        · rw [if_neg e, List.count_cons_of_ne (fun e' => e e'.symm)]; simp
    · -- others remain
      have hu' : u = false := by
        cases u with
        | false => rfl
        | true => have := hu rfl o b hb hf; omega
      rw [hF.other hu' n w o b hblk (by omega)]
      let b1 : Block := { b with rc := b.rc - 1 }
      have hbl : isLive b = true := isLive_of hf hr
      have hb1 : isLive b1 = true := isLive_of hf (by change b.rc - 1 > 0; omega)
      refine ⟨_, rfl, ?_, ?_, ?_⟩
      · intro x
        have hx := I x
        have hc := cnt_setBlock (d := d) (b' := b1) hb x
        unfold contribB at hc
        rw [hbl, hb1] at hc
        simp only [if_true] at hc
        have hcc : cnt d (w.setBlock o b1) x = cnt d w x := Nat.add_right_cancel hc
        rw [hcc]
        by_cases e : x = o
        · subst e
          rw [eff_setBlock_same hb]
          rw [eff_some hb] at hx
          simp only [effB, hf, Bool.false_eq_true, if_false, List.count_nil, List.count_cons_self, b1] at *
          omega
        · rw [eff_setBlock_ne e]
          rw [List.count_cons_of_ne (fun e' => e e'.symm)] at hx
          exact hx
      · refine ⟨rfl, List.length_set, fun y c hy => ?_⟩
        rw [heap_setBlock hb]
        by_cases e : y = o
        · subst e
          rw [hb] at hy
          cases hy
          refine ⟨b1, by rw [if_pos rfl], rfl, fun h => ?_, fun _ => Or.inr ?_, fun _ => ⟨hf, ?_⟩⟩
          · rw [hbl] at h; cases h
          · change b.rc - 1 > 0; omega
          · change b.rc - 1 ≤ b.rc; omega
        · rw [if_neg e]
          exact (Frame.refl w).blk y c hy
      · intro hlog y
        have : freedAt (w.setBlock o b1) y = freedAt w y := by
          unfold freedAt
          rw [heap_setBlock hb]
          by_cases e : y = o
          · rw [if_pos e, e, hb]
          · rw [if_neg e]
        rw [this]; exact hlog y

theorem liveCount_le_depth (w : World) : liveCount w ≤ w.depth := by
  unfold liveCount World.depth
  have : ∀ (n : Nat) (f : Nat → Nat), (∀ a, f a ≤ 1) → sumTo n f ≤ n := by
    intro n f hf
    induction n with
    | zero => exact Nat.le_refl _
    | succ n ih => have := hf n; rw [sumTo]; omega
  have := this w.heap.length (fun a => match w.heap[a]? with | some b => if isLive b then 1 else 0 | none => 0) (by
    intro a
    skip
    split
    · split <;> omega
    · omega)
  omega

/-- `release` and `destroyObj` with the full depth. -/
theorem release_ok {u : Bool} {F : Nat → World → Nat → R World} (hF : Drops u F) {d : Option Loc} {w : World} {o : Nat} {P : List Nat}
    (I : Inv d (o :: P) [] w) (hk : Kept d (abs w)) (hu : u = true → AllLe1 w) : ∃ w', F w.depth w o = .ok w' ∧ Dropped d P w w' :=
  drop_ok hF d w.depth w o P I hk (liveCount_le_depth w) hu

end Verif.Own
