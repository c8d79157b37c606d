import Verif.FArr.Lemmas

/-! C78: a `fwd_array` holds exactly the elements it was given, moves hand them over, and all memory is given back. The constructors from a list and from a span lose objects. -/
namespace Verif.FArr
open Mem Mem.Own
variable {α : Type}

/-- Each variable holds its elements, in a block of its own; there are no other blocks. -/
abbrev WInv (w : World α) (σ : Spec.St α) : Prop := Own.Inv FA.data Good w.heap w.vars σ

theorem get_ok {w : World α} {σ : Spec.St α} (I : WInv w σ) {i : Nat} {l} (h : σ i = some l) : ∃ s, w.vars i = some s ∧ w.get i = .ok s ∧ Good w.heap s l := by
  obtain ⟨s, e, g⟩ := I.get h
  exact ⟨s, e, by unfold World.get; rw [e], g⟩

/-- Element `k`. -/
theorem elem_ok {h : Heap α} {s : FA} {l : List (Option α)} (g : Good h s l) {k : Nat} {x : Option α} (hk : l[k]? = some x) :
    ∃ b pre post, s.index k = .ok (some b, k) ∧ s.data = some b ∧ b < h.next ∧ k = pre.length ∧ l = pre ++ x :: post ∧
      h.blocks b = some (pre.map slotOf ++ slotOf x :: post.map slotOf) := by
  obtain ⟨hk', hx⟩ := List.getElem?_eq_some_iff.1 hk
  have hl : l = l.take k ++ x :: l.drop (k + 1) := by rw [← hx, List.getElem_cons_drop hk', List.take_append_drop]
  cases ed : s.data with
  | none => rw [g.none ed] at hk; cases hk
  | some b =>
    obtain ⟨a1, a2, _⟩ := g.some b ed
    refine ⟨b, l.take k, l.drop (k + 1), ?_, rfl, a1, by simp; omega, hl, ?_⟩
    · unfold FA.index
      rw [ccAssert_true (by rw [g.size]; exact decide_eq_true hk'), R.ok_bind, ed]
    · rw [a2]
      conv => lhs; rw [hl]
      simp

theorem arg_ok {w : World α} {σ : Spec.St α} (I : WInv w σ) {x : Arg α} {a : α} (h : Spec.arg σ x = some a) :
    ∃ v, w.arg x = .ok v ∧ ValOK w.heap w.heap.next v a ∧ v.read w.heap = .ok a := by
  cases x with
  | val b =>
    simp only [Spec.arg, Option.some.injEq] at h
    exact ⟨.ext b, rfl, h, by rw [h]; rfl⟩
  | elem i k =>
    simp only [Spec.arg] at h
    split at h
    · rename_i l hl
      obtain ⟨s, _, e, g⟩ := get_ok I hl
      obtain ⟨b, pre, post, h1, _, h2, h3, _, h4⟩ := elem_ok g (Option.join_eq_some_iff.1 h)
      refine ⟨.elem (some b) k, ?_, ⟨b, pre.map slotOf, post.map slotOf, rfl, by omega, by simpa using h3, h4⟩, ?_⟩
      · simp only [World.arg]
        rw [e, R.ok_bind, h1, R.ok_bind]
      · exact read_mid h4 rfl (by simpa using h3)
    · cases h

theorem spn_ok {e : E α} {w : World α} {σ : Spec.St α} (I : WInv w σ) {x : Spn α} {l : List (Option α)} (h : Spec.spn e.triv σ x = some l) :
    ∃ src, w.spn x = .ok (src, l.length) ∧ SpnOK e.triv w.heap src l := by
  cases x with
  | vals m =>
    simp only [Spec.spn, Option.some.injEq] at h
    subst h
    exact ⟨.ext m, by simp [World.spn], rfl⟩
  | part i off len =>
    simp only [Spec.spn] at h
    split at h
    · rename_i m hm
      split at h
      · rename_i hc
        obtain ⟨hle, hso⟩ := hc
        rw [Option.some.injEq] at h
        obtain ⟨s, _, e1, g⟩ := get_ok I hm
        have hlen : l.length = len := by rw [← h]; simp; omega
        refine ⟨.mem s.data off, by simp only [World.spn]; rw [e1, R.ok_bind, hlen], fun h0 => ?_⟩
        cases ed : s.data with
        | none =>
          rw [g.none ed] at h
          simp at h
          exact absurd h h0
        | some b =>
          obtain ⟨a1, a2, _⟩ := g.some b ed
          refine ⟨b, (m.take off).map slotOf, (m.drop (off + len)).map slotOf, rfl, a1, by simp; omega, ?_, by rw [← h]; exact hso⟩
          rw [a2, ← List.map_append, ← List.map_append]
          congr 2
          have h1 : m.drop (off + len) = (m.drop off).drop len := by rw [List.drop_drop]
          rw [← h, h1, List.take_append_drop, List.take_append_drop]
      · cases h
    · cases h

theorem moveFrom_ok {w : World α} {σ : Spec.St α} {h : Heap α} {s e : FA} {k l : List (Option α)} {i j : Nat} (I : Own.Inv FA.data Good h (upd w.vars i (some e)) (upd σ i (some k)))
    (he : e.data = none) (hj : w.vars j = some s) (hs : σ j = some l) :
    ∃ w', moveFrom w h i j = .ok w' ∧ w'.heap = h ∧ Own.Inv FA.data Good w'.heap w'.vars (upd (upd σ i (some l)) j (some [])) := by
  have w1 : w.get j = .ok s := by unfold World.get; rw [hj]
  have w2 : (w.put h i (some s)).get j = .ok s := by
    unfold World.get World.put
    simp only
    by_cases e : j = i
    · rw [if_pos e]
    · rw [if_neg e, hj]
  refine ⟨(w.put h i (some s)).put h j (some { s with data := none, size := 0 }), ?_, rfl, ?_⟩
  · unfold moveFrom
    rw [w1, R.ok_bind]
    dsimp only
    rw [w2, R.ok_bind]
  · have ge : ∀ op, Good h { data := none, size := 0, op := op } ([] : List (Option α)) := fun op => ⟨rfl, fun _ => rfl, (fun _ e => by cases e)⟩
    by_cases hij : i = j
    · subst hij
      show Own.Inv FA.data Good h (upd (upd w.vars i _) i _) _
      rw [upd_upd, upd_upd]
      have := I.change local_ (h' := h) i (o := some { s with data := none, size := 0 }) (l := some []) (ge s.op)
        (by rw [upd_self]; show Ch h h e.data none; rw [he]; exact ch_refl I.bound)
      rw [upd_upd, upd_upd] at this
      exact this
    · have hji : j ≠ i := fun e => hij e.symm
      obtain ⟨s', e1, g⟩ := I.get (i := j) (l := l) (by rw [upd_ne _ _ hji]; exact hs)
      rw [upd_ne _ _ hji, hj] at e1
      obtain rfl := Option.some.inj e1
      have := I.move (i := i) (j := j) hij (r := s) (r' := s) (e := { s with data := none, size := 0 }) (l := l) (by rw [upd_ne _ _ hji]; exact hj)
        (by rw [upd_self]; exact he) rfl g rfl (ge s.op)
      rw [upd_upd, upd_upd] at this
      exact this

theorem step_ok {e : E α} (he : e.triv = true → e.tdtor = true) {w : World α} {σ σ' : Spec.St α} (I : WInv w σ) {op : Op α} {o : Obs α} (h : Spec.step e σ op = some (σ', o)) :
    ∃ w', step e w op = .ok (w', o) ∧ WInv w' σ' ∧ w'.heap.leaked = w.heap.leaked + if e.tdtor then 0 else Spec.copies op := by
  have z : ∀ {n m : Nat}, n = m → n = m + if e.tdtor then 0 else 0 := by intro n m h; simp [h]
  cases op with
  | make i =>
    simp only [Spec.step] at h
    split at h
    · rename_i hi
      obtain ⟨rfl, rfl⟩ := Prod.mk.inj (Option.some.inj h)
      refine ⟨_, rfl, I.change local_ i (good_new _) ?_, z rfl⟩
      rw [I.dead hi]; exact ch_refl I.bound
    · cases h
  | sized i n =>
    simp only [Spec.step] at h
    split at h
    · rename_i hi
      obtain ⟨rfl, rfl⟩ := Prod.mk.inj (Option.some.inj h)
      have g := good_fresh w.heap (List.replicate n (some e.dflt)) 0
      rw [bump_zero, List.map_replicate, List.length_replicate] at g
      refine ⟨_, rfl, I.change local_ i g ?_, z rfl⟩
      rw [I.dead hi]; exact ch_fresh I.bound (has_none _) _
    · cases h
  | uninitialized i n =>
    simp only [Spec.step] at h
    split at h
    · rename_i hi
      obtain ⟨rfl, rfl⟩ := Prod.mk.inj (Option.some.inj h)
      have g := good_fresh w.heap (List.replicate n (if e.tctor then none else some e.dflt)) 0
      rw [bump_zero, List.map_replicate, List.length_replicate, ← blank_eq] at g
      refine ⟨_, rfl, I.change local_ i g ?_, z rfl⟩
      rw [I.dead hi]; exact ch_fresh I.bound (has_none _) _
    · cases h
  | filled i n x =>
    simp only [Spec.step] at h
    split at h
    · rename_i a hi ha
      obtain ⟨rfl, rfl⟩ := Prod.mk.inj (Option.some.inj h)
      obtain ⟨v, e1, hv, _⟩ := arg_ok I ha
      obtain ⟨h', s, e2, g, c, hl⟩ := filled_ok (e := e) I.bound n hv
      refine ⟨w.put h' i (some s), by simp only [step]; rw [e1, R.ok_bind, e2, R.ok_bind], I.change local_ i g ?_, z hl⟩
      rw [I.dead hi]; exact c
    · cases h
  | list i l =>
    simp only [Spec.step] at h
    split at h
    · rename_i hi
      obtain ⟨rfl, rfl⟩ := Prod.mk.inj (Option.some.inj h)
      obtain ⟨h', s, e2, g, c, hl⟩ := copied_ok (e := e) I.bound he (src := .ext l) (l := l.map some) rfl
      rw [List.length_map] at e2 hl
      refine ⟨w.put h' i (some s), by simp only [step]; rw [e2, R.ok_bind], I.change local_ i g ?_, hl⟩
      rw [I.dead hi]; exact c
    · cases h
  | span i x =>
    simp only [Spec.step] at h
    split at h
    · rename_i l hi hx
      obtain ⟨rfl, rfl⟩ := Prod.mk.inj (Option.some.inj h)
      obtain ⟨src, e1, hs⟩ := spn_ok I hx
      obtain ⟨h', s, e2, g, c, hl⟩ := copied_ok (e := e) I.bound he hs
      refine ⟨w.put h' i (some s), by simp only [step]; rw [e1, R.ok_bind]; dsimp only; rw [e2, R.ok_bind], I.change local_ i g ?_, ?_⟩
      · rw [I.dead hi]; exact c
      · have : l.length = Spec.copies (.span i x) := by
          cases x with
          | vals m => simp only [Spec.spn, Option.some.injEq] at hx; rw [← hx]; simp [Spec.copies]
          | part j off len =>
            simp only [Spec.spn] at hx
            split at hx
            · split at hx
              · rename_i hc
                rw [Option.some.injEq] at hx
                rw [← hx]
                have := hc.1
                simp [Spec.copies]; omega
              · cases hx
            · cases hx
        rw [← this]; exact hl
    · cases h
  | moveNew i j =>
    simp only [Spec.step] at h
    split at h
    · rename_i l hi hj
      obtain ⟨rfl, rfl⟩ := Prod.mk.inj (Option.some.inj h)
      obtain ⟨s, e1, _, _⟩ := get_ok I hj
      have I' := I.change local_ (h' := w.heap) i (o := some FA.new) (l := some []) (good_new _) (by rw [I.dead hi]; exact ch_refl I.bound)
      obtain ⟨w', e2, hh, I2⟩ := moveFrom_ok I' rfl e1 hj
      exact ⟨w', by simp only [step]; rw [e2, R.ok_bind], I2, z (by rw [hh])⟩
    · cases h
  | moveAssign i j =>
    simp only [Spec.step] at h
    split at h
    · rename_i k l hi hj
      obtain ⟨rfl, rfl⟩ := Prod.mk.inj (Option.some.inj h)
      obtain ⟨s, e1, e1', g⟩ := get_ok I hi
      obtain ⟨r, e2, _, _⟩ := get_ok I hj
      obtain ⟨h', e3, c, hl⟩ := release_ok (e := e) I.bound g
      have I' := I.change local_ (h' := h') i (o := some FA.new) (l := some []) (good_new _) (by rw [e1]; exact c)
      obtain ⟨w', e4, hh, I2⟩ := moveFrom_ok I' rfl e2 hj
      exact ⟨w', by simp only [step]; rw [e1', R.ok_bind, e3, R.ok_bind, e4, R.ok_bind], I2, z (by rw [hh, hl])⟩
    · cases h
  | destroy i =>
    simp only [Spec.step] at h
    split at h
    · rename_i l hi
      obtain ⟨rfl, rfl⟩ := Prod.mk.inj (Option.some.inj h)
      obtain ⟨s, e1, e1', g⟩ := get_ok I hi
      obtain ⟨h', e3, c, hl⟩ := release_ok (e := e) I.bound g
      refine ⟨w.put h' i none, by simp only [step]; rw [e1', R.ok_bind, e3, R.ok_bind], I.change local_ i trivial ?_, z hl⟩
      rw [e1]; exact c
    · cases h
  | set i k x =>
    simp only [Spec.step] at h
    split at h
    · rename_i l a hi ha
      split at h
      · rename_i hk
        obtain ⟨rfl, rfl⟩ := Prod.mk.inj (Option.some.inj h)
        obtain ⟨v, e1, _, e1'⟩ := arg_ok I ha
        obtain ⟨s, e2, e2', g⟩ := get_ok I hi
        obtain ⟨b, pre, post, h1, h2, h3, h4, h5, h6⟩ := elem_ok g (x := l[k]) (List.getElem?_eq_getElem hk)
        generalize l[k] = y at h5 h6
        have as := assign_mid (i := k) (pre := pre.map slotOf) (post := post.map slotOf) a h6 rfl (by simpa using h4) (slotOf_alive _)
        refine ⟨w.put (w.heap.set b (pre.map slotOf ++ .live a :: post.map slotOf)) i (some s), ?_, I.change local_ i (show Both Good _ (some s) (some _) from ?_) ?_, z rfl⟩
        · simp only [step]
          rw [e1, R.ok_bind, e2', R.ok_bind, h1, R.ok_bind]
          dsimp only
          rw [e1', R.ok_bind, as, R.ok_bind]
        · refine ⟨by rw [g.size]; simp, (fun e => by rw [h2] at e; cases e), fun b' e => ?_⟩
          rw [h2] at e
          obtain rfl := Option.some.inj e
          refine ⟨h3, ?_, (g.some b h2).2.2⟩
          show (w.heap.set b _).blocks b = _
          rw [Heap.set_blocks_self]
          have : l.set k (some a) = pre ++ some a :: post := by
            rw [h5, h4, List.set_append_right _ _ (Nat.le_refl _)]
            simp
          rw [this]
          simp [slotOf]
        · rw [e2]; show Ch _ _ s.data s.data; rw [h2]; exact ch_set I.bound h3 _
      · cases h
    · cases h
  | get i k =>
    simp only [Spec.step] at h
    split at h
    · rename_i a ha
      obtain ⟨rfl, rfl⟩ := Prod.mk.inj (Option.some.inj h)
      obtain ⟨v, e1, _, e1'⟩ := arg_ok I ha
      refine ⟨w, ?_, I, z rfl⟩
      simp only [World.arg] at e1
      obtain ⟨s, e2, e3⟩ := R.bind_eq_ok.1 e1
      obtain ⟨p, e4, e5⟩ := R.bind_eq_ok.1 e3
      obtain rfl := Except.ok.inj e5
      simp only [step]
      rw [e2, R.ok_bind, e4, R.ok_bind]
      exact congrArg (· >>= fun x => Except.ok (w, Obs.val x)) e1'
    · cases h
  | size i =>
    simp only [Spec.step] at h
    split at h
    · rename_i l hi
      obtain ⟨rfl, rfl⟩ := Prod.mk.inj (Option.some.inj h)
      obtain ⟨s, e1, e1', g⟩ := get_ok I hi
      exact ⟨w, by simp only [step]; rw [e1', R.ok_bind, g.size], I, z rfl⟩
    · cases h
  | empty i =>
    simp only [Spec.step] at h
    split at h
    · rename_i l hi
      obtain ⟨rfl, rfl⟩ := Prod.mk.inj (Option.some.inj h)
      obtain ⟨s, e1, e1', g⟩ := get_ok I hi
      exact ⟨w, by simp only [step]; rw [e1', R.ok_bind, g.size]; simp [List.length_eq_zero_iff], I, z rfl⟩
    · cases h
  | all i =>
    simp only [Spec.step] at h
    split at h
    · rename_i l hi
      split at h
      · rename_i hs
        obtain ⟨rfl, rfl⟩ := Prod.mk.inj (Option.some.inj h)
        obtain ⟨s, e1, e1', g⟩ := get_ok I hi
        obtain ⟨m, rfl⟩ := all_some hs
        refine ⟨w, ?_, I, z rfl⟩
        have : readAll w.heap s.data 0 s.size = .ok m := by
          cases ed : s.data with
          | none =>
            have := g.none ed
            rw [g.size, this]
            have : m = [] := by simpa using this
            rw [this]; rfl
          | some b =>
            rw [g.size, List.length_map]
            exact readAll_ok m (pre := []) (by rw [(g.some b ed).2.1, map_live]; rfl) rfl
        simp only [step]
        rw [e1', R.ok_bind, this, R.ok_bind]
        simp
      · cases h
    · cases h

theorem run_ok {e : E α} (he : e.triv = true → e.tdtor = true) (ops : List (Op α)) : ∀ {w : World α} {σ σ' : Spec.St α} {os : List (Obs α)}, WInv w σ →
    Spec.run e σ ops = some (σ', os) →
    ∃ w', run e w ops = .ok (w', os) ∧ WInv w' σ' ∧ w'.heap.leaked = w.heap.leaked + if e.tdtor then 0 else (ops.map Spec.copies).sum := by
  induction ops with
  | nil =>
    intro w σ σ' os I h
    obtain ⟨rfl, rfl⟩ := Prod.mk.inj (Option.some.inj h)
    exact ⟨w, rfl, I, by simp⟩
  | cons op ops ih =>
    intro w σ σ' os I h
    simp only [Spec.run, bind, Option.bind] at h
    split at h
    · cases h
    · rename_i x hx
      obtain ⟨σ1, o⟩ := x
      simp only at h
      split at h
      · cases h
      · rename_i y hy
        obtain ⟨σ2, os2⟩ := y
        obtain ⟨rfl, rfl⟩ := Prod.mk.inj (Option.some.inj h)
        obtain ⟨w1, e1, I1, l1⟩ := step_ok he I hx
        obtain ⟨w2, e2, I2, l2⟩ := ih I1 hy
        refine ⟨w2, by unfold run; rw [e1, R.ok_bind]; dsimp only; rw [e2, R.ok_bind], I2, ?_⟩
        rw [l2, l1]
        cases e.tdtor
        · simp; omega
        · simp

/-- C78 (all but the objects lost by copying): in every history that keeps to the rules, nothing is undefined and no assertion fails; elements, sizes and iteration are
those of the lists in `Spec`, whatever was moved (also to itself) or written before. When all arrays are gone, all their memory has been given back.
Exactly as many objects with a destructor are lost without it as were copied by the constructors from lists and spans. -/
theorem C78_array_partial (e : E α) (he : e.triv = true → e.tdtor = true) (ops : List (Op α)) (σ : Spec.St α) (os : List (Obs α)) (h : Spec.run e .init ops = some (σ, os)) :
    ∃ w, run e .init ops = .ok (w, os) ∧ ((∀ i, σ i = none) → ∀ b, w.heap.blocks b = none) ∧
      w.heap.leaked = if e.tdtor then 0 else (ops.map Spec.copies).sum := by
  obtain ⟨w, e1, I, hl⟩ := run_ok he ops (w := .init) (σ := .init) (Own.Inv.init fun _ => rfl) h
  exact ⟨w, e1, I.empty, by rw [hl]; simp [World.init, Heap.init]⟩

/-- C78: without those constructors, and always for types with a trivial destructor, each object is destroyed. -/
theorem C78_no_loss (e : E α) (he : e.triv = true → e.tdtor = true) (ops : List (Op α)) (σ : Spec.St α) (os : List (Obs α)) (h : Spec.run e .init ops = some (σ, os))
    (hc : e.tdtor = true ∨ ∀ op ∈ ops, Spec.copies op = 0) : ∃ w, run e .init ops = .ok (w, os) ∧ w.heap.leaked = 0 := by
  obtain ⟨w, e1, _, hl⟩ := C78_array_partial e he ops σ os h
  refine ⟨w, e1, ?_⟩
  rw [hl]
  rcases hc with hc | hc
  · simp [hc]
  · have : (ops.map Spec.copies).sum = 0 := by
      rw [List.sum_eq_zero_iff_forall_eq_nat]
      intro x hx
      obtain ⟨op, ho, rfl⟩ := List.mem_map.1 hx
      exact hc op ho
    rw [this]; simp

/-- Disagreement: an array made from a list and destroyed leaves as many objects undestroyed as the list had, if the type has a destructor. -/
theorem C78_list_loses_objects (e : E α) (he : e.triv = true → e.tdtor = true) (ht : e.tdtor = false) (l : List α) :
    ∃ w, run e .init [.list 0 l, .destroy 0] = .ok (w, [.none, .none]) ∧ w.heap.leaked = l.length := by
  obtain ⟨w, e1, _, hl⟩ := C78_array_partial e he [.list 0 l, .destroy 0] _ _ rfl
  exact ⟨w, e1, by rw [hl, ht]; simp [Spec.copies]⟩

/-- The same with a span. -/
theorem C78_span_loses_objects (e : E α) (he : e.triv = true → e.tdtor = true) (ht : e.tdtor = false) (l : List α) :
    ∃ w, run e .init [.span 0 (.vals l), .destroy 0] = .ok (w, [.none, .none]) ∧ w.heap.leaked = l.length := by
  obtain ⟨w, e1, _, hl⟩ := C78_array_partial e he [.span 0 (.vals l), .destroy 0] _ _ rfl
  exact ⟨w, e1, by rw [hl, ht]; simp [Spec.copies]⟩

/-- C78: an index that is out of range is caught before anything is read or written, also on an empty array and one that was moved from. -/
theorem C78_bounds (e : E α) (he : e.triv = true → e.tdtor = true) (ops : List (Op α)) (σ : Spec.St α) (os : List (Obs α)) (h : Spec.run e .init ops = some (σ, os))
    (i k : Nat) (l : List (Option α)) (hi : σ i = some l) (hk : l.length ≤ k) (a : α) :
    ∃ w, run e .init ops = .ok (w, os) ∧ step e w (.get i k) = .error .assert ∧ step e w (.set i k (.val a)) = .error .assert := by
  obtain ⟨w, e1, I, hl⟩ := run_ok he ops (w := .init) (σ := .init) (Own.Inv.init fun _ => rfl) h
  obtain ⟨s, _, e2, g⟩ := get_ok I hi
  have : s.index k = .error .assert := by
    unfold FA.index
    rw [ccAssert_false (by rw [g.size]; exact decide_eq_false (by omega)), R.error_bind]
  refine ⟨w, e1, ?_, ?_⟩
  · simp only [step]; rw [e2, R.ok_bind, this, R.error_bind]
  · simp only [step, World.arg]; rw [R.ok_bind, e2, R.ok_bind, this, R.error_bind]

/-- Objects with a destructor, and a default constructor that sets them to 7. -/
def eObj : E Nat := { triv := false, tdtor := false, tctor := false, dflt := 7 }

/-- Plain numbers. -/
def eNum : E Nat := { triv := true, tdtor := true, tctor := true, dflt := 0 }

/-- Constructions of all kinds, elements of one array put in another and in itself, moves, a move to itself. -/
def sample : List (Op Nat) :=
  [.make 0, .size 0, .all 0, .sized 1 3, .all 1, .set 1 1 (.val 5), .uninitialized 2 2, .set 2 0 (.elem 1 1), .set 2 1 (.elem 2 0), .all 2, .filled 3 2 (.elem 1 1), .all 3,
   .list 4 [1, 2, 3, 4], .span 5 (.part 4 1 2), .all 5, .span 6 (.vals [8, 9]), .moveNew 7 6, .size 6, .all 7, .moveAssign 7 5, .all 7, .empty 5, .moveAssign 7 7, .empty 7,
   .moveAssign 0 1, .get 0 1, .destroy 0, .destroy 1, .destroy 2, .destroy 3, .destroy 4, .destroy 5, .destroy 6, .destroy 7]

example : (Spec.run eObj .init sample).map (fun r => r.2.filter (· ≠ .none)) =
    some [.size 0, .list [], .list [7, 7, 7], .list [5, 5], .list [5, 5], .list [2, 3], .size 0, .list [8, 9], .list [2, 3], .bool true, .bool true, .val 5] := by decide +kernel

example : ((run eObj .init sample).map fun r => (r.1.heap.leaked, r.2.filter (· ≠ .none))) =
    .ok (8, [.size 0, .list [], .list [7, 7, 7], .list [5, 5], .list [5, 5], .list [2, 3], .size 0, .list [8, 9], .list [2, 3], .bool true, .bool true, .val 5]) := by decide +kernel

example : ((run eNum .init sample).map fun r => (r.1.heap.leaked, r.2.filter (· ≠ .none))) =
    .ok (0, [.size 0, .list [], .list [0, 0, 0], .list [5, 5], .list [5, 5], .list [2, 3], .size 0, .list [8, 9], .list [2, 3], .bool true, .bool true, .val 5]) := by decide +kernel

example : ∃ w, run eObj .init [.list 0 [1, 2, 3], .destroy 0] = .ok (w, [.none, .none]) ∧ w.heap.leaked = 3 := C78_list_loses_objects eObj (by decide) rfl [1, 2, 3]

example : ∃ w, run eObj .init [.sized 0 2, .moveNew 1 0] = .ok (w, [.none, .none]) ∧ step eObj w (.get 0 0) = .error .assert ∧ step eObj w (.set 0 0 (.val 4)) = .error .assert :=
  C78_bounds eObj (by decide) [.sized 0 2, .moveNew 1 0] _ _ rfl 0 0 [] rfl (by decide) 4

/-- Reading an element of `uninitialized` is a rule broken, and indeed undefined. -/
example : (run eNum .init [.uninitialized 0 2, .get 0 1]).map (·.2) = .error .ub := by decide +kernel

end Verif.FArr
