import Verif.Chunk.MemLoop

/-! Property theorems for references into a `chunked_buffer` (C135) and for loops over its chunks (C136). -/
namespace Verif.Chunk.Ref
open Spec (Shape room)

variable {α : Type}

/-- A new buffer, no references yet. -/
def W.empty : W α := ⟨St.empty, []⟩

/-- Reference number `k` leads to element number `k`, for all of the elements `l`, and no two references lead to the same place. -/
def Leads (w : W α) (l : List α) : Prop :=
  w.refs.length = l.length ∧ size w.s = l.length ∧ w.refs.Nodup ∧
    ∀ (k : Nat) a, l[k]? = some a → ∃ p, w.refs[k]? = some p ∧ load w.s.mem p = .ok a

theorem Inv.leads {w : W α} {l : List α} {h : Shape} {F : List (List α)} {t : Option (List α × Nat)} (I : Inv w l h F t) :
    Leads w l := by
  refine ⟨I.refs_length, ?_, by rw [I.refs]; exact locs_nodup _ _, ?_⟩
  · unfold size
    rw [I.fullSize, I.curr, I.elems]
    cases t <;> simp
  · intro k a hk
    have hlt : k < w.refs.length := by rw [I.refs_length]; exact (List.getElem?_eq_some_iff.1 hk).1
    obtain ⟨b, hb, hl⟩ := I.load (List.getElem?_eq_getElem hlt)
    rw [hk] at hb
    cases hb
    exact ⟨_, List.getElem?_eq_getElem hlt, hl⟩

/-- C135: whatever a program does, all the references that `push_back` has ever returned can be used, and lead to the element they
were returned for; a program that uses no reference it does not have and sets no chunk size of 0 never stops. -/
theorem C135_references (ops : List (Op α)) :
    match Spec.run [] ops with
    | .error f => run W.empty ops = .error f
    | .ok l => ∃ w, run W.empty ops = .ok w ∧ Leads w l := by
  have h := run_ok ops (inv_empty (α := α))
  cases hs : Spec.run [] ops with
  | error f => rw [hs] at h; exact h
  | ok l =>
    rw [hs] at h
    obtain ⟨w, F, t, -, e, -, I⟩ := h
    exact ⟨w, e, I.leads⟩

example : ∃ w, run W.empty [.setChunkSize 2, .push 1, .push 2, .pushCopy 0, .assign 1 7, .push 4, .setChunkSize 1, .pushCopy 1] = .ok w ∧
    Leads w [1, 7, 1, 4, 7] :=
  C135_references [.setChunkSize 2, .push 1, .push 2, .pushCopy 0, .assign 1 7, .push 4, .setChunkSize 1, .pushCopy 1]

/-- C135: the references do not change. -/
theorem C135_same_references (ops1 ops2 : List (Op α)) (w1 w2 : W α) (h1 : run W.empty ops1 = .ok w1)
    (h2 : run w1 ops2 = .ok w2) : ∃ r, w2.refs = w1.refs ++ r := by
  have g1 := run_ok ops1 (inv_empty (α := α))
  cases hs : Spec.run [] ops1 with
  | error f =>
    rw [hs] at g1
    have g1 : run W.empty ops1 = .error f := g1
    rw [h1] at g1; cases g1
  | ok l =>
    rw [hs] at g1
    obtain ⟨w, F, t, -, e, -, I⟩ := g1
    have e : run W.empty ops1 = .ok w := e
    rw [h1] at e
    cases e
    have g2 := run_ok ops2 I
    cases hs2 : Spec.run l ops2 with
    | error f => rw [hs2] at g2; simp only at g2; rw [h2] at g2; cases g2
    | ok l2 =>
      rw [hs2] at g2
      obtain ⟨w', _, _, r, e', er, -⟩ := g2
      rw [h2] at e'
      cases e'
      exact ⟨r, er⟩

example : ∃ w1 w2, run W.empty [.setChunkSize 1, .push 1] = .ok w1 ∧ run w1 [.push 2, .push 3] = .ok w2 ∧ w1.refs = [(0, 0)] ∧
    w2.refs = [(0, 0), (1, 0), (2, 0)] := ⟨_, _, rfl, rfl, rfl, rfl⟩

theorem free_ok (a b : Mem α) (c : List (Option α)) : free (a ++ some c :: b) a.length = .ok (a ++ none :: b) := by
  simp [free]

theorem freeAll_ok (F : List (List α)) : ∀ (a b : Mem α),
    freeAll (a ++ memOf (F.map fun l => (l, 0)) ++ b) (chunksFrom a.length (F.map List.length)) =
      .ok (a ++ List.replicate F.length none ++ b) := by
  induction F with
  | nil => intro a b; simp [memOf, chunksFrom, freeAll]
  | cons l F ih =>
    intro a b
    simp only [List.map_cons, chunksFrom, freeAll, memOf]
    have e := free_ok a (memOf (F.map fun l => (l, 0)) ++ b) (l.map some ++ List.replicate 0 none)
    simp only [List.append_assoc, List.cons_append, memOf] at e ⊢
    rw [e, R.ok_bind]
    have h := ih (a ++ [none]) b
    simp only [List.length_append, List.length_singleton, List.append_assoc, List.cons_append, List.nil_append, memOf] at h
    rw [h]
    simp [List.replicate_succ]

/-- C135: the destructor gives every block back, none of them twice. -/
theorem C135_destroy (ops : List (Op α)) (w : W α) (h : run W.empty ops = .ok w) :
    destroy w.s = .ok (List.replicate w.s.mem.length none) := by
  have g := run_ok ops (inv_empty (α := α))
  cases hs : Spec.run [] ops with
  | error f =>
    rw [hs] at g
    have g : run W.empty ops = .error f := g
    rw [h] at g; cases g
  | ok l =>
    rw [hs] at g
    obtain ⟨w', F, t, -, e, -, I⟩ := g
    have e : run W.empty ops = .ok w' := e
    rw [h] at e
    cases e
    unfold destroy
    rw [I.curr, I.full, I.mem]
    cases t with
    | none =>
      have := freeAll_ok F [] []
      simpa [all, memOf_length] using this
    | some x =>
      have e1 := free_ok (memOf (F.map fun l => (l, 0))) [] (x.1.map some ++ List.replicate x.2 none)
      rw [memOf_length, List.length_map] at e1
      have e2 : memOf (all F (some x)) = memOf (F.map fun l => (l, 0)) ++ [some (x.1.map some ++ List.replicate x.2 none)] := by
        simp [all, memOf]
      simp only [Option.map_some]
      rw [e2, e1, R.ok_bind]
      have := freeAll_ok F [] [none]
      simp only [List.nil_append, List.length_nil] at this
      rw [this]
      simp [memOf_length, List.replicate_succ']

example : ∃ w, run W.empty [.setChunkSize 2, .push 1, .push 2, .push 3, .push 4, .push 5] = .ok w ∧
    destroy w.s = .ok [none, none, none] := ⟨_, rfl, rfl⟩

/-- What a loop does, compared to what it has to do. -/
def Match (r : R (W α × List (List α))) : R ((List α × Shape) × List (List α)) → Prop
  | .error f => r = .error f
  | .ok ((l, _), shown) => ∃ w, r = .ok (w, shown) ∧ Leads w l

theorem Sim.match {r : R (W α × List (List α))} {s : R ((List α × Shape) × List (List α))} (h : Sim r s) : Match r s := by
  cases s with
  | error f => exact h
  | ok q =>
    obtain ⟨⟨l, h'⟩, shown⟩ := q
    obtain ⟨w, F, t, e, I⟩ := h
    exact ⟨w, e, I.leads⟩

/-- C136: a loop over `chunks()` does what the specification says, whatever its body does. -/
theorem C136_chunks (ops : List (Op α)) (l : List α) (w : W α) (body : Body α) (hl : Spec.run [] ops = .ok l)
    (hw : run W.empty ops = .ok w) : Match (loopChunks body w) (Spec.loopChunks body l (Shape.empty.run ops)) := by
  have g := run_ok ops (inv_empty (α := α))
  rw [hl] at g
  obtain ⟨w', F, t, -, e, -, I⟩ := g
  have e : run W.empty ops = .ok w' := e
  rw [hw] at e
  cases e
  exact (loopChunks_ok body I).match

/-- C136: and so does `for_each_chunk`. -/
theorem C136_for_each_chunk (ops : List (Op α)) (l : List α) (w : W α) (body : Body α) (hl : Spec.run [] ops = .ok l)
    (hw : run W.empty ops = .ok w) : Match (forEachChunk body w) (Spec.forEachChunk body l (Shape.empty.run ops)) := by
  have g := run_ok ops (inv_empty (α := α))
  rw [hl] at g
  obtain ⟨w', F, t, -, e, -, I⟩ := g
  have e : run W.empty ops = .ok w' := e
  rw [hw] at e
  cases e
  exact (forEachChunk_ok body I).match

/-- The body does not assign to elements. -/
def NoAssign (body : Body α) : Prop := ∀ shown, ∀ op ∈ body shown, ∀ k a, op ≠ .assign k a

theorem run_extends (ops : List (Op α)) : ∀ {l l' : List α}, (∀ op ∈ ops, ∀ k a, op ≠ .assign k a) → Spec.run l ops = .ok l' →
    ∃ m, l' = l ++ m := by
  induction ops with
  | nil => intro l l' _ h; cases h; exact ⟨[], by simp⟩
  | cons op ops ih =>
    intro l l' hn h
    simp only [Spec.run] at h
    obtain ⟨l1, h1, h2⟩ := (R.bind_eq_ok).1 h
    obtain ⟨m2, rfl⟩ := ih (fun o ho => hn o (List.mem_cons_of_mem _ ho)) h2
    cases op with
    | push a => cases h1; exact ⟨[a] ++ m2, by simp⟩
    | pushCopy k =>
      simp only [Spec.step] at h1
      split at h1
      · cases h1
      · cases h1; exact ⟨_, List.append_assoc ..⟩
    | assign k a => exact absurd rfl (hn _ List.mem_cons_self k a)
    | setChunkSize n =>
      simp only [Spec.step] at h1
      split at h1
      · cases h1
      · cases h1; exact ⟨m2, rfl⟩

theorem overFull_shows (body : Body α) (hb : NoAssign body) (r : Nat) (ns : List Nat) : ∀ {l l' : List α} {h h' : Shape} {i : Nat}
    {shown shown' : List (List α)}, Spec.overFull body r l h i shown ns = .ok ((l', h'), shown') → i + ns.sum ≤ l.length →
    shown'.flatten = shown.flatten ++ (l.drop i).take ns.sum ∧ ∃ m, l' = l ++ m := by
  induction ns with
  | nil => intro l l' h h' i shown shown' e _; cases e; exact ⟨by simp, [], by simp⟩
  | cons n ns ih =>
    intro l l' h h' i shown shown' e hi
    unfold Spec.overFull at e
    split at e
    · cases e
    · obtain ⟨l1, e1, e2⟩ := (R.bind_eq_ok).1 e
      obtain ⟨m, rfl⟩ := run_extends _ (hb _) e1
      simp only [List.sum_cons] at hi ⊢
      obtain ⟨h1, m2, rfl⟩ := ih e2 (by simp; omega)
      refine ⟨?_, m ++ m2, by simp⟩
      rw [h1]
      simp only [List.flatten_append, List.flatten_cons, List.flatten_nil, List.append_nil, List.append_assoc]
      congr 1
      rw [List.drop_append_of_le_length (by omega), List.take_append_of_le_length (by simp; omega), List.take_add, List.drop_drop]

/-- C136: a loop over `chunks()` that does not fail has shown, in order, exactly the elements that were there when it began, whatever
the body has added. -/
theorem C136_chunks_shows (ops : List (Op α)) (l : List α) (w w' : W α) (body : Body α) (shown : List (List α)) (hb : NoAssign body)
    (hl : Spec.run [] ops = .ok l) (hw : run W.empty ops = .ok w) (h : loopChunks body w = .ok (w', shown)) : shown.flatten = l := by
  have g := run_ok ops (inv_empty (α := α))
  rw [hl] at g
  obtain ⟨w0, F, t, -, e, -, I⟩ := g
  have e : run W.empty ops = .ok w0 := e
  rw [hw] at e
  cases e
  have hm := (loopChunks_ok body I).match
  generalize (Shape.empty.run ops : Shape) = sh at I hm
  cases hs : Spec.loopChunks body l sh with
  | error f => rw [hs] at hm; simp only [Match] at hm; rw [h] at hm; cases hm
  | ok q =>
    obtain ⟨⟨l2, h2⟩, s2⟩ := q
    rw [hs] at hm
    obtain ⟨w2, e2, -⟩ := hm
    rw [h] at e2
    cases e2
    unfold Spec.loopChunks at hs
    obtain ⟨⟨⟨l1, h1⟩, s1⟩, e1, hs⟩ := (R.bind_eq_ok).1 hs
    have hsum : sh.closed.sum = F.flatten.length := by rw [I.closed, List.length_flatten]
    obtain ⟨g1, m, rfl⟩ := overFull_shows body hb _ _ e1 (by rw [hsum, I.elems]; simp)
    simp only [List.flatten_nil, List.nil_append, List.drop_zero, hsum] at g1
    rw [I.elems, List.take_left] at g1
    have hcur := I.cur
    cases t with
    | none =>
      simp only [Option.map_none] at hcur
      rw [hcur] at hs
      cases hs
      rw [g1, I.elems]
      simp
    | some x =>
      simp only [Option.map_some] at hcur
      rw [hcur] at hs
      simp only at hs
      obtain ⟨l2', -, hs⟩ := (R.bind_eq_ok).1 hs
      cases hs
      simp only [List.flatten_append, g1, List.flatten_cons, List.flatten_nil, List.append_nil]
      rw [hsum, I.elems]
      simp

/-- The body adds an element in each round. -/
def addOne : Body Nat := fun _ => [.push 9]

/-- What is shown by a loop after a history. -/
def showsChunks (ops : List (Op Nat)) (body : Body Nat) : R (List (List Nat)) := do
  let w ← run W.empty ops
  let (_, shown) ← loopChunks body w
  .ok shown

/-- The same for `for_each_chunk`. -/
def showsEach (ops : List (Op Nat)) (body : Body Nat) : R (List (List Nat)) := do
  let w ← run W.empty ops
  let (_, shown) ← forEachChunk body w
  .ok shown

example : NoAssign addOne ∧ showsChunks [.setChunkSize 2, .push 1, .push 2, .push 3] addOne = .ok [[1, 2], [3]] := by
  refine ⟨?_, by decide +kernel⟩
  intro shown op ho k a e
  simp only [addOne, List.mem_singleton] at ho
  rw [ho] at e
  cases e

/-- C136: as long as there has been only one chunk the body may add whatever it likes. -/
theorem C136_one_chunk (ops : List (Op α)) (l : List α) (w : W α) (adds : List α)
    (hl : Spec.run [] ops = .ok l) (hw : run W.empty ops = .ok w) (hc : (Shape.empty.run ops).closed = []) (hne : l ≠ []) :
    ∃ w', loopChunks (fun _ => adds.map .push) w = .ok (w', [l]) ∧ Leads w' (l ++ adds) := by
  have g := run_ok ops (inv_empty (α := α))
  rw [hl] at g
  obtain ⟨w0, F, t, -, e, -, I⟩ := g
  have e : run W.empty ops = .ok w0 := e
  rw [hw] at e
  cases e
  have hm := (loopChunks_ok (fun _ => adds.map .push) I).match
  generalize (Shape.empty.run ops : Shape) = sh at I hm hc
  have hF : F = [] := by
    have := I.closed
    rw [hc] at this
    exact List.map_eq_nil_iff.1 this.symm
  subst hF
  have hadds : ∀ (adds l : List α), Spec.run l (adds.map .push) = .ok (l ++ adds) := by
    intro adds
    induction adds with
    | nil => intro l; simp [Spec.run]
    | cons a adds ih => intro l; simp only [List.map_cons, Spec.run, Spec.step, R.ok_bind, ih]; simp
  cases t with
  | none => exact absurd (by rw [I.elems]; rfl) hne
  | some x =>
    have hcur := I.cur
    have hel : l = x.1 := by rw [I.elems]; simp
    subst hel
    simp only [Option.map_some] at hcur
    have hs : Spec.loopChunks (fun _ => adds.map .push) x.1 sh =
        .ok ((x.1 ++ adds, sh.run (adds.map .push)), [x.1]) := by
      unfold Spec.loopChunks
      rw [hc, hcur]
      simp only [Spec.overFull, R.ok_bind, List.sum_nil, List.drop_zero, List.take_length, hadds, List.nil_append]
    rw [hs] at hm
    exact hm

example : ∃ w', loopChunks (fun _ => ([4, 5, 6] : List Nat).map .push)
    ⟨⟨[some [some 1, none]], some ⟨0, 1, 2⟩, [], 0, 0, 0, 2⟩, [(0, 0)]⟩ = .ok (w', [[1]]) ∧ Leads w' [1, 4, 5, 6] :=
  C136_one_chunk [.setChunkSize 2, .push 1] [1] _ [4, 5, 6] rfl rfl rfl (by decide)

/-- C136: in any other round adding an element may make the loop read memory that has been given back: the array that the loop goes
over moves. -/
theorem C136_chunks_fails : showsChunks [.setChunkSize 1, .push 1, .push 2, .push 3] addOne = .error .ub ∧
    showsEach [.setChunkSize 1, .push 1, .push 2, .push 3] addOne = .error .ub := by decide +kernel

/-- C136: `for_each_chunk` can miss elements that were there when it began (here 3), although nothing fails; a loop over `chunks()`
shows them. -/
theorem C136_for_each_chunk_misses :
    showsEach [.setChunkSize 2, .push 1, .push 2, .push 3] (fun s => if s.length = 1 then [.push 4, .push 5] else []) =
      .ok [[1, 2], [5]] ∧
    showsChunks [.setChunkSize 2, .push 1, .push 2, .push 3] (fun s => if s.length = 1 then [.push 4, .push 5] else []) =
      .ok [[1, 2], [3]] := by decide +kernel

/-- C136: `for_each_chunk` shows all elements, if the current chunk is not full and the body adds nothing. -/
theorem C136_for_each_chunk_partial (ops : List (Op α)) (l : List α) (w : W α) (hl : Spec.run [] ops = .ok l)
    (hw : run W.empty ops = .ok w) (n c : Nat) (hc : (Shape.empty.run ops).cur = some (n, c)) (hn : n ≠ c) :
    ∃ w' shown, forEachChunk (fun _ => []) w = .ok (w', shown) ∧ shown.flatten = l ∧ Leads w' l := by
  have g := run_ok ops (inv_empty (α := α))
  rw [hl] at g
  obtain ⟨w0, F, t, -, e, -, I⟩ := g
  have e : run W.empty ops = .ok w0 := e
  rw [hw] at e
  cases e
  have hm := (forEachChunk_ok (fun _ => []) I).match
  generalize (Shape.empty.run ops : Shape) = sh at I hm hc
  have hno : NoAssign (fun _ => [] : Body α) := fun _ op ho => by cases ho
  have hover : ∀ (ns : List Nat) (i : Nat) (shown : List (List α)),
      ∃ s, Spec.overFull (fun _ => []) (room sh.closed.length) l sh i shown ns = .ok ((l, sh), s) := by
    intro ns
    induction ns with
    | nil => intro i shown; exact ⟨shown, rfl⟩
    | cons n ns ih =>
      intro i shown
      unfold Spec.overFull
      simp only [ne_eq, not_true_eq_false, if_false, Spec.run, R.ok_bind, Shape.run]
      exact ih _ _
  obtain ⟨s, hs⟩ := hover sh.closed 0 []
  have hsum : sh.closed.sum = F.flatten.length := by rw [I.closed, List.length_flatten]
  obtain ⟨g1, -⟩ := overFull_shows _ hno _ _ hs (by rw [hsum, I.elems]; simp)
  unfold Spec.forEachChunk at hm
  rw [hs] at hm
  simp only [R.ok_bind, hc, if_neg hn, Spec.run, Match] at hm
  obtain ⟨w', e', hL⟩ := hm
  refine ⟨w', _, e', ?_, hL⟩
  simp only [List.flatten_append, List.flatten_cons, List.flatten_nil, List.append_nil, List.nil_append, List.drop_zero] at g1 ⊢
  rw [g1, List.take_append_drop]

example : ∃ w' shown, forEachChunk (fun _ => [])
    ⟨⟨[some [some 1, none]], some ⟨0, 1, 2⟩, [], 0, 0, 0, 2⟩, [(0, 0)]⟩ = .ok (w', shown) ∧ shown.flatten = [1] ∧ Leads w' [1] :=
  C136_for_each_chunk_partial [.setChunkSize 2, .push 1] [1] _ rfl rfl 1 2 rfl (by decide)

end Verif.Chunk.Ref
