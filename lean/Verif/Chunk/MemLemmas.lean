import Verif.Chunk.MemSpec

/-! Lemmas for the references into a `chunked_buffer`. -/
namespace Verif.Chunk.Ref
open Spec (Shape room)

variable {α : Type}

/-- The addresses of the elements of chunks with the given sizes, in blocks `i`, `i + 1`, … -/
def locs (i : Nat) : List Nat → List Ptr
  | [] => []
  | n :: ns => (List.range n).map (fun j => (i, j)) ++ locs (i + 1) ns

/-- The full chunks with the given sizes in blocks `i`, `i + 1`, … -/
def chunksFrom (i : Nat) : List Nat → List Chunk
  | [] => []
  | n :: ns => ⟨i, n, n⟩ :: chunksFrom (i + 1) ns

/-- How often the array of chunks has moved after `n` times `push_back`. -/
def moves : Nat → Nat
  | 0 => 0
  | n + 1 => if n < room n then moves n else moves n + 1

theorem locs_append (i : Nat) (a b : List Nat) : locs i (a ++ b) = locs i a ++ locs (i + a.length) b := by
  induction a generalizing i with
  | nil => rfl
  | cons n a ih =>
    simp only [List.cons_append, locs, ih, List.append_assoc, List.length_cons]
    rw [show i + 1 + a.length = i + (a.length + 1) by omega]

theorem locs_length (i : Nat) (a : List Nat) : (locs i a).length = a.sum := by
  induction a generalizing i with
  | nil => rfl
  | cons n a ih => simp [locs, ih]

theorem locs_ge {i : Nat} {a : List Nat} {p : Ptr} (h : p ∈ locs i a) : i ≤ p.1 := by
  induction a generalizing i with
  | nil => cases h
  | cons n a ih =>
    simp only [locs, List.mem_append, List.mem_map, List.mem_range] at h
    rcases h with ⟨j, -, rfl⟩ | h
    · exact Nat.le_refl _
    · have := ih h; omega

theorem locs_nodup (i : Nat) (a : List Nat) : (locs i a).Nodup := by
  induction a generalizing i with
  | nil => exact List.nodup_nil
  | cons n a ih =>
    simp only [locs]
    rw [List.nodup_append]
    refine ⟨?_, ih _, ?_⟩
    · rw [List.nodup_iff_pairwise_ne]
      rw [List.pairwise_map]
      exact List.nodup_range.imp fun h e => h (by cases e; rfl)
    · intro p hp q hq e
      simp only [List.mem_map, List.mem_range] at hp
      obtain ⟨j, -, rfl⟩ := hp
      subst e
      have := locs_ge hq
      simp only at this
      omega

theorem chunksFrom_append (i : Nat) (a b : List Nat) : chunksFrom i (a ++ b) = chunksFrom i a ++ chunksFrom (i + a.length) b := by
  induction a generalizing i with
  | nil => rfl
  | cons n a ih =>
    simp only [List.cons_append, chunksFrom, ih, List.length_cons]
    rw [show i + 1 + a.length = i + (a.length + 1) by omega]

theorem chunksFrom_length (i : Nat) (a : List Nat) : (chunksFrom i a).length = a.length := by
  induction a generalizing i with
  | nil => rfl
  | cons n a ih => simp [chunksFrom, ih]

theorem chunksFrom_get (i : Nat) (a : List Nat) (k : Nat) : (chunksFrom i a)[k]? = a[k]?.map fun n => ⟨i + k, n, n⟩ := by
  induction a generalizing i k with
  | nil => rfl
  | cons n a ih =>
    cases k with
    | zero => rfl
    | succ k =>
      simp only [chunksFrom, List.getElem?_cons_succ, ih]
      rw [show i + 1 + k = i + (k + 1) by omega]

/-- Where the element with number `k` is. -/
theorem locate {F : List (List α)} {i k : Nat} {p : Ptr} (h : (locs i (F.map List.length))[k]? = some p) :
    ∃ A u y v B, F = A ++ (u ++ y :: v) :: B ∧ p = (i + A.length, u.length) ∧ k = A.flatten.length + u.length := by
  induction F generalizing i k with
  | nil => cases h
  | cons l F ih =>
    simp only [List.map_cons, locs] at h
    rw [List.getElem?_append] at h
    simp only [List.length_map, List.length_range] at h
    split at h
    · next hk =>
      rw [List.getElem?_map, List.getElem?_range hk] at h
      simp only [Option.map_some, Option.some.injEq] at h
      subst h
      refine ⟨[], l.take k, l[k], l.drop (k + 1), F, ?_, ?_, ?_⟩
      · simp
      · simp [Nat.min_eq_left (Nat.le_of_lt hk)]
      · simp [Nat.min_eq_left (Nat.le_of_lt hk)]
    · next hk =>
      obtain ⟨A, u, y, v, B, rfl, rfl, e⟩ := ih h
      refine ⟨l :: A, u, y, v, B, rfl, ?_, ?_⟩
      · simp only [List.length_cons]; rw [show i + 1 + A.length = i + (A.length + 1) by omega]
      · simp only [List.flatten_cons, List.length_append]; omega

/-- The memory of chunks: their elements and the room that is left. -/
def memOf (G : List (List α × Nat)) : Mem α := G.map fun x => some (x.1.map some ++ List.replicate x.2 none)

theorem memOf_append (A B : List (List α × Nat)) : memOf (A ++ B) = memOf A ++ memOf B := List.map_append

theorem memOf_length (A : List (List α × Nat)) : (memOf A).length = A.length := List.length_map ..

theorem memOf_get (A : List (List α × Nat)) (x : List α × Nat) (B : List (List α × Nat)) :
    (memOf (A ++ x :: B))[A.length]? = some (some (x.1.map some ++ List.replicate x.2 none)) := by
  simp [memOf]

theorem memOf_set (A : List (List α × Nat)) (x y : List α × Nat) (B : List (List α × Nat)) :
    (memOf (A ++ x :: B)).set A.length (some (y.1.map some ++ List.replicate y.2 none)) = memOf (A ++ y :: B) := by
  simp only [memOf, List.map_append, List.map_cons]
  rw [List.set_append_right _ _ (by simp)]
  simp

theorem load_ok (A : List (List α × Nat)) (u : List α) (y : α) (v : List α) (r : Nat) (B : List (List α × Nat)) :
    load (memOf (A ++ (u ++ y :: v, r) :: B)) (A.length, u.length) = .ok y := by
  unfold load
  rw [memOf_get]
  simp

theorem store_ok (A : List (List α × Nat)) (u : List α) (y : α) (v : List α) (r : Nat) (B : List (List α × Nat)) (a : α) :
    store (memOf (A ++ (u ++ y :: v, r) :: B)) (A.length, u.length) a = .ok (memOf (A ++ (u ++ a :: v, r) :: B)) := by
  unfold store
  simp only
  rw [memOf_get]
  have e : (((u ++ y :: v).map some ++ List.replicate r none : List (Option α)))[u.length]? = some (some y) := by simp
  simp only [e]
  have e2 : ((u ++ y :: v).map some ++ List.replicate r none).set u.length (some a) =
      ((u ++ a :: v).map some ++ List.replicate r none : List (Option α)) := by
    simp
  rw [e2]
  exact congrArg Except.ok (memOf_set A (u ++ y :: v, r) (u ++ a :: v, r) B)

theorem construct_ok (A : List (List α × Nat)) (l : List α) (r : Nat) (B : List (List α × Nat)) (a : α) :
    construct (memOf (A ++ (l, r + 1) :: B)) (A.length, l.length) a = .ok (memOf (A ++ (l ++ [a], r) :: B)) := by
  unfold construct
  simp only
  rw [memOf_get]
  have e : (l.map some ++ List.replicate (r + 1) none : List (Option α))[l.length]? = some none := by simp
  simp only [e]
  have e2 : (l.map some ++ List.replicate (r + 1) none).set l.length (some a) =
      ((l ++ [a]).map some ++ List.replicate r none : List (Option α)) := by
    rw [List.replicate_succ]
    simp
  rw [e2]
  exact congrArg Except.ok (memOf_set A (l, r + 1) (l ++ [a], r) B)

theorem readFrom_ok (A : List (List α × Nat)) (r : Nat) (B : List (List α × Nat)) (v : List α) : ∀ (u x : List α),
    readFrom (memOf (A ++ (u ++ (v ++ x), r) :: B)) A.length u.length v.length = .ok v := by
  induction v with
  | nil => intro u x; rfl
  | cons y v ih =>
    intro u x
    simp only [List.length_cons, readFrom]
    have e := load_ok A u y (v ++ x) r B
    rw [List.cons_append, e, R.ok_bind]
    have h := ih (u ++ [y]) x
    simp only [List.length_append, List.length_singleton, List.append_assoc, List.singleton_append] at h
    rw [h]
    rfl

theorem span_ok (A : List (List α × Nat)) (v x : List α) (r : Nat) (B : List (List α × Nat)) (c : Chunk) (h1 : c.blk = A.length)
    (h2 : c.head = v.length) : span (memOf (A ++ (v ++ x, r) :: B)) c = .ok v := by
  unfold span
  rw [h1, h2]
  exact readFrom_ok A r B v [] x

/-- All chunks. -/
def all (F : List (List α)) (t : Option (List α × Nat)) : List (List α × Nat) := F.map (fun l => (l, 0)) ++ t.toList

/-- The buffer has the full chunks `F` and the current chunk `t`, with its room. -/
structure Inv (w : W α) (l : List α) (h : Shape) (F : List (List α)) (t : Option (List α × Nat)) : Prop where
  mem : w.s.mem = memOf (all F t)
  full : w.s.full = chunksFrom 0 (F.map List.length)
  curr : w.s.curr = t.map fun x => ⟨F.length, x.1.length, x.1.length + x.2⟩
  refs : w.refs = locs 0 (F.map List.length ++ t.toList.map fun x => x.1.length)
  null : t = none → F = []
  fullSize : w.s.fullSize = F.flatten.length
  next : w.s.chunkSize = h.next
  pos : 0 < h.next
  cap : w.s.cap = room F.length
  arr : w.s.arr = moves F.length
  closed : h.closed = F.map List.length
  cur : h.cur = t.map fun x => (x.1.length, x.1.length + x.2)
  elems : l = F.flatten ++ (t.toList.map fun x => x.1).flatten

theorem inv_empty : Inv (⟨St.empty, []⟩ : W α) [] Shape.empty [] none :=
  ⟨rfl, rfl, rfl, rfl, fun _ => rfl, rfl, rfl, by simp [Shape.empty], rfl, rfl, rfl, rfl, rfl⟩

theorem room_ge (n : Nat) : n ≤ room n := by
  induction n with
  | zero => exact Nat.le_refl _
  | succ n ih => unfold room; split <;> omega

/-- The references lead to the elements. -/
theorem Inv.find {w : W α} {l : List α} {h : Shape} {F : List (List α)} {t : Option (List α × Nat)} (I : Inv w l h F t) {k : Nat}
    {p : Ptr} (hk : w.refs[k]? = some p) : ∃ A u y v r B, all F t = A ++ (u ++ y :: v, r) :: B ∧ p = (A.length, u.length) ∧
      l[k]? = some y ∧ ∀ a, ∃ F' t', all F' t' = A ++ (u ++ a :: v, r) :: B ∧ F'.map List.length = F.map List.length ∧
        F'.flatten.length = F.flatten.length ∧
        (t'.map fun x => (x.1.length, x.2)) = (t.map fun x => (x.1.length, x.2)) ∧
        l.set k a = F'.flatten ++ (t'.toList.map fun x => x.1).flatten := by
  rw [I.refs, locs_append, List.getElem?_append] at hk
  have hl := I.elems
  split at hk
  · obtain ⟨A, u, y, v, B, rfl, rfl, e⟩ := locate hk
    refine ⟨A.map (fun l => (l, 0)), u, y, v, 0, B.map (fun l => (l, 0)) ++ t.toList, ?_, ?_, ?_, ?_⟩
    · simp [all]
    · simp
    · rw [hl, e]
      rw [show (A ++ (u ++ y :: v) :: B).flatten = (A.flatten ++ u) ++ (y :: v ++ B.flatten) by simp]
      rw [List.append_assoc, List.getElem?_append_right (by simp)]
      simp
    · intro a
      refine ⟨A ++ (u ++ a :: v) :: B, t, ?_, ?_, ?_, rfl, ?_⟩
      · simp [all]
      · simp
      · simp
      · rw [hl, e]
        rw [show (A ++ (u ++ y :: v) :: B).flatten = (A.flatten ++ u) ++ (y :: v ++ B.flatten) by simp]
        rw [show (A ++ (u ++ a :: v) :: B).flatten = (A.flatten ++ u) ++ (a :: v ++ B.flatten) by simp]
        rw [List.append_assoc, List.set_append_right _ _ (by simp)]
        simp
  · next hge =>
    cases t with
    | none => simp [locs] at hk
    | some x =>
      obtain ⟨c, r⟩ := x
      have hk' : (locs (0 + F.length) (([c] : List (List α)).map List.length))[k - (locs 0 (F.map List.length)).length]? = some p := by
        simpa using hk
      obtain ⟨A, u, y, v, B, e1, rfl, e⟩ := locate hk'
      have hA : A = [] ∧ u ++ y :: v = c ∧ B = [] := by
        cases A with
        | nil => simp only [List.nil_append, List.cons.injEq] at e1; exact ⟨rfl, e1.1.symm, e1.2.symm⟩
        | cons z A => simp at e1
      obtain ⟨rfl, rfl, rfl⟩ := hA
      have hlen : (locs 0 (F.map List.length)).length = F.flatten.length := by
        rw [locs_length, List.length_flatten]
      have e' : k = F.flatten.length + u.length := by
        rw [hlen] at e hge
        simp only [List.flatten_nil, List.length_nil, Nat.zero_add] at e
        omega
      clear e hk hk'
      subst e'
      refine ⟨F.map (fun l => (l, 0)), u, y, v, r, [], ?_, ?_, ?_, ?_⟩
      · simp [all]
      · simp
      · rw [hl]; simp
      · intro a
        refine ⟨F, some (u ++ a :: v, r), ?_, rfl, rfl, ?_, ?_⟩
        · simp [all]
        · simp
        · rw [hl]; simp

theorem Inv.refs_length {w : W α} {l : List α} {h : Shape} {F : List (List α)} {t : Option (List α × Nat)} (I : Inv w l h F t) :
    w.refs.length = l.length := by
  rw [I.refs, locs_length, I.elems]
  cases t <;> simp [List.length_flatten]

theorem Inv.load {w : W α} {l : List α} {h : Shape} {F : List (List α)} {t : Option (List α × Nat)} (I : Inv w l h F t) {k : Nat}
    {p : Ptr} (hk : w.refs[k]? = some p) : ∃ a, l[k]? = some a ∧ load w.s.mem p = .ok a := by
  obtain ⟨A, u, y, v, r, B, e, rfl, hy, -⟩ := I.find hk
  exact ⟨y, hy, by rw [I.mem, e]; exact load_ok A u y v r B⟩

theorem Inv.assign {w : W α} {l : List α} {h : Shape} {F : List (List α)} {t : Option (List α × Nat)} (I : Inv w l h F t) {k : Nat}
    {p : Ptr} (hk : w.refs[k]? = some p) (a : α) : ∃ m F' t', store w.s.mem p a = .ok m ∧
      Inv { w with s := { w.s with mem := m } } (l.set k a) h F' t' := by
  obtain ⟨A, u, y, v, r, B, e, rfl, -, hs⟩ := I.find hk
  obtain ⟨F', t', e', hF, hFl, ht, hl⟩ := hs a
  refine ⟨_, F', t', by rw [I.mem, e]; exact store_ok A u y v r B a, ?_⟩
  have hlen : F'.length = F.length := by simpa using congrArg List.length hF
  have ht1 : (t'.toList.map fun x => x.1.length) = (t.toList.map fun x => x.1.length) := by
    cases t <;> cases t' <;> simp_all
  have ht2 : (t'.map fun x => (x.1.length, x.1.length + x.2)) = (t.map fun x => (x.1.length, x.1.length + x.2)) := by
    cases t <;> cases t' <;> simp_all
  refine ⟨by rw [e'], by rw [hF]; exact I.full, ?_, by rw [hF, ht1]; exact I.refs, ?_, by rw [hFl]; exact I.fullSize, I.next, I.pos,
    by rw [hlen]; exact I.cap, by rw [hlen]; exact I.arr, by rw [hF]; exact I.closed, by rw [ht2]; exact I.cur, hl⟩
  · have := I.curr
    rw [hlen]
    simp only
    rw [this]
    cases t <;> cases t' <;> simp_all
  · intro hn
    subst hn
    cases t with
    | some x => simp at ht
    | none =>
      have := I.null rfl
      subst this
      exact List.length_eq_zero_iff.1 hlen

/-- The state after the first half of `emplace_back`, before the element is made. -/
theorem Inv.prepare {w : W α} {l : List α} {h : Shape} {F : List (List α)} {t : Option (List α × Nat)} (I : Inv w l h F t) :
    ∃ F' c r, isValid (prepare w.s).curr = true ∧ (prepare w.s).curr = some ⟨F'.length, c.length, c.length + (r + 1)⟩ ∧
      ∀ a m, m = memOf (all F' (some (c, r + 1))) → (prepare w.s).mem = m ∧ (∀ p b, Ref.load w.s.mem p = .ok b → Ref.load m p = .ok b) ∧
      Inv { s := { prepare w.s with mem := memOf (all F' (some (c ++ [a], r))),
                                    curr := some ⟨F'.length, c.length + 1, c.length + (r + 1)⟩ },
            refs := w.refs ++ [(F'.length, c.length)] } (l ++ [a]) h.add F' (some (c ++ [a], r)) := by
  have hext : ∀ (m : Mem α) (x) p b, Ref.load m p = .ok b → Ref.load (m ++ [x]) p = .ok b := by
    intro m x p b hp
    unfold Ref.load at hp ⊢
    cases hm : m[p.1]? with
    | none => rw [hm] at hp; cases hp
    | some o =>
      rw [hm] at hp
      obtain ⟨hlt, -⟩ := List.getElem?_eq_some_iff.1 hm
      rw [List.getElem?_append_left hlt, hm]
      exact hp
  obtain ⟨I1, I2, I3, I4, I5, I6, I7, I8, I9, I10, I11, I12, I13⟩ := I
  obtain ⟨⟨mem, curr, full, arr, cap, fs, cs⟩, refs⟩ := w
  obtain ⟨closed, cur, next⟩ := h
  simp only at I1 I2 I3 I4 I5 I6 I7 I8 I9 I10 I11 I12 I13
  subst I1 I2 I3 I4 I6 I7 I9 I10 I11 I12 I13
  obtain ⟨n, rfl⟩ : ∃ n, cs = n + 1 := ⟨cs - 1, by omega⟩
  cases t with
  | none =>
    have := I5 rfl
    subst this
    refine ⟨[], [], n, ?_, ?_, ?_⟩
    · simp [Ref.prepare, isValid, alloc]
    · simp [Ref.prepare, isValid, alloc, memOf, all]
    · rintro a m rfl
      refine ⟨?_, ?_, ?_⟩
      · simp [Ref.prepare, isValid, alloc, memOf, all]
      · intro p b hp
        simp [Ref.load, memOf, all] at hp
      · refine ⟨rfl, ?_, ?_, ?_, by simp, ?_, ?_, I8, ?_, ?_, ?_, ?_, ?_⟩ <;>
          simp [Ref.prepare, isValid, alloc, locs, chunksFrom, Shape.add, moves, room]
        all_goals omega
  | some x =>
    obtain ⟨c, r⟩ := x
    cases r with
    | succ r =>
      refine ⟨F, c, r, ?_, ?_, ?_⟩
      · simp [Ref.prepare, isValid]
      · simp [Ref.prepare, isValid]
      · rintro a m rfl
        refine ⟨?_, fun p b hp => hp, ?_⟩
        · simp [Ref.prepare, isValid]
        · refine ⟨rfl, ?_, ?_, ?_, by simp, ?_, ?_, ?_, ?_, ?_, ?_, ?_, ?_⟩ <;>
            simp [Ref.prepare, isValid, Shape.add]
          · omega
          · rw [locs_append, locs_append]
            simp [locs, List.range_succ]
          · omega
    | zero =>
      have hr := room_ge F.length
      have hp : Ref.prepare (⟨memOf (all F (some (c, 0))), some ⟨F.length, c.length, c.length + 0⟩, chunksFrom 0 (F.map List.length),
          moves F.length, room F.length, F.flatten.length, n + 1⟩ : St α) =
          ⟨memOf (all F (some (c, 0))) ++ [some (List.replicate (n + 1) none)], some ⟨F.length + 1, 0, n + 1⟩,
            chunksFrom 0 (F.map List.length) ++ [⟨F.length, c.length, c.length⟩], moves (F.length + 1), room (F.length + 1),
            F.flatten.length + c.length, n + 1⟩ := by
        have hl : (memOf (all F (some (c, 0)))).length = F.length + 1 := by rw [memOf_length]; simp [all]
        by_cases hc : F.length = room F.length
        · have h0 : ¬ F.length < room F.length := by omega
          have h1 : room (F.length + 1) = if room F.length = 0 then 1 else 2 * room F.length := by
            simp only [room, if_neg h0]; split <;> omega
          have h2 : moves (F.length + 1) = moves F.length + 1 := by simp only [moves, if_neg h0]
          rw [h1, h2]
          simp only [Ref.prepare, isValid, alloc, pushChunk, chunksFrom_length, List.length_map, Nat.add_zero, bne_self_eq_false,
            Bool.not_false, if_true, if_pos hc, hl]
        · have h0 : F.length < room F.length := by omega
          have h1 : room (F.length + 1) = room F.length := by simp only [room, if_pos h0]
          have h2 : moves (F.length + 1) = moves F.length := by simp only [moves, if_pos h0]
          rw [h1, h2]
          simp only [Ref.prepare, isValid, alloc, pushChunk, chunksFrom_length, List.length_map, Nat.add_zero, bne_self_eq_false,
            Bool.not_false, if_true, if_neg hc, hl]
      have hmem : memOf (all F (some (c, 0))) ++ [some (List.replicate (n + 1) none)] = memOf (all (F ++ [c]) (some ([], n + 1))) := by
        simp [memOf, all]
      simp only [Option.map_some]
      rw [hp]
      refine ⟨F ++ [c], [], n, ?_, ?_, ?_⟩
      · simp [isValid]
      · simp
      · rintro a m rfl
        refine ⟨hmem, ?_, ?_⟩
        · intro p b hp
          rw [← hmem]
          exact hext _ _ p b hp
        · refine ⟨rfl, ?_, ?_, ?_, by simp, ?_, ?_, ?_, ?_, ?_, ?_, ?_, ?_⟩
          · simp [chunksFrom_append, chunksFrom]
          · simp; omega
          · simp [locs_append, locs]
          · simp
          · simp [Shape.add]
          · simp [Shape.add]
          · simp
          · simp
          · simp [Shape.add]
          · simp [Shape.add]; omega
          · simp

theorem Inv.emplace {w : W α} {l : List α} {h : Shape} {F : List (List α)} {t : Option (List α × Nat)} (I : Inv w l h F t)
    {x : Arg α} {a : α} (hx : x.get w.s.mem = .ok a) :
    ∃ p s F' t', emplaceBack w.s x = .ok (p, s) ∧ Inv { s, refs := w.refs ++ [p] } (l ++ [a]) h.add F' t' := by
  obtain ⟨F', c, r, h1, h2, h3⟩ := I.prepare
  obtain ⟨h4, h5, h6⟩ := h3 a _ rfl
  refine ⟨(F'.length, c.length), _, F', _, ?_, h6⟩
  unfold emplaceBack
  simp only
  rw [ccAssert_true h1, h2]
  have hx' : x.get (Ref.prepare w.s).mem = .ok a := by
    rw [h4]
    cases x with
    | val b => exact hx
    | ref p => exact h5 p a hx
  simp only [pure_bind, R.ok_bind]
  rw [hx', R.ok_bind, h4]
  have e := construct_ok (F'.map fun l => (l, 0)) c r [] a
  simp only [List.length_map] at e
  simp only [all, Option.toList]
  rw [e]
  rfl

/-- One call. -/
theorem step_ok {w : W α} {l : List α} {h : Shape} {F : List (List α)} {t : Option (List α × Nat)} (I : Inv w l h F t) (op : Op α) :
    match Spec.step l op with
    | .error f => step w op = .error f
    | .ok l' => ∃ w' F' t' r, step w op = .ok w' ∧ w'.refs = w.refs ++ r ∧ Inv w' l' (h.step op) F' t' := by
  have hnone : ∀ k : Nat, w.refs[k]? = none ↔ l[k]? = none := by
    intro k
    rw [List.getElem?_eq_none_iff, List.getElem?_eq_none_iff, I.refs_length]
  cases op with
  | push a =>
    obtain ⟨p, s, F', t', e, I'⟩ := I.emplace (x := .val a) rfl
    exact ⟨_, F', t', [p], by simp only [step]; rw [e]; rfl, rfl, I'⟩
  | pushCopy k =>
    cases hk : w.refs[k]? with
    | none =>
      have := (hnone k).1 hk
      simp only [Spec.step, step, this, hk]
    | some q =>
      obtain ⟨a, ha, hl⟩ := I.load hk
      obtain ⟨p, s, F', t', e, I'⟩ := I.emplace (x := .ref q) hl
      simp only [Spec.step, ha]
      exact ⟨_, F', t', [p], by simp only [step, hk]; rw [e]; rfl, rfl, I'⟩
  | assign k a =>
    cases hk : w.refs[k]? with
    | none =>
      have := (hnone k).1 hk
      rw [List.getElem?_eq_none_iff] at this
      simp only [Spec.step, step, hk, if_neg (Nat.not_lt.2 this)]
    | some q =>
      obtain ⟨m, F', t', e, I'⟩ := I.assign hk a
      have hlt : k < l.length := by
        rw [← I.refs_length]
        exact (List.getElem?_eq_some_iff.1 hk).1
      simp only [Spec.step, if_pos hlt]
      exact ⟨_, F', t', [], by simp only [step, hk]; rw [e]; rfl, by simp, I'⟩
  | setChunkSize n =>
    simp only [Spec.step]
    by_cases hn : n = 0
    · subst hn; rfl
    · rw [if_neg hn]
      refine ⟨{ w with s := { w.s with chunkSize := n } }, F, t, [], ?_, by simp, ?_⟩
      · simp only [step, setChunkSize]
        rw [ccAssert_true (by simp; omega)]
        rfl
      · exact ⟨I.mem, I.full, I.curr, I.refs, I.null, I.fullSize, rfl, by simp only [Shape.step]; omega, I.cap, I.arr, I.closed, I.cur,
          I.elems⟩

/-- A history. -/
theorem run_ok (ops : List (Op α)) : ∀ {w : W α} {l : List α} {h : Shape} {F : List (List α)} {t : Option (List α × Nat)},
    Inv w l h F t →
    match Spec.run l ops with
    | .error f => run w ops = .error f
    | .ok l' => ∃ w' F' t' r, run w ops = .ok w' ∧ w'.refs = w.refs ++ r ∧ Inv w' l' (h.run ops) F' t' := by
  induction ops with
  | nil => intro w l h F t I; exact ⟨w, F, t, [], rfl, by simp, I⟩
  | cons op ops ih =>
    intro w l h F t I
    have hs := step_ok I op
    simp only [Spec.run, run]
    cases hst : Spec.step l op with
    | error f =>
      rw [hst] at hs
      simp only at hs
      rw [hs]
      simp only [R.error_bind]
    | ok l1 =>
      rw [hst] at hs
      obtain ⟨w1, F1, t1, r1, e1, er, I1⟩ := hs
      simp only [R.ok_bind]
      have hr := ih I1
      rw [e1]
      simp only [R.ok_bind]
      cases hsr : Spec.run l1 ops with
      | error f => rw [hsr] at hr; exact hr
      | ok l2 =>
        rw [hsr] at hr
        obtain ⟨w2, F2, t2, r2, e2, er2, I2⟩ := hr
        exact ⟨w2, F2, t2, r1 ++ r2, e2, by rw [er2, er, List.append_assoc], I2⟩

end Verif.Chunk.Ref
