import Verif.Chunk.MemLemmas

/-! Lemmas for loops over the chunks of a `chunked_buffer`. -/
namespace Verif.Chunk.Ref
open Spec (Shape room)

variable {α : Type}

/-- The chunks of `h` are still there in `h'`, with at least as many elements. -/
def Grows (h h' : Shape) : Prop :=
  ∃ more, h'.closed = h.closed ++ more ∧ ∀ n c, h.cur = some (n, c) →
    (more = [] ∧ ∃ n', n ≤ n' ∧ h'.cur = some (n', c)) ∨ ∃ n' rest, more = n' :: rest ∧ n ≤ n'

theorem Grows.refl (h : Shape) : Grows h h := ⟨[], by simp, fun n _ e => .inl ⟨rfl, n, Nat.le_refl _, e⟩⟩

theorem Grows.trans {a b c : Shape} (h1 : Grows a b) (h2 : Grows b c) : Grows a c := by
  obtain ⟨m1, e1, f1⟩ := h1
  obtain ⟨m2, e2, f2⟩ := h2
  refine ⟨m1 ++ m2, by rw [e2, e1, List.append_assoc], ?_⟩
  intro n k hk
  rcases f1 n k hk with ⟨rfl, n', hn, hc⟩ | ⟨n', rest, rfl, hn⟩
  · rcases f2 n' k hc with ⟨rfl, n2, hn2, hc2⟩ | ⟨n2, rest, rfl, hn2⟩
    · exact .inl ⟨rfl, n2, by omega, hc2⟩
    · exact .inr ⟨n2, rest, rfl, by omega⟩
  · exact .inr ⟨n', rest ++ m2, rfl, hn⟩

theorem grows_step (h : Shape) (op : Op α) : Grows h (h.step op) := by
  have hadd : Grows h h.add := by
    unfold Shape.add
    cases hc : h.cur with
    | none => exact ⟨[], by simp, fun n c e => by rw [hc] at e; cases e⟩
    | some x =>
      obtain ⟨n, c⟩ := x
      simp only
      by_cases e : n = c
      · rw [if_pos e]
        refine ⟨[n], rfl, fun n' c' e' => .inr ⟨n, [], rfl, ?_⟩⟩
        rw [hc] at e'; cases e'; exact Nat.le_refl _
      · rw [if_neg e]
        refine ⟨[], by simp, fun n' c' e' => .inl ⟨rfl, n + 1, ?_, ?_⟩⟩ <;> rw [hc] at e' <;> cases e'
        · omega
        · rfl
  cases op with
  | push a => exact hadd
  | pushCopy k => exact hadd
  | assign k a => exact Grows.refl h
  | setChunkSize n => exact ⟨[], by simp [Shape.step], fun n _ e => .inl ⟨rfl, n, Nat.le_refl _, e⟩⟩

theorem grows_run (ops : List (Op α)) : ∀ h : Shape, Grows h (h.run ops) := by
  induction ops with
  | nil => exact Grows.refl
  | cons op ops ih => intro h; exact (grows_step h op).trans (ih _)

theorem room_mono {a b : Nat} (h : a ≤ b) : room a ≤ room b ∧ moves a ≤ moves b ∧ (room a = room b ↔ moves a = moves b) := by
  induction b with
  | zero => have : a = 0 := by omega
            subst this; simp
  | succ b ih =>
    by_cases e : a = b + 1
    · subst e; simp
    · obtain ⟨h1, h2, h3⟩ := ih (by omega)
      by_cases hb : b < room b
      · simp only [room, moves, if_pos hb]
        exact ⟨h1, h2, h3⟩
      · simp only [room, moves, if_neg hb]
        have := room_ge b
        refine ⟨by omega, by omega, ?_⟩
        constructor <;> intro <;> omega

/-- What is in chunk number `k`. -/
theorem Inv.chunk {w : W α} {l : List α} {h : Shape} {F : List (List α)} {t : Option (List α × Nat)} (I : Inv w l h F t)
    {pre post : List Nat} {n : Nat} (hc : h.closed = pre ++ n :: post) (v : Nat) (hv : v ≤ n) (c : Chunk)
    (h1 : c.blk = pre.length) (h2 : c.head = v) : span w.s.mem c = .ok ((l.drop pre.sum).take v) := by
  rw [I.closed] at hc
  obtain ⟨A, X, rfl, e1, e2⟩ := List.map_eq_append_iff.1 hc
  obtain ⟨x, B, rfl, e3, e4⟩ := List.map_eq_cons_iff.1 e2
  have hl : (l.drop pre.sum).take v = x.take v := by
    rw [I.elems, ← e1, ← List.length_flatten]
    simp only [List.flatten_append, List.flatten_cons, List.append_assoc]
    rw [List.drop_left, List.take_append_of_le_length (by omega)]
  rw [hl, I.mem]
  have ha : all (A ++ x :: B) t = A.map (fun l => (l, 0)) ++ (x.take v ++ x.drop v, 0) :: (B.map (fun l => (l, 0)) ++ t.toList) := by
    simp [all]
  rw [ha]
  refine span_ok _ _ _ _ _ c ?_ ?_
  · rw [h1, ← e1]; simp
  · rw [h2]; simp; omega

/-- What is in the current chunk. -/
theorem Inv.current {w : W α} {l : List α} {h : Shape} {F : List (List α)} {t : Option (List α × Nat)} (I : Inv w l h F t)
    {n k : Nat} (hc : h.cur = some (n, k)) (v : Nat) (hv : v ≤ n) (c : Chunk)
    (h1 : c.blk = h.closed.length) (h2 : c.head = v) : span w.s.mem c = .ok ((l.drop h.closed.sum).take v) ∧
      l.length = h.closed.sum + n := by
  rw [I.cur] at hc
  cases t with
  | none => cases hc
  | some x =>
    obtain ⟨x, r⟩ := x
    simp only [Option.map_some, Option.some.injEq, Prod.mk.injEq] at hc
    have hl : l.drop h.closed.sum = x := by
      rw [I.elems, I.closed, ← List.length_flatten, List.drop_left]
      simp
    refine ⟨?_, ?_⟩
    · rw [hl, I.mem]
      have ha : all F (some (x, r)) = F.map (fun l => (l, 0)) ++ (x.take v ++ x.drop v, r) :: [] := by
        simp [all]
      rw [ha]
      refine span_ok _ _ _ _ _ c ?_ ?_
      · rw [h1, I.closed]; simp
      · rw [h2]; simp; omega
    · rw [I.elems, I.closed, ← List.length_flatten]
      simp [hc.1]

/-- The outcome of a loop and what it should be. -/
def Sim (r : R (W α × List (List α))) : R ((List α × Shape) × List (List α)) → Prop
  | .error f => r = .error f
  | .ok ((l, h), shown) => ∃ w F t, r = .ok (w, shown) ∧ Inv w l h F t

theorem overFull_ok (body : Body α) (n0 : Nat) (ns : List Nat) : ∀ {w : W α} {l : List α} {h h0 : Shape} {F : List (List α)}
    {t : Option (List α × Nat)} {pre post : List Nat} {shown : List (List α)}, Inv w l h F t → h.closed = pre ++ ns ++ post →
    n0 ≤ F.length → Grows h0 h →
    Sim (overFull body (moves n0) w pre.length shown ns.length) (Spec.overFull body (room n0) l h pre.sum shown ns) ∧
    ∀ l' h' s', Spec.overFull body (room n0) l h pre.sum shown ns = .ok ((l', h'), s') → Grows h0 h' := by
  induction ns with
  | nil =>
    intro w l h h0 F t pre post shown I _ _ hg
    exact ⟨⟨w, F, t, rfl, I⟩, fun l' h' s' e => by cases e; exact hg⟩
  | cons n ns ih =>
    intro w l h h0 F t pre post shown I hc hn hg
    have hlen : h.closed.length = F.length := by rw [I.closed]; simp
    obtain ⟨-, -, hm⟩ := room_mono hn
    unfold Spec.overFull
    simp only [List.length_cons]
    unfold overFull
    rw [I.arr, hlen]
    by_cases hr : room F.length = room n0
    · have hr' : moves F.length = moves n0 := (hm.1 hr.symm).symm
      simp only [hr, hr', ne_eq, not_true_eq_false, if_false]
      have hget : w.s.full[pre.length]? = some ⟨pre.length, n, n⟩ := by
        rw [I.full, chunksFrom_get, ← I.closed, hc]
        simp
      simp only [hget]
      rw [I.chunk (by rw [hc, List.append_assoc]; rfl) n (Nat.le_refl _) _ rfl rfl, R.ok_bind]
      have hrun := run_ok (body (shown ++ [(l.drop pre.sum).take n])) I
      cases hs : Spec.run l (body (shown ++ [(l.drop pre.sum).take n])) with
      | error f =>
        rw [hs] at hrun
        simp only at hrun
        rw [hrun]
        exact ⟨rfl, fun l' h' s' e => by cases e⟩
      | ok l1 =>
        rw [hs] at hrun
        obtain ⟨w1, F1, t1, -, e1, -, I1⟩ := hrun
        rw [e1, R.ok_bind, R.ok_bind]
        have hg1 := grows_run (body (shown ++ [(l.drop pre.sum).take n])) h
        obtain ⟨more, hmore, -⟩ := hg1
        have hc1 : (h.run (body (shown ++ [(l.drop pre.sum).take n]))).closed = (pre ++ [n]) ++ ns ++ (post ++ more) := by
          rw [hmore, hc]; simp
        have hn1 : n0 ≤ F1.length := by
          have a1 := congrArg List.length hmore
          have a2 := congrArg List.length I1.closed
          simp only [List.length_append, List.length_map] at a1 a2
          omega
        have := ih (shown := shown ++ [(l.drop pre.sum).take n]) I1 hc1 hn1 (hg.trans (grows_run _ h))
        simpa using this
    · have hr' : ¬ moves F.length = moves n0 := fun e => hr (hm.2 e.symm).symm
      simp only [ne_eq, hr, hr', not_false_eq_true, if_true]
      exact ⟨rfl, fun l' h' s' e => by cases e⟩

theorem loopChunks_ok (body : Body α) {w : W α} {l : List α} {h : Shape} {F : List (List α)} {t : Option (List α × Nat)}
    (I : Inv w l h F t) : Sim (loopChunks body w) (Spec.loopChunks body l h) := by
  have hlen : h.closed.length = F.length := by rw [I.closed]; simp
  have hfl : w.s.full.length = h.closed.length := by rw [I.full, chunksFrom_length, I.closed]
  obtain ⟨h1, h2⟩ := overFull_ok body F.length h.closed (pre := []) (post := []) (shown := []) I (by simp) (Nat.le_refl _) (Grows.refl h)
  unfold loopChunks Spec.loopChunks
  rw [I.arr, hfl, hlen, I.curr]
  rw [hlen] at h1
  simp only [List.length_nil, List.sum_nil] at h1 h2
  cases hs : Spec.overFull body (room F.length) l h 0 [] h.closed with
  | error f =>
    rw [hs] at h1
    have h1 : overFull body (moves F.length) w 0 [] F.length = .error f := h1
    rw [h1]
    rfl
  | ok q =>
    obtain ⟨⟨l1, h'⟩, shown⟩ := q
    rw [hs] at h1
    obtain ⟨w1, F1, t1, e1, I1⟩ := h1
    rw [e1, R.ok_bind, R.ok_bind]
    have hcur := I.cur
    obtain ⟨more, hmore, hg⟩ := h2 l1 h' shown hs
    cases t with
    | none =>
      simp only [Option.map_none] at hcur ⊢
      simp only [hcur]
      exact ⟨w1, F1, t1, rfl, I1⟩
    | some x =>
      obtain ⟨x, r⟩ := x
      simp only [Option.map_some] at hcur ⊢
      simp only [hcur]
      have hspan : span w1.s.mem ⟨F.length, x.length, x.length + r⟩ = .ok ((l1.drop h.closed.sum).take x.length) := by
        rcases hg _ _ hcur with ⟨rfl, n', hn', hc'⟩ | ⟨n', rest, rfl, hn'⟩
        · rw [List.append_nil] at hmore
          have := (I1.current hc' x.length hn' ⟨F.length, x.length, x.length + r⟩ (by rw [hmore, hlen]) rfl).1
          rw [hmore] at this
          exact this
        · exact I1.chunk hmore x.length hn' _ hlen.symm rfl
      rw [hspan, R.ok_bind]
      have hrun := run_ok (body (shown ++ [(l1.drop h.closed.sum).take x.length])) I1
      cases hr : Spec.run l1 (body (shown ++ [(l1.drop h.closed.sum).take x.length])) with
      | error f =>
        rw [hr] at hrun
        simp only at hrun
        rw [hrun]
        rfl
      | ok l2 =>
        rw [hr] at hrun
        obtain ⟨w2, F2, t2, -, e2, -, I2⟩ := hrun
        rw [e2]
        exact ⟨w2, F2, t2, rfl, I2⟩

theorem forEachChunk_ok (body : Body α) {w : W α} {l : List α} {h : Shape} {F : List (List α)} {t : Option (List α × Nat)}
    (I : Inv w l h F t) : Sim (forEachChunk body w) (Spec.forEachChunk body l h) := by
  have hlen : h.closed.length = F.length := by rw [I.closed]; simp
  have hfl : w.s.full.length = h.closed.length := by rw [I.full, chunksFrom_length, I.closed]
  obtain ⟨h1, -⟩ := overFull_ok body F.length h.closed (pre := []) (post := []) (shown := []) I (by simp) (Nat.le_refl _) (Grows.refl h)
  unfold forEachChunk Spec.forEachChunk
  rw [I.arr, hfl, hlen]
  rw [hlen] at h1
  simp only [List.length_nil, List.sum_nil] at h1
  cases hs : Spec.overFull body (room F.length) l h 0 [] h.closed with
  | error f =>
    rw [hs] at h1
    have h1 : overFull body (moves F.length) w 0 [] F.length = .error f := h1
    rw [h1]
    rfl
  | ok q =>
    obtain ⟨⟨l1, h'⟩, shown⟩ := q
    rw [hs] at h1
    obtain ⟨w1, F1, t1, e1, I1⟩ := h1
    rw [e1, R.ok_bind, R.ok_bind]
    have hcur := I1.cur
    have hwc := I1.curr
    cases t1 with
    | none =>
      simp only [Option.map_none] at hcur hwc
      simp only [hcur, hwc]
      exact ⟨w1, F1, none, rfl, I1⟩
    | some x =>
      obtain ⟨x, r⟩ := x
      simp only [Option.map_some] at hcur hwc
      simp only [hcur, hwc]
      cases r with
      | zero =>
        simp only [isValid, Nat.add_zero, bne_self_eq_false, Bool.false_eq_true, if_false, if_true]
        exact ⟨w1, F1, _, rfl, I1⟩
      | succ r =>
        have hv : isValid (some ⟨F1.length, x.length, x.length + (r + 1)⟩) = true := by simp [isValid]
        rw [if_pos hv, if_neg (by omega)]
        have hcl : h'.closed.length = F1.length := by rw [I1.closed]; simp
        obtain ⟨hspan, hl1⟩ := I1.current hcur x.length (Nat.le_refl _) ⟨F1.length, x.length, x.length + (r + 1)⟩ hcl.symm rfl
        have htk : (l1.drop h'.closed.sum).take x.length = l1.drop h'.closed.sum :=
          List.take_of_length_le (by rw [List.length_drop]; omega)
        rw [htk] at hspan
        rw [hspan, R.ok_bind]
        have hrun := run_ok (body (shown ++ [l1.drop h'.closed.sum])) I1
        cases hr : Spec.run l1 (body (shown ++ [l1.drop h'.closed.sum])) with
        | error f =>
          rw [hr] at hrun
          simp only at hrun
          rw [hrun]
          rfl
        | ok l2 =>
          rw [hr] at hrun
          obtain ⟨w2, F2, t2, -, e2, -, I2⟩ := hrun
          rw [e2]
          exact ⟨w2, F2, t2, rfl, I2⟩

end Verif.Chunk.Ref
