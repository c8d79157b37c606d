import Verif.Mem.Model

/-! Helper lemmas about the memory model. -/
namespace Verif.Mem

variable {α : Type}

/-! ### heaps -/

@[simp] theorem Heap.set_blocks_self (h : Heap α) (b : Nat) (s) : (h.set b s).blocks b = some s := by
  simp [Heap.set]
theorem Heap.set_blocks_ne (h : Heap α) {b x : Nat} (s) (hx : x ≠ b) : (h.set b s).blocks x = h.blocks x := by
  simp [Heap.set, hx]
@[simp] theorem Heap.set_next (h : Heap α) (b : Nat) (s) : (h.set b s).next = h.next := rfl
@[simp] theorem Heap.set_leaked (h : Heap α) (b : Nat) (s) : (h.set b s).leaked = h.leaked := rfl
@[simp] theorem Heap.unset_blocks_self (h : Heap α) (b : Nat) : (h.unset b).blocks b = none := by
  simp [Heap.unset]
theorem Heap.unset_blocks_ne (h : Heap α) {b x : Nat} (hx : x ≠ b) : (h.unset b).blocks x = h.blocks x := by
  simp [Heap.unset, hx]
@[simp] theorem Heap.unset_next (h : Heap α) (b : Nat) : (h.unset b).next = h.next := rfl
@[simp] theorem Heap.unset_leaked (h : Heap α) (b : Nat) : (h.unset b).leaked = h.leaked := rfl

@[simp] theorem Heap.set_set (h : Heap α) (b : Nat) (s t) : (h.set b s).set b t = h.set b t := by
  simp only [Heap.set]; congr 1; funext x; split <;> simp_all

theorem Heap.set_comm (h : Heap α) {b c : Nat} (s t) (hn : b ≠ c) :
    (h.set b s).set c t = (h.set c t).set b s := by
  simp only [Heap.set]; congr 1; funext x
  by_cases h1 : x = b <;> by_cases h2 : x = c <;> simp_all

@[simp] theorem Heap.set_unset (h : Heap α) (b : Nat) (s) : (h.set b s).unset b = h.unset b := by
  simp only [Heap.set, Heap.unset]; congr 1; funext x; split <;> simp_all

theorem Heap.set_self (h : Heap α) {b : Nat} {s} (hb : h.blocks b = some s) : h.set b s = h := by
  cases h with
  | mk bl n l =>
    simp only [Heap.set]
    congr 1
    funext x
    split
    · rename_i hx; rw [hx]; exact hb.symm
    · rfl

/-! ### single slots -/

theorem slots_ok {h : Heap α} {b : Nat} {s} (hb : h.blocks b = some s) : slots h (some b) = .ok s := by
  simp [slots, hb]

theorem get_mid {h : Heap α} {b i : Nat} {s pre post} {x : Slot α} (hb : h.blocks b = some s)
    (hs : s = pre ++ x :: post) (hi : i = pre.length) : get h (some b) i = .ok x := by
  subst hs; subst hi
  simp [get, slots_ok hb]

theorem put_mid {h : Heap α} {b i : Nat} {s pre post} {x : Slot α} (y : Slot α) (hb : h.blocks b = some s)
    (hs : s = pre ++ x :: post) (hi : i = pre.length) :
    put h (some b) i y = .ok (h.set b (pre ++ y :: post)) := by
  subst hs; subst hi
  simp [put, hb]

theorem construct_mid {triv : Bool} {h : Heap α} {b i : Nat} {s pre post} {x : Slot α} (a : α)
    (hb : h.blocks b = some s) (hs : s = pre ++ x :: post) (hi : i = pre.length)
    (hx : triv = true ∨ x.alive = false) :
    construct triv h (some b) i a = .ok (h.set b (pre ++ .live a :: post)) := by
  unfold construct
  rw [get_mid hb hs hi]
  simp only [R.ok_bind]
  rw [if_pos (by rcases hx with h | h <;> simp [h]), put_mid _ hb hs hi]

theorem destroy_mid {h : Heap α} {b i : Nat} {s pre post} {x : Slot α}
    (hb : h.blocks b = some s) (hs : s = pre ++ x :: post) (hi : i = pre.length) (hx : x.alive = true) :
    destroy h (some b) i = .ok (h.set b (pre ++ .raw :: post)) := by
  unfold destroy
  rw [get_mid hb hs hi]
  simp only [R.ok_bind]
  rw [if_pos hx, put_mid _ hb hs hi]

theorem read_mid {h : Heap α} {b i : Nat} {s pre post} {a : α}
    (hb : h.blocks b = some s) (hs : s = pre ++ .live a :: post) (hi : i = pre.length) :
    read h (some b) i = .ok a := by
  unfold read
  rw [get_mid hb hs hi]
  simp

theorem take_mid {h : Heap α} {b i : Nat} {s pre post} {a : α}
    (hb : h.blocks b = some s) (hs : s = pre ++ .live a :: post) (hi : i = pre.length) :
    take false h (some b) i = .ok (a, h.set b (pre ++ .moved :: post)) := by
  unfold take
  rw [read_mid hb hs hi]
  simp [put_mid _ hb hs hi]

theorem take_mid_triv {h : Heap α} {b i : Nat} {s pre post} {a : α}
    (hb : h.blocks b = some s) (hs : s = pre ++ .live a :: post) (hi : i = pre.length) :
    take true h (some b) i = .ok (a, h) := by
  unfold take
  rw [read_mid hb hs hi]
  simp

/-- What is left in a slot after moving from it. -/
def leftover (triv : Bool) (a : α) : Slot α := if triv then .live a else .moved

@[simp] theorem leftover_alive (triv : Bool) (a : α) : (leftover triv a).alive = true := by
  cases triv <;> rfl

theorem take_mid' {triv : Bool} {h : Heap α} {b i : Nat} {s pre post} {a : α}
    (hb : h.blocks b = some s) (hs : s = pre ++ .live a :: post) (hi : i = pre.length) :
    take triv h (some b) i = .ok (a, h.set b (pre ++ leftover triv a :: post)) := by
  cases triv with
  | false => exact take_mid hb hs hi
  | true =>
    rw [take_mid_triv hb hs hi]
    subst hs
    simp only [leftover, if_true]
    rw [Heap.set_self _ hb]

theorem assign_mid {h : Heap α} {b i : Nat} {s pre post} {x : Slot α} (a : α)
    (hb : h.blocks b = some s) (hs : s = pre ++ x :: post) (hi : i = pre.length) (hx : x.alive = true) :
    assign h (some b) i a = .ok (h.set b (pre ++ .live a :: post)) := by
  unfold assign
  rw [get_mid hb hs hi]
  simp only [R.ok_bind]
  rw [if_pos hx, put_mid _ hb hs hi]

/-- Move assignment to an earlier slot of the same block. -/
theorem moveAssign_down {triv : Bool} {h : Heap α} {b i j : Nat} {s pre mid post} {x : Slot α} {a : α}
    (hb : h.blocks b = some s) (hs : s = pre ++ x :: (mid ++ .live a :: post)) (hi : i = pre.length)
    (hj : j = pre.length + 1 + mid.length) (hx : x.alive = true) :
    moveAssign triv h (some b) i (some b) j =
      .ok (h.set b (pre ++ .live a :: (mid ++ leftover triv a :: post))) := by
  unfold moveAssign
  rw [if_neg (by omega)]
  rw [take_mid' (pre := pre ++ x :: mid) (a := a) (post := post) hb (by simp [hs]) (by simp; omega)]
  simp only [R.ok_bind]
  rw [assign_mid (pre := pre) (x := x) (post := mid ++ leftover triv a :: post) a (Heap.set_blocks_self _ _ _)
    (by simp) hi hx]
  simp

/-! ### allocation -/

theorem alloc_eq (h : Heap α) (n : Nat) :
    alloc h n = (some h.next, { (h.set h.next (List.replicate n .raw)) with next := h.next + 1 }) := rfl

theorem free_ok {triv : Bool} {h : Heap α} {b : Nat} {s} (hb : h.blocks b = some s)
    (hs : triv = true ∨ ∀ x ∈ s, x.alive = false) : free triv h (some b) = .ok (h.unset b) := by
  unfold free
  simp only [hb]
  have : (if triv = true then 0 else (s.filter Slot.alive).length) = 0 := by
    rcases hs with hs | hs
    · simp [hs]
    · split
      · rfl
      · rw [List.length_eq_zero_iff, List.filter_eq_nil_iff]
        intro x hx; simp [hs x hx]
  rw [this]
  rfl

/-- The heap after replacing block `p` by a fresh one with contents `s`. -/
def fresh (h : Heap α) (p : Ptr) (s : List (Slot α)) : Heap α :=
  match p with
  | none => { (h.set h.next s) with next := h.next + 1 }
  | some b => { ((h.unset b).set h.next s) with next := h.next + 1 }

@[simp] theorem fresh_next (h : Heap α) (p : Ptr) (s) : (fresh h p s).next = h.next + 1 := by
  cases p <;> rfl
@[simp] theorem fresh_leaked (h : Heap α) (p : Ptr) (s) : (fresh h p s).leaked = h.leaked := by
  cases p <;> rfl
@[simp] theorem fresh_blocks_new (h : Heap α) (p : Ptr) (s) : (fresh h p s).blocks h.next = some s := by
  cases p <;> simp [fresh, Heap.set]
theorem fresh_blocks_old (h : Heap α) {p : Ptr} {x : Nat} (s) (hx : x ≠ h.next) (hp : p ≠ some x) :
    (fresh h p s).blocks x = h.blocks x := by
  cases p with
  | none => simp [fresh, Heap.set, hx]
  | some b =>
    have : x ≠ b := fun e => hp (by rw [e])
    simp [fresh, Heap.set, Heap.unset, hx, this]
theorem fresh_blocks_freed (h : Heap α) {b : Nat} (s) (hb : b ≠ h.next) :
    (fresh h (some b) s).blocks b = none := by
  simp [fresh, Heap.set, Heap.unset, hb]
theorem fresh_set (h : Heap α) (p : Ptr) (s t) : (fresh h p s).set h.next t = fresh h p t := by
  cases p with
  | none => simp only [fresh, Heap.set]; congr 1; funext x; split <;> simp_all
  | some b => simp only [fresh, Heap.set, Heap.unset]; congr 1; funext x; split <;> simp_all

theorem memmove_ok {h : Heap α} {b c i j n : Nat} {s t : List (Slot α)} (hb : h.blocks b = some s)
    (hc : h.blocks c = some t) (h1 : i + n ≤ s.length) (h2 : j + n ≤ t.length) :
    memmove h (some b) i (some c) j n = .ok (h.set b (s.take i ++ (t.drop j).take n ++ s.drop (i + n))) := by
  unfold memmove
  rw [slots_ok hb, slots_ok hc]
  simp only [R.ok_bind]
  rw [if_pos ⟨h2, h1⟩]

theorem memcpy_ok {h : Heap α} {b c i j n : Nat} {s t : List (Slot α)} (hb : h.blocks b = some s)
    (hc : h.blocks c = some t) (hbc : b ≠ c) (h1 : i + n ≤ s.length) (h2 : j + n ≤ t.length) :
    memcpy h (some b) i (some c) j n = .ok (h.set b (s.take i ++ (t.drop j).take n ++ s.drop (i + n))) := by
  unfold memcpy
  rw [if_neg (by intro hh; exact hbc (Option.some.inj hh.1)), memmove_ok hb hc h1 h2]

theorem realloc_none (h : Heap α) {n : Nat} (hn : 0 < n) :
    realloc h none n = .ok (some h.next, fresh h none (List.replicate n .raw)) := by
  unfold realloc
  rw [if_neg (by omega)]
  rfl

theorem realloc_ok {h : Heap α} {b n : Nat} {s : List (Slot α)} (hb : h.blocks b = some s) (hbn : b < h.next)
    (hn : 0 < n) :
    realloc h (some b) n =
      .ok (some h.next, fresh h (some b) (s.take n ++ List.replicate (n - s.length) .raw)) := by
  unfold realloc
  rw [if_neg (by omega), alloc_eq]
  simp only
  have hb' : ({ (h.set h.next (List.replicate n .raw)) with next := h.next + 1 } : Heap α).blocks b = some s := by
    simp [Heap.set, Nat.ne_of_lt hbn, hb]
  have hc' : ({ (h.set h.next (List.replicate n .raw)) with next := h.next + 1 } : Heap α).blocks h.next =
      some (List.replicate n .raw) := by simp [Heap.set]
  rw [slots_ok hb']
  simp only [R.ok_bind]
  rw [memcpy_ok hc' hb' (by omega) (by simp; omega) (by omega)]
  simp only [R.ok_bind]
  rw [free_ok (s := s) (by rw [Heap.set_blocks_ne _ _ (by omega)]; exact hb') (Or.inl rfl)]
  simp only [R.ok_bind]
  congr 2
  have hs : (List.replicate n (Slot.raw : Slot α)).take 0 ++ (s.drop 0).take (min s.length n) ++
      (List.replicate n .raw).drop (0 + min s.length n) = s.take n ++ List.replicate (n - s.length) .raw := by
    simp only [List.take_zero, List.drop_zero, List.nil_append, Nat.zero_add, List.drop_replicate]
    congr 1
    · rw [Nat.min_comm, ← List.take_take, List.take_length]
    · congr 1; omega
  rw [hs]
  simp only [fresh, Heap.set, Heap.unset]
  congr 1
  funext x
  by_cases h1 : x = b
  · subst h1; simp [Nat.ne_of_lt hbn]
  · by_cases h2 : x = h.next
    · subst h2; simp [h1]
    · simp [h1, h2]

theorem realloc_zero {h : Heap α} {p : Ptr} (hp : ∀ b, p = some b → ∃ s, h.blocks b = some s) :
    realloc h p 0 = .ok (none, match p with | none => h | some b => h.unset b) := by
  unfold realloc
  rw [if_pos rfl]
  cases p with
  | none => rfl
  | some b =>
    obtain ⟨s, hs⟩ := hp b rfl
    rw [free_ok hs (Or.inl rfl)]; rfl

/-! ### loops -/

/-- Slots that may be constructed over. -/
def Free (triv : Bool) (l : List (Slot α)) : Prop := triv = true ∨ ∀ x ∈ l, x = .raw

theorem Free.replicate (triv : Bool) (n : Nat) : Free triv (List.replicate n (.raw : Slot α)) :=
  Or.inr fun _ hx => List.eq_of_mem_replicate hx

theorem Free.nil (triv : Bool) : Free triv ([] : List (Slot α)) := Or.inr (by simp)

theorem Free.append {triv : Bool} {l m : List (Slot α)} (hl : Free triv l) (hm : Free triv m) :
    Free triv (l ++ m) := by
  rcases hl with hl | hl
  · exact Or.inl hl
  · rcases hm with hm | hm
    · exact Or.inl hm
    · right; intro x hx
      rcases List.mem_append.1 hx with h | h
      · exact hl x h
      · exact hm x h

theorem Free.of_subset {triv : Bool} {l m : List (Slot α)} (hl : Free triv l) (h : ∀ x ∈ m, x ∈ l) :
    Free triv m := by
  rcases hl with hl | hl
  · exact Or.inl hl
  · exact Or.inr fun x hx => hl x (h x hx)

theorem Free.head {triv : Bool} {x : Slot α} {l} (h : Free triv (x :: l)) : triv = true ∨ x.alive = false := by
  rcases h with h | h
  · exact Or.inl h
  · right; rw [h x (by simp)]; rfl

theorem Free.tail {triv : Bool} {x : Slot α} {l} (h : Free triv (x :: l)) : Free triv l :=
  h.of_subset (by intro y hy; simp [hy])

theorem Free.dead {l : List (Slot α)} (h : Free false l) : ∀ x ∈ l, x.alive = false := by
  rcases h with h | h
  · simp at h
  · intro x hx; rw [h x hx]; rfl

theorem Free.eq_replicate {l : List (Slot α)} (h : Free false l) : l = List.replicate l.length .raw := by
  rcases h with h | h
  · simp at h
  · exact List.eq_replicate_of_mem h

theorem moveConstructLoop_ok (l : List α) : ∀ {h : Heap α} {s d i : Nat} {pre1 post1 pre2 mid2 post2 : List (Slot α)} {ss dd},
    s ≠ d → h.blocks s = some ss → ss = pre1 ++ (l.map .live ++ post1) →
    h.blocks d = some dd → dd = pre2 ++ (mid2 ++ post2) → mid2.length = l.length → Free false mid2 →
    i = pre1.length → i = pre2.length →
    moveConstructLoop h (some s) (some d) i l.length =
      .ok ((h.set s (pre1 ++ (List.replicate l.length .moved ++ post1))).set d (pre2 ++ (l.map .live ++ post2))) := by
  induction l with
  | nil =>
    intro h s d i pre1 post1 pre2 mid2 post2 ss dd hsd hs hss hd hdd hlen hf hi1 hi2
    have : mid2 = [] := by simpa using hlen
    subst this
    simp only [List.length_nil, moveConstructLoop, List.map_nil, List.nil_append, List.replicate] at *
    subst hss; subst hdd
    rw [Heap.set_self h hs, Heap.set_self h hd]
  | cons a l ih =>
    intro h s d i pre1 post1 pre2 mid2 post2 ss dd hsd hs hss hd hdd hlen hf hi1 hi2
    cases mid2 with
    | nil => simp at hlen
    | cons x mid2 =>
      simp only [List.length_cons, moveConstructLoop]
      rw [take_mid (pre := pre1) (post := l.map .live ++ post1) (a := a) hs (by simp [hss]) hi1]
      simp only [R.ok_bind]
      rw [construct_mid (triv := false) (s := dd) (pre := pre2) (post := mid2 ++ post2) (x := x) a
        (by rw [Heap.set_blocks_ne _ _ (Ne.symm hsd)]; exact hd) (by simp [hdd]) hi2 hf.head]
      simp only [R.ok_bind]
      rw [ih (pre1 := pre1 ++ [.moved]) (post1 := post1) (pre2 := pre2 ++ [.live a]) (mid2 := mid2) (post2 := post2)
        hsd (by rw [Heap.set_blocks_ne _ _ hsd]; exact Heap.set_blocks_self _ _ _) (by simp)
        (Heap.set_blocks_self _ _ _) (by simp) (by simpa using hlen) hf.tail (by simp; omega) (by simp; omega)]
      congr 1
      rw [Heap.set_comm _ _ _ (Ne.symm hsd)]
      simp [List.replicate_succ]

/-- A source of values that is not in block `d`. -/
def SrcOK (h : Heap α) (d : Nat) (src : Src α) (l : List α) : Prop :=
  match src with
  | .ext l' => l' = l
  | .mem p off => l ≠ [] → ∃ b pre post, p = some b ∧ b ≠ d ∧ off = pre.length ∧
      h.blocks b = some (pre ++ (l.map .live ++ post))

theorem SrcOK.read {h h' : Heap α} {d : Nat} {src : Src α} {l : List α} (hs : SrcOK h d src l)
    (hh : ∀ x, x ≠ d → h'.blocks x = h.blocks x) {i : Nat} {a : α} (ha : l[i]? = some a) :
    readSrc h' src i = .ok a := by
  cases src with
  | ext l' => simp only [SrcOK] at hs; subst hs; simp [readSrc, ha]
  | mem p off =>
    obtain ⟨b, pre, post, rfl, hbd, hoff, hb⟩ := hs (by intro h0; subst h0; simp at ha)
    rw [List.getElem?_eq_some_iff] at ha
    obtain ⟨hi, ha⟩ := ha
    have hsplit : l = l.take i ++ a :: l.drop (i + 1) := by
      rw [← ha, List.getElem_cons_drop hi, List.take_append_drop]
    rw [← hh b hbd] at hb
    apply read_mid (pre := pre ++ (l.take i).map .live) (post := (l.drop (i + 1)).map .live ++ post) hb
    · conv => lhs; rw [hsplit]
      simp
    · simp; omega

theorem copyConstructLoop_ok {triv : Bool} {src : Src α} (l : List α) : ∀ (k : Nat) {h h0 : Heap α} {d d0 i : Nat}
    {pre mid post : List (Slot α)} {dd}, SrcOK h0 d src l → (∀ x, x ≠ d → h.blocks x = h0.blocks x) →
    i + k = l.length →
    h.blocks d = some dd → dd = pre ++ (mid ++ post) → mid.length = k → Free triv mid →
    d0 + i = pre.length →
    copyConstructLoop triv h src (some d) d0 i k = .ok (h.set d (pre ++ ((l.drop i).map .live ++ post))) := by
  intro k
  induction k with
  | zero =>
    intro h h0 d d0 i pre mid post dd hsrc hsame hik hd hdd hlen hf hpre
    have : mid = [] := by simpa using hlen
    subst this
    have hdrop : l.drop i = [] := by simp; omega
    simp only [copyConstructLoop, hdrop, List.map_nil, List.nil_append] at *
    subst hdd
    rw [Heap.set_self h hd]
  | succ k ih =>
    intro h h0 d d0 i pre mid post dd hsrc hsame hik hd hdd hlen hf hpre
    cases mid with
    | nil => simp at hlen
    | cons x mid =>
      have hi : i < l.length := by omega
      simp only [copyConstructLoop]
      rw [hsrc.read hsame (List.getElem?_eq_getElem hi)]
      simp only [R.ok_bind]
      rw [construct_mid (pre := pre) (post := mid ++ post) (x := x) _ hd (by simp [hdd]) hpre hf.head]
      simp only [R.ok_bind]
      rw [ih (h0 := h0) (pre := pre ++ [.live l[i]]) (mid := mid) (post := post) hsrc
        (by intro y hy; rw [Heap.set_blocks_ne _ _ hy]; exact hsame y hy) (by omega)
        (Heap.set_blocks_self _ _ _) (by simp) (by simpa using hlen) hf.tail (by simp; omega)]
      congr 1
      rw [Heap.set_set]
      congr 1
      have := List.getElem_cons_drop hi
      rw [← this, List.map_cons]
      simp only [List.append_assoc, List.cons_append, List.nil_append]

theorem copyConstructRange_zero (triv : Bool) (h : Heap α) (src : Src α) (p : Ptr) (d : Nat) :
    copyConstructRange triv h src 0 p d = .ok h := by
  unfold copyConstructRange
  cases triv <;> simp [copyConstructLoop]

theorem copyConstructRange_ok {triv : Bool} {src : Src α} {l : List α} {h : Heap α} {d d0 : Nat}
    {pre mid post : List (Slot α)} {dd} (hsrc : SrcOK h d src l)
    (hd : h.blocks d = some dd) (hdd : dd = pre ++ (mid ++ post)) (hlen : mid.length = l.length)
    (hf : Free triv mid) (hpre : d0 = pre.length) :
    copyConstructRange triv h src l.length (some d) d0 = .ok (h.set d (pre ++ (l.map .live ++ post))) := by
  have hloop : ∀ tr, Free tr mid → copyConstructLoop tr h src (some d) d0 0 l.length =
      .ok (h.set d (pre ++ (l.map .live ++ post))) := by
    intro tr hf
    have := copyConstructLoop_ok (triv := tr) (src := src) l l.length (h := h) (h0 := h) (d := d) (d0 := d0) (i := 0)
      (pre := pre) (mid := mid) (post := post) hsrc (fun _ _ => rfl) (by omega) hd hdd hlen hf (by omega)
    simpa using this
  unfold copyConstructRange
  cases triv with
  | false => simpa using hloop false hf
  | true =>
    by_cases h0 : l = []
    · subst h0
      have : mid = [] := by simpa using hlen
      subst this
      simp only [List.length_nil, Nat.lt_irrefl, gt_iff_lt, if_true, if_false, List.map_nil, List.nil_append] at *
      subst hdd
      rw [Heap.set_self h hd]
    · have hpos : l.length > 0 := by
        cases l with
        | nil => simp at h0
        | cons => simp
      simp only [if_true, hpos]
      cases src with
      | ext l' => simpa using hloop true (Or.inl rfl)
      | mem p off =>
        obtain ⟨b, pre', post', rfl, hbd, hoff, hb⟩ := hsrc h0
        simp only
        rw [memcpy_ok hd hb (Ne.symm hbd) (by subst hdd; simp; omega) (by simp; omega)]
        congr 2
        subst hdd; subst hoff; subst hpre
        simp only [List.drop_left]
        rw [List.take_append_of_le_length (by simp : pre.length ≤ pre.length), List.take_length,
          List.take_append_of_le_length (by simp), List.take_of_length_le (by simp), List.append_assoc]
        congr 2
        rw [← List.append_assoc, List.drop_append_of_le_length (by simp; omega), List.drop_of_length_le (by simp; omega)]
        simp

theorem fillLoop_ok {triv : Bool} (a : α) (k : Nat) : ∀ {h : Heap α} {d i : Nat}
    {pre mid post : List (Slot α)} {dd}, h.blocks d = some dd → dd = pre ++ (mid ++ post) → mid.length = k →
    Free triv mid → i = pre.length →
    fillLoop triv h (some d) a i k = .ok (h.set d (pre ++ (List.replicate k (.live a) ++ post))) := by
  induction k with
  | zero =>
    intro h d i pre mid post dd hd hdd hlen hf hi
    have : mid = [] := by simpa using hlen
    subst this
    simp only [fillLoop, List.replicate, List.nil_append] at *
    subst hdd
    rw [Heap.set_self h hd]
  | succ k ih =>
    intro h d i pre mid post dd hd hdd hlen hf hi
    cases mid with
    | nil => simp at hlen
    | cons x mid =>
      simp only [fillLoop]
      rw [construct_mid (pre := pre) (post := mid ++ post) (x := x) _ hd (by simp [hdd]) hi hf.head]
      simp only [R.ok_bind]
      rw [ih (pre := pre ++ [.live a]) (mid := mid) (post := post)
        (Heap.set_blocks_self _ _ _) (by simp) (by simpa using hlen) hf.tail (by simp; omega)]
      simp [List.replicate_succ]

theorem destroyLoop_ok (mid : List (Slot α)) : ∀ {h : Heap α} {d lo k : Nat}
    {pre post : List (Slot α)} {dd}, h.blocks d = some dd → dd = pre ++ (mid ++ post) → mid.length = k →
    (∀ x ∈ mid, x.alive = true) → lo = pre.length →
    destroyLoop h (some d) lo k = .ok (h.set d (pre ++ (List.replicate k .raw ++ post))) := by
  intro h d lo k
  induction k generalizing h mid with
  | zero =>
    intro pre post dd hd hdd hlen _ hi
    have : mid = [] := by simpa using hlen
    subst this
    simp only [destroyLoop, List.replicate, List.nil_append] at *
    subst hdd
    rw [Heap.set_self h hd]
  | succ k ih =>
    intro pre post dd hd hdd hlen hal hi
    have hne : mid ≠ [] := by intro h0; subst h0; simp at hlen
    have hsplit : mid = mid.dropLast ++ [mid.getLast hne] := (List.dropLast_concat_getLast hne).symm
    simp only [destroyLoop]
    rw [destroy_mid (pre := pre ++ mid.dropLast) (x := mid.getLast hne) (post := post) hd
      (by rw [hdd]; conv => lhs; rw [hsplit]
          simp) (by simp [hlen]; omega) (hal _ (List.getLast_mem hne))]
    simp only [R.ok_bind]
    rw [ih mid.dropLast (pre := pre) (post := .raw :: post) (Heap.set_blocks_self _ _ _) (by simp) (by simp [hlen])
      (fun x hx => hal x (List.dropLast_subset _ hx)) hi]
    simp only [Heap.set_set]
    congr 3
    rw [List.replicate_succ']
    simp

theorem destroyReverse_zero (triv : Bool) (h : Heap α) (p : Ptr) (n m : Nat) (hn : n ≤ m) :
    destroyReverse triv h p n m = .ok h := by
  unfold destroyReverse
  have : n - m = 0 := by omega
  cases triv <;> simp [this, destroyLoop]

/-- The contents of the destroyed slots afterwards. -/
def destroyed (triv : Bool) (mid : List (Slot α)) : List (Slot α) :=
  if triv then mid else List.replicate mid.length .raw

@[simp] theorem destroyed_length (triv : Bool) (mid : List (Slot α)) : (destroyed triv mid).length = mid.length := by
  cases triv <;> simp [destroyed]

theorem destroyed_free (triv : Bool) (mid : List (Slot α)) : Free triv (destroyed triv mid) := by
  cases triv with
  | false => exact Free.replicate _ _
  | true => exact Or.inl rfl

theorem destroyReverse_ok {triv : Bool} {mid : List (Slot α)} {h : Heap α} {d lo k : Nat}
    {pre post : List (Slot α)} {dd} (hd : h.blocks d = some dd) (hdd : dd = pre ++ (mid ++ post))
    (hk : k = lo + mid.length) (hal : ∀ x ∈ mid, x.alive = true) (hlo : lo = pre.length) :
    destroyReverse triv h (some d) k lo = .ok (h.set d (pre ++ (destroyed triv mid ++ post))) := by
  unfold destroyReverse
  cases triv with
  | true =>
    simp only [if_true, destroyed]
    subst hdd
    rw [Heap.set_self h hd]
  | false =>
    simp only [Bool.false_eq_true, if_false, destroyed]
    have : k - lo = mid.length := by omega
    rw [this]
    exact destroyLoop_ok mid hd hdd rfl hal hlo

theorem relocateLoop_ok (l : List α) : ∀ {h : Heap α} {d src n k : Nat} {pre post : List (Slot α)} {dd},
    h.blocks d = some dd → dd = pre ++ (l.map .live ++ (List.replicate n .raw ++ post)) → l.length = k → 0 < n →
    src = pre.length →
    relocateLoop h (some d) (src + n) src k =
      .ok (h.set d (pre ++ (List.replicate n .raw ++ (l.map .live ++ post)))) := by
  intro h d src n k
  induction k generalizing h l with
  | zero =>
    intro pre post dd hd hdd hlen _ hi
    have : l = [] := by simpa using hlen
    subst this
    simp only [relocateLoop, List.map_nil, List.nil_append] at *
    subst hdd
    rw [Heap.set_self h hd]
  | succ k ih =>
    intro pre post dd hd hdd hlen hn hi
    have hne : l ≠ [] := by intro h0; subst h0; simp at hlen
    have hsplit : l = l.dropLast ++ [l.getLast hne] := (List.dropLast_concat_getLast hne).symm
    obtain ⟨m, rfl⟩ : ∃ m, n = m + 1 := ⟨n - 1, by omega⟩
    simp only [relocateLoop]
    rw [take_mid (pre := pre ++ l.dropLast.map .live) (a := l.getLast hne)
      (post := List.replicate (m + 1) .raw ++ post) hd
      (by rw [hdd]; conv => lhs; rw [hsplit]
          simp) (by simp [hlen]; omega)]
    simp only [R.ok_bind]
    rw [construct_mid (triv := false) (pre := pre ++ l.dropLast.map .live ++ (.moved :: List.replicate m .raw))
      (x := .raw) (post := post) (l.getLast hne) (Heap.set_blocks_self _ _ _)
      (by simp [List.replicate_succ']) (by simp [hlen]; omega) (Or.inr rfl)]
    simp only [R.ok_bind]
    rw [destroy_mid (pre := pre ++ l.dropLast.map .live) (x := .moved)
      (post := List.replicate m .raw ++ (.live (l.getLast hne) :: post)) (Heap.set_blocks_self _ _ _)
      (by simp) (by simp [hlen]; omega) rfl]
    simp only [R.ok_bind]
    rw [ih l.dropLast (pre := pre) (post := .live (l.getLast hne) :: post) (Heap.set_blocks_self _ _ _)
      (by simp [List.replicate_succ]) (by simp [hlen]) hn hi]
    simp only [Heap.set_set]
    congr 4
    conv => rhs; rw [hsplit]
    simp

theorem relocateRange_ok {triv : Bool} {l : List α} {h : Heap α} {d src n : Nat}
    {pre mid post : List (Slot α)} {dd} (hd : h.blocks d = some dd)
    (hdd : dd = pre ++ (l.map .live ++ (mid ++ post))) (hn : mid.length = n) (hpos : 0 < n)
    (hf : Free triv mid) (hsrc : src = pre.length) :
    ∃ mid', mid'.length = n ∧ Free triv mid' ∧
    relocateRange triv h (some d) (src + n) src l.length =
      .ok (h.set d (pre ++ (mid' ++ (l.map .live ++ post)))) := by
  cases triv with
  | false =>
    refine ⟨List.replicate n .raw, by simp, Free.replicate _ _, ?_⟩
    have hm := hf.eq_replicate
    rw [hn] at hm
    simp only [relocateRange, Bool.false_eq_true, if_false]
    exact relocateLoop_ok l hd (by rw [hdd, hm]) rfl hpos hsrc
  | true =>
    by_cases h0 : l = []
    · subst h0
      refine ⟨mid, hn, Or.inl rfl, ?_⟩
      subst hdd
      simp only [relocateRange, if_true, List.length_nil, gt_iff_lt, Nat.lt_irrefl, if_false, List.map_nil,
        List.nil_append] at *
      rw [Heap.set_self h hd]
    · have hposl : l.length > 0 := by
        cases l with
        | nil => simp at h0
        | cons => simp
      refine ⟨(l.map Slot.live ++ mid).take n, by simp; omega, Or.inl rfl, ?_⟩
      simp only [relocateRange, if_true, hposl]
      rw [memmove_ok hd hd (by subst hdd; simp; omega) (by subst hdd; simp; omega)]
      congr 2
      subst hdd; subst hsrc
      have hA : (pre ++ (l.map Slot.live ++ (mid ++ post))).take (pre.length + n) =
          pre ++ (l.map Slot.live ++ mid).take n := by
        rw [List.take_length_add_append, ← List.append_assoc (l.map Slot.live),
          List.take_append_of_le_length (l₁ := l.map Slot.live ++ mid) (by simp; omega)]
      have hB : ((pre ++ (l.map Slot.live ++ (mid ++ post))).drop pre.length).take l.length = l.map Slot.live := by
        rw [List.drop_left, List.take_append_of_le_length (by simp), List.take_of_length_le (by simp)]
      have hC : (pre ++ (l.map Slot.live ++ (mid ++ post))).drop (pre.length + n + l.length) = post := by
        have : pre ++ (l.map Slot.live ++ (mid ++ post)) = (pre ++ (l.map Slot.live ++ mid)) ++ post := by simp
        rw [this, List.drop_append_of_le_length (by simp; omega), List.drop_of_length_le (by simp; omega)]
        rfl
      rw [hA, hB, hC]
      simp

end Verif.Mem
