import Verif.Vector.Model
import Verif.Mem.Lemmas

/-! Helper lemmas for vector: single operations. -/
namespace Verif.Vector
open Verif.Mem

variable {α : Type}

/-- Vector object `v` holds exactly the list `l`. -/
def Owns (T : Ty α) (h : Heap α) (v : Vec) (l : List α) : Prop :=
  v.size = l.length ∧
  ((v.data = none ∧ v.cap = 0 ∧ l = []) ∨
   ∃ b tail, v.data = some b ∧ b < h.next ∧ h.blocks b = some (l.map .live ++ tail) ∧ Free T.triv tail ∧
     v.cap = l.length + tail.length)

/-- Blocks that have not been allocated yet are not there. -/
def WF (h : Heap α) : Prop := ∀ x, h.next ≤ x → h.blocks x = none

/-- Only the block `p` is touched; it becomes `p'`. -/
structure Frame (h : Heap α) (p : Ptr) (h' : Heap α) (p' : Ptr) : Prop where
  next : h.next ≤ h'.next
  keep : ∀ x, x < h.next → p ≠ some x → h'.blocks x = h.blocks x
  gone : ∀ x, h'.blocks x ≠ none → p' = some x ∨ (p ≠ some x ∧ x < h.next)
  ptr : p' = p ∨ p' = none ∨ ∃ x, h.next ≤ x ∧ p' = some x
  wf : WF h'

theorem Frame.refl {h : Heap α} (hw : WF h) (p : Ptr) : Frame h p h p where
  next := Nat.le_refl _
  keep := fun _ _ _ => rfl
  gone := by
    intro x hx
    by_cases hp : p = some x
    · exact Or.inl hp
    · refine Or.inr ⟨hp, ?_⟩
      rcases Nat.lt_or_ge x h.next with h1 | h1
      · exact h1
      · exact absurd (hw x h1) hx
  ptr := Or.inl rfl
  wf := hw

theorem Frame.trans {h h1 h2 : Heap α} {p p1 p2 : Ptr} (f : Frame h p h1 p1) (g : Frame h1 p1 h2 p2) :
    Frame h p h2 p2 where
  next := Nat.le_trans f.next g.next
  keep := by
    intro x hx hp
    have : p1 ≠ some x := by
      intro h0
      rcases f.ptr with h1 | h1 | ⟨y, hy, h1⟩
      · exact hp (h1 ▸ h0)
      · rw [h1] at h0; simp at h0
      · rw [h1] at h0; simp at h0; omega
    rw [g.keep x (Nat.lt_of_lt_of_le hx f.next) this, f.keep x hx hp]
  gone := by
    intro x hx
    rcases g.gone x hx with h0 | ⟨h0, hlt⟩
    · exact Or.inl h0
    · right
      rw [g.keep x hlt h0] at hx
      rcases f.gone x hx with h3 | h3
      · exact absurd h3 h0
      · exact h3
  ptr := by
    have hn := f.next
    rcases g.ptr with h0 | h0 | ⟨x, hx, h0⟩
    · rcases f.ptr with h1 | h1 | ⟨y, hy, h1⟩
      · exact Or.inl (h0.trans h1)
      · exact Or.inr (Or.inl (h0.trans h1))
      · exact Or.inr (Or.inr ⟨y, hy, h0.trans h1⟩)
    · exact Or.inr (Or.inl h0)
    · exact Or.inr (Or.inr ⟨x, by omega, h0⟩)
  wf := g.wf

theorem Frame.set {h : Heap α} (hw : WF h) {b : Nat} (hb : b < h.next) (s) :
    Frame h (some b) (h.set b s) (some b) where
  next := Nat.le_refl _
  keep := by
    intro x _ hp
    rw [Heap.set_blocks_ne]
    intro h0; exact hp (by rw [h0])
  gone := by
    intro x hx
    by_cases h0 : x = b
    · exact Or.inl (by rw [h0])
    · right
      rw [Heap.set_blocks_ne _ _ h0] at hx
      refine ⟨by simpa using Ne.symm h0, ?_⟩
      rcases Nat.lt_or_ge x h.next with h1 | h1
      · exact h1
      · exact absurd (hw x h1) hx
  ptr := Or.inl rfl
  wf := by
    intro x hx
    rw [Heap.set_next] at hx
    rw [Heap.set_blocks_ne _ _ (by omega)]
    exact hw x hx

theorem Frame.fresh {h : Heap α} (hw : WF h) {p : Ptr} (hp : ∀ b, p = some b → b < h.next) (s) :
    Frame h p (fresh h p s) (some h.next) where
  next := by simp
  keep := by
    intro x hx hp
    exact fresh_blocks_old h s (by omega) hp
  gone := by
    intro x hx
    by_cases h0 : x = h.next
    · exact Or.inl (by rw [h0])
    · right
      by_cases h1 : p = some x
      · subst h1
        rw [fresh_blocks_freed h s h0] at hx
        exact absurd rfl hx
      · rw [fresh_blocks_old h s h0 h1] at hx
        refine ⟨h1, ?_⟩
        rcases Nat.lt_or_ge x h.next with h1 | h1
        · exact h1
        · exact absurd (hw x h1) hx
  ptr := Or.inr (Or.inr ⟨_, Nat.le_refl _, rfl⟩)
  wf := by
    intro x hx
    rw [fresh_next] at hx
    by_cases h1 : p = some x
    · have := hp x h1; omega
    · rw [fresh_blocks_old h s (by omega) h1]
      exact hw x (by omega)

/-- Free block `p` without replacement. -/
def dropBlock (h : Heap α) (p : Ptr) : Heap α :=
  match p with
  | none => h
  | some b => h.unset b

@[simp] theorem dropBlock_next (h : Heap α) (p : Ptr) : (dropBlock h p).next = h.next := by
  cases p <;> rfl
@[simp] theorem dropBlock_leaked (h : Heap α) (p : Ptr) : (dropBlock h p).leaked = h.leaked := by
  cases p <;> rfl

theorem Frame.drop {h : Heap α} (hw : WF h) (p : Ptr) : Frame h p (dropBlock h p) none where
  next := by simp
  keep := by
    intro x hx hp
    cases p with
    | none => rfl
    | some b => exact Heap.unset_blocks_ne _ (by intro h0; exact hp (by rw [h0]))
  gone := by
    intro x hx
    right
    cases p with
    | none =>
      refine ⟨by simp, ?_⟩
      rcases Nat.lt_or_ge x h.next with h1 | h1
      · exact h1
      · exact absurd (hw x h1) hx
    | some b =>
      by_cases h0 : x = b
      · subst h0; simp [dropBlock] at hx
      · refine ⟨by simpa using Ne.symm h0, ?_⟩
        simp only [dropBlock] at hx
        rw [Heap.unset_blocks_ne _ h0] at hx
        rcases Nat.lt_or_ge x h.next with h1 | h1
        · exact h1
        · exact absurd (hw x h1) hx
  ptr := Or.inr (Or.inl rfl)
  wf := by
    intro x hx
    rw [dropBlock_next] at hx
    cases p with
    | none => exact hw x hx
    | some b =>
      simp only [dropBlock]
      by_cases h0 : x = b
      · subst h0; simp
      · rw [Heap.unset_blocks_ne _ h0]; exact hw x hx

theorem Owns.lt {T : Ty α} {h : Heap α} {v : Vec} {l} (o : Owns T h v l) : ∀ b, v.data = some b → b < h.next := by
  intro b hb
  rcases o.2 with ⟨h1, -⟩ | ⟨b', _, h1, h2, -⟩
  · rw [h1] at hb; simp at hb
  · rw [h1] at hb
    have := Option.some.inj hb
    omega

theorem Owns.size_le {T : Ty α} {h : Heap α} {v : Vec} {l} (o : Owns T h v l) : v.size ≤ v.cap := by
  obtain ⟨o1, ⟨-, h2, h3⟩ | ⟨b, tail, -, -, -, -, h2⟩⟩ := o
  · subst h3; simp at o1; omega
  · omega

/-- Outcome of an operation on one vector: it succeeds, the vector afterwards holds `l`, nothing else is touched
and no destructor is skipped. -/
def Done (T : Ty α) (h : Heap α) (v : Vec) (l : List α) (r : R (Heap α × Vec)) : Prop :=
  ∃ h' v', r = .ok (h', v') ∧ Owns T h' v' l ∧ Frame h v.data h' v'.data ∧ h'.leaked = h.leaked

theorem Done.refl {T : Ty α} {h : Heap α} (hw : WF h) {v : Vec} {l} (o : Owns T h v l) :
    Done T h v l (.ok (h, v)) := ⟨h, v, rfl, o, Frame.refl hw _, rfl⟩

theorem Done.bind {T : Ty α} {h : Heap α} {v : Vec} {l l' : List α} {r : R (Heap α × Vec)}
    {f : Heap α × Vec → R (Heap α × Vec)} (hr : Done T h v l r)
    (hf : ∀ h' v', r = .ok (h', v') → Owns T h' v' l → WF h' → Done T h' v' l' (f (h', v'))) :
    Done T h v l' (r >>= f) := by
  obtain ⟨h1, v1, e, o, fr, lk⟩ := hr
  obtain ⟨h2, v2, e2, o2, fr2, lk2⟩ := hf h1 v1 e o fr.wf
  refine ⟨h2, v2, by rw [e]; exact e2, o2, fr.trans fr2, lk2.trans lk⟩

/-- Result of an in-place change of the block. -/
theorem Done.inPlace {T : Ty α} {h : Heap α} (hw : WF h) {v w : Vec} {b : Nat} {l : List α} {tail} (hd : v.data = some b)
    (hb : b < h.next) (hf : Free T.triv tail) (hwd : w.data = some b) (hws : w.size = l.length)
    (hwc : w.cap = l.length + tail.length) :
    Done T h v l (.ok (h.set b (l.map .live ++ tail), w)) := by
  refine ⟨_, _, rfl, ⟨hws, Or.inr ⟨b, tail, hwd, hb, by simp, hf, hwc⟩⟩, ?_, rfl⟩
  rw [hd, hwd]
  exact Frame.set hw hb _

/-- Result of a change to a fresh block. -/
theorem Done.fresh {T : Ty α} {h : Heap α} (hw : WF h) {v : Vec} (hp : ∀ b, v.data = some b → b < h.next)
    {l : List α} {tail} (hf : Free T.triv tail) {n c : Nat} (hc : c = l.length + tail.length) (hn : n = l.length) :
    Done T h v l (.ok (fresh h v.data (l.map .live ++ tail), { data := some h.next, size := n, cap := c })) := by
  subst hn
  exact ⟨_, _, rfl, ⟨rfl, Or.inr ⟨h.next, tail, rfl, by simp, by simp, hf, hc⟩⟩, Frame.fresh hw hp _, by simp⟩

/-! ### moving to a new block -/

/-- The heap after allocating a block and constructing something in it. -/
def withNew (h : Heap α) (s : List (Slot α)) : Heap α := { (h.set h.next s) with next := h.next + 1 }

theorem alloc_withNew (h : Heap α) (n : Nat) : alloc h n = (some h.next, withNew h (List.replicate n .raw)) := rfl

@[simp] theorem withNew_new (h : Heap α) (s) : (withNew h s).blocks h.next = some s := by
  simp [withNew, Heap.set]
theorem withNew_old (h : Heap α) (s) {x : Nat} (hx : x ≠ h.next) : (withNew h s).blocks x = h.blocks x := by
  simp [withNew, Heap.set, hx]
theorem withNew_set (h : Heap α) (s t) : (withNew h s).set h.next t = withNew h t := by
  simp only [withNew, Heap.set]; congr 1; funext x; split <;> simp_all
theorem withNew_unset (h : Heap α) (s) {b : Nat} (hb : b ≠ h.next) : (withNew h s).unset b = fresh h (some b) s := by
  simp only [withNew, fresh, Heap.set, Heap.unset]
  congr 1; funext x
  by_cases h1 : x = b
  · subst h1; simp [hb]
  · simp [h1]

theorem relocate_ok {T : Ty α} {h : Heap α} {v : Vec} {l : List α} (o : Owns T h v l) (X : List (Slot α)) :
    (do
      let h ← moveConstructRange T.triv (withNew h (List.replicate l.length Slot.raw ++ X)) v.data v.size (some h.next)
      let h ← destroyReverse T.triv h v.data v.size
      free T.triv h v.data) = .ok (fresh h v.data (l.map Slot.live ++ X)) := by
  obtain ⟨hsz, ⟨hd, hc, hl⟩ | ⟨b, tail, hd, hb, hblk, hf, hc⟩⟩ := o
  · subst hl
    rw [hd, hsz]
    have h1 : moveConstructRange T.triv (withNew h (List.replicate ([] : List α).length Slot.raw ++ X)) none ([] : List α).length
        (some h.next) = .ok (withNew h X) := by
      unfold moveConstructRange
      cases T.triv <;> simp [moveConstructLoop]
    rw [h1]
    simp only [R.ok_bind]
    rw [destroyReverse_zero _ _ _ _ _ (by simp)]
    rfl
  · rw [hd, hsz]
    have hbn : b ≠ h.next := by omega
    have hblk' : (withNew h (List.replicate l.length .raw ++ X)).blocks b = some (l.map .live ++ tail) := by
      rw [withNew_old _ _ hbn]; exact hblk
    cases ht : T.triv with
    | true =>
      have h1 : moveConstructRange true (withNew h (List.replicate l.length Slot.raw ++ X)) (some b) l.length
          (some h.next) = .ok (withNew h (l.map Slot.live ++ X)) := by
        unfold moveConstructRange
        simp only [if_true]
        by_cases h0 : l = []
        · subst h0; simp
        · have : l.length > 0 := by
            cases l with
            | nil => simp at h0
            | cons => simp
          rw [if_pos this, memcpy_ok (withNew_new _ _) hblk' (Ne.symm hbn) (by simp) (by simp), withNew_set]
          congr 2
          simp only [List.take_zero, List.nil_append, List.drop_zero, Nat.zero_add]
          rw [List.take_append_of_le_length (by simp), List.take_of_length_le (by simp),
            List.drop_append_of_le_length (by simp), List.drop_of_length_le (by simp)]
          simp
      rw [h1]
      simp only [R.ok_bind, destroyReverse, if_true]
      rw [free_ok (s := l.map .live ++ tail) (by rw [withNew_old _ _ hbn]; exact hblk) (Or.inl rfl),
        withNew_unset _ _ hbn]
    | false =>
      rw [ht] at hf
      simp only [moveConstructRange, Bool.false_eq_true, if_false]
      rw [moveConstructLoop_ok l (i := 0) (s := b) (d := h.next) (pre1 := []) (pre2 := []) (post1 := tail)
        (mid2 := List.replicate l.length .raw) (post2 := X) hbn hblk' (by simp) (withNew_new _ _) (by simp) (by simp)
        (Free.replicate _ _) rfl rfl]
      simp only [R.ok_bind, List.nil_append]
      rw [Heap.set_comm _ _ _ hbn, withNew_set]
      rw [destroyReverse_ok (mid := List.replicate l.length .moved) (pre := []) (post := tail) (lo := 0)
        (Heap.set_blocks_self _ _ _) (by simp) (by simp)
        (by intro x hx; rw [List.eq_of_mem_replicate hx]; rfl) rfl]
      simp only [R.ok_bind, Heap.set_set]
      rw [free_ok (Heap.set_blocks_self _ _ _) (Or.inr ?_)]
      · rw [Heap.set_unset, withNew_unset _ _ hbn]
      · intro x hx
        simp only [List.nil_append, destroyed, Bool.false_eq_true, if_false, List.mem_append] at hx
        rcases hx with hx | hx
        · rw [List.eq_of_mem_replicate hx]; rfl
        · exact hf.dead x hx

/-- An argument that evaluates to `a`, also after allocating a block. -/
def ArgOK (h : Heap α) (arg : Arg α) (a : α) : Prop :=
  match arg with
  | .val a' => a' = a
  | .ref p i => ∃ b pre post, p = some b ∧ b < h.next ∧ h.blocks b = some (pre ++ .live a :: post) ∧ i = pre.length

theorem ArgOK.eval {h : Heap α} {arg : Arg α} {a : α} (ha : ArgOK h arg a) : evalArg h arg = .ok a := by
  cases arg with
  | val a' => simp only [ArgOK] at ha; subst ha; rfl
  | ref p i =>
    obtain ⟨b, pre, post, rfl, hb, hblk, hi⟩ := ha
    exact read_mid hblk rfl hi

theorem ArgOK.evalNew {h : Heap α} {arg : Arg α} {a : α} (ha : ArgOK h arg a) (s) :
    evalArg (withNew h s) arg = .ok a := by
  cases arg with
  | val a' => simp only [ArgOK] at ha; subst ha; rfl
  | ref p i =>
    obtain ⟨b, pre, post, rfl, hb, hblk, hi⟩ := ha
    exact read_mid (by rw [withNew_old _ _ (by omega)]; exact hblk) rfl hi

theorem realloc_owns {T : Ty α} {h : Heap α} {v : Vec} {l : List α} (o : Owns T h v l) {n : Nat}
    (hn : 0 < n) (hle : l.length ≤ n) :
    ∃ tail, tail.length = n - l.length ∧
    realloc h v.data n = .ok (some h.next, fresh h v.data (l.map .live ++ tail)) := by
  obtain ⟨hsz, ⟨hd, hc, hl⟩ | ⟨b, tail, hd, hb, hblk, hf, hc⟩⟩ := o
  · subst hl
    exact ⟨List.replicate n .raw, by simp, by rw [hd, realloc_none h hn]; rfl⟩
  · refine ⟨tail.take (n - l.length) ++ List.replicate (n - (l.length + tail.length)) .raw, by simp; omega, ?_⟩
    rw [hd, realloc_ok hblk hb hn]
    congr 3
    rw [List.take_append]
    simp only [List.length_map, List.length_append, List.append_assoc]
    rw [List.take_of_length_le (by simp; omega)]

theorem emplaceBack_ok {T : Ty α} {h : Heap α} (hw : WF h) {v : Vec} {l : List α} (o : Owns T h v l) {arg : Arg α} {a : α}
    (ha : ArgOK h arg a) : Done T h v (l ++ [a]) (emplaceBack T h v arg) := by
  unfold emplaceBack
  have hsz := o.1
  split
  · rename_i hfull
    generalize hN : (if v.cap = 0 then 1 else v.cap * 2) = newCap
    have hNl : l.length + 1 ≤ newCap := by
      rw [← hN]; split <;> omega
    simp only
    split
    · rename_i htr
      have ht : T.triv = true := by simp at htr; exact htr.1
      obtain ⟨tail, htl, hre⟩ := realloc_owns o (n := newCap) (by omega) (by omega)
      rw [ha.eval]
      simp only [R.ok_bind]
      rw [hre]
      simp only [R.ok_bind]
      cases tail with
      | nil => simp at htl; omega
      | cons x tail =>
        rw [construct_mid (pre := l.map .live) (x := x) (post := tail) a (fresh_blocks_new _ _ _) rfl
          (by simp [hsz]) (Or.inl ht)]
        simp only [R.ok_bind]
        rw [fresh_set]
        have e : l.map Slot.live ++ Slot.live a :: tail = (l ++ [a]).map .live ++ tail := by simp
        rw [e]
        exact Done.fresh hw o.lt (Or.inl ht) (by simp at htl ⊢; omega) (by simp [hsz])
    · rw [alloc_withNew]
      simp only
      have hrep : List.replicate newCap (Slot.raw : Slot α) =
          List.replicate l.length .raw ++ .raw :: List.replicate (newCap - l.length - 1) .raw := by
        rw [← List.replicate_succ, List.replicate_append_replicate]; congr 1; omega
      rw [hrep]
      rw [ha.evalNew]
      simp only [R.ok_bind]
      rw [construct_mid (pre := List.replicate l.length .raw) (x := .raw)
        (post := List.replicate (newCap - l.length - 1) .raw) a (withNew_new _ _) rfl (by simp [hsz]) (Or.inr rfl)]
      simp only [R.ok_bind]
      rw [withNew_set]
      have := relocate_ok o (.live a :: List.replicate (newCap - l.length - 1) .raw)
      have h2 := congrArg (fun r : R (Heap α) => r >>= fun h' =>
        (Except.ok (h', ({ data := some h.next, size := v.size + 1, cap := newCap } : Vec)) : R (Heap α × Vec))) this
      simp only [bind_assoc, R.ok_bind] at h2
      rw [h2]
      have e : l.map Slot.live ++ Slot.live a :: List.replicate (newCap - l.length - 1) Slot.raw =
          (l ++ [a]).map .live ++ List.replicate (newCap - l.length - 1) Slot.raw := by simp
      rw [e]
      exact Done.fresh hw o.lt (Free.replicate _ _) (by simp; omega) (by simp [hsz])
  · rename_i hne
    rw [ha.eval]
    simp only [R.ok_bind]
    obtain ⟨-, ⟨hd, hc, hl⟩ | ⟨b, tail, hd, hb, hblk, hf, hc⟩⟩ := o
    · subst hl; simp at hsz; omega
    · cases tail with
      | nil => simp at hc; omega
      | cons x tail =>
        rw [hd, construct_mid (pre := l.map .live) (x := x) (post := tail) a hblk rfl (by simp [hsz]) hf.head]
        simp only [R.ok_bind]
        have e : l.map Slot.live ++ Slot.live a :: tail = (l ++ [a]).map .live ++ tail := by simp
        rw [e]
        exact Done.inPlace hw hd hb hf.tail rfl (by simp [hsz]) (by simp at hc ⊢; omega)

theorem emplaceBackStable_ok {T : Ty α} {h : Heap α} (hw : WF h) {v : Vec} {l : List α} (o : Owns T h v l) {arg : Arg α}
    {a : α} (ha : ArgOK h arg a) (hc : v.size < v.cap) :
    Done T h v (l ++ [a]) (emplaceBackStable T h v arg) ∧
    ∀ h' v', emplaceBackStable T h v arg = .ok (h', v') → v'.data = v.data ∧ v'.cap = v.cap := by
  have heq : emplaceBackStable T h v arg = emplaceBack T h v arg := by
    unfold emplaceBackStable emplaceBack
    rw [if_neg (by omega), ccAssert_true (by simpa using hc)]
    rfl
  constructor
  · rw [heq]; exact emplaceBack_ok hw o ha
  · intro h' v' he
    unfold emplaceBackStable at he
    rw [ccAssert_true (by simpa using hc), ha.eval] at he
    simp only [R.ok_bind, R.bind_eq_ok] at he
    obtain ⟨h1, -, he⟩ := he
    cases he
    exact ⟨rfl, rfl⟩

theorem reserve_ok {T : Ty α} {h : Heap α} (hw : WF h) {v : Vec} {l : List α} (o : Owns T h v l) {n : Nat}
    (hn : n ≤ 2 ^ 48) : Done T h v l (reserve T h v n) ∧
    ∀ h' v', reserve T h v n = .ok (h', v') → n ≤ v'.cap ∧ v.cap ≤ v'.cap ∧ (v.cap < n → v'.data = some h.next) ∧ (n ≤ v.cap → v' = v) := by
  have hsz := o.1
  have hle := o.size_le
  have hl0 := o.lt
  unfold reserve
  rw [ccAssert_true (by simpa using hn)]
  simp only [R.ok_bind]
  split
  · rename_i hc
    refine ⟨Done.refl hw o, ?_⟩
    intro h' v' he
    cases he
    exact ⟨hc, Nat.le_refl _, fun _ => by omega, fun _ => rfl⟩
  · rename_i hc
    generalize hN : (if v.cap * 2 < n then n else v.cap * 2) = newCap
    have hNl : n ≤ newCap ∧ v.cap ≤ newCap := by
      rw [← hN]; split <;> omega
    split
    · rename_i ht
      obtain ⟨tail, htl, hre⟩ := realloc_owns o (n := newCap) (by omega) (by omega)
      rw [hre]
      simp only [R.ok_bind]
      refine ⟨Done.fresh hw hl0 (Or.inl ht) (by omega) hsz, ?_⟩
      intro h' v' he
      cases he
      exact ⟨hNl.1, hNl.2, fun _ => rfl, fun _ => by omega⟩
    · rw [alloc_withNew]
      simp only
      have hrep : List.replicate newCap (Slot.raw : Slot α) =
          List.replicate l.length .raw ++ List.replicate (newCap - l.length) .raw := by
        rw [List.replicate_append_replicate]; congr 1; omega
      rw [hrep]
      have := relocate_ok o (List.replicate (newCap - l.length) .raw)
      have h2 := congrArg (fun r : R (Heap α) => r >>= fun h' =>
        (Except.ok (h', ({ data := some h.next, size := v.size, cap := newCap } : Vec)) : R (Heap α × Vec))) this
      simp only [bind_assoc, R.ok_bind] at h2
      rw [h2]
      refine ⟨Done.fresh hw hl0 (Free.replicate _ _) (by simp; omega) hsz, ?_⟩
      intro h' v' he
      cases he
      exact ⟨hNl.1, hNl.2, fun _ => rfl, fun _ => by omega⟩

end Verif.Vector
