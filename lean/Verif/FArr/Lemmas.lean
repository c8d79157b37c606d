import Verif.FArr.Spec
import Verif.Mem.Own

/-! Lemmas about the calls of `fwd_array`. -/
namespace Verif.FArr
open Mem Mem.Own
variable {α : Type}

/-- The slot of an element. -/
def slotOf : Option α → Slot α
  | some a => .live a
  | none => .moved

theorem slotOf_alive (x : Option α) : (slotOf x).alive = true := by cases x <;> rfl

theorem newArr_eq (h : Heap α) (n : Nat) (x : Slot α) : newArr h n x = (some h.next, fresh h none (List.replicate n x)) := rfl

/-- An array and its elements. -/
structure Good (h : Heap α) (s : FA) (l : List (Option α)) : Prop where
  size : s.size = l.length
  none : s.data = none → l = []
  some : ∀ b, s.data = some b → b < h.next ∧ h.blocks b = some (l.map slotOf) ∧ s.op = true

theorem good_new (h : Heap α) : Good h FA.new ([] : List (Option α)) := ⟨rfl, fun _ => rfl, (fun _ e => by cases e)⟩

theorem local_ : Local FA.data (Good (α := α)) := by
  refine ⟨fun {h h' s l} g hk hn => ⟨g.size, g.none, fun b e => ?_⟩, fun {h s l} g b e => ?_⟩
  · obtain ⟨a1, a2, a3⟩ := g.some b e
    exact ⟨Nat.lt_of_lt_of_le a1 hn, by rw [hk b e]; exact a2, a3⟩
  · obtain ⟨a1, a2, a3⟩ := g.some b e
    exact ⟨a1, _, a2⟩

theorem ch_bump {h h' : Heap α} {p q : Ptr} (c : Ch h h' p q) (n : Nat) : Ch h (bump h' n) p q :=
  ⟨c.next, c.keep, c.own, c.only, c.bound⟩

/-- A fresh array. -/
theorem good_fresh (h : Heap α) (l : List (Option α)) (n : Nat) :
    Good (bump (fresh h none (l.map slotOf)) n) { data := some h.next, size := l.length, op := true } l := by
  refine ⟨rfl, (fun e => by cases e), fun b e => ?_⟩
  have : b = h.next := (Option.some.inj e).symm
  subst this
  exact ⟨by simp [bump], by simp [bump], rfl⟩

theorem bump_zero (h : Heap α) : bump h 0 = h := rfl

theorem release_ok {e : E α} {h : Heap α} (hb : Bound h) {s : FA} {l : List (Option α)} (g : Good h s l) :
    ∃ h', s.release e h = .ok h' ∧ Ch h h' s.data none ∧ h'.leaked = h.leaked := by
  unfold FA.release
  cases ed : s.data with
  | none => exact ⟨h, rfl, ch_refl hb, rfl⟩
  | some b =>
    obtain ⟨a1, a2, a3⟩ := g.some b ed
    simp only [Option.isSome_some, if_true, a3]
    simp only [deleteArr]
    rw [slots_ok a2, R.ok_bind]
    have hal : ∀ x ∈ l.map slotOf, x.alive = true := by
      intro x hx
      obtain ⟨y, _, rfl⟩ := List.mem_map.1 hx
      exact slotOf_alive y
    unfold destroyReverse
    cases ht : e.tdtor with
    | true =>
      simp only [if_true]
      rw [R.ok_bind]
      exact ⟨_, free_ok a2 (Or.inl rfl), ch_unset hb b, rfl⟩
    | false =>
      simp only [Bool.false_eq_true, if_false]
      rw [destroyLoop_ok (l.map slotOf) (pre := []) (post := []) a2 (by simp) (by simp) hal (by simp), R.ok_bind]
      rw [free_ok (Heap.set_blocks_self _ _ _) (Or.inr (by intro x hx; simp at hx; rw [hx.2]; rfl))]
      refine ⟨_, rfl, ?_, rfl⟩
      rw [Heap.set_unset]
      exact ch_unset hb b

/-- A value that is not in block `d`. -/
def ValOK (h : Heap α) (d : Nat) (v : Val α) (a : α) : Prop :=
  match v with
  | .ext b => b = a
  | .elem p i => ∃ b pre post, p = some b ∧ b ≠ d ∧ i = pre.length ∧ h.blocks b = some (pre ++ .live a :: post)

theorem ValOK.read {h h' : Heap α} {d : Nat} {v : Val α} {a : α} (hv : ValOK h d v a) (hh : ∀ x, x ≠ d → h'.blocks x = h.blocks x) : v.read h' = .ok a := by
  cases v with
  | ext b => simp only [ValOK] at hv; rw [hv]; rfl
  | elem p i =>
    obtain ⟨b, pre, post, rfl, hbd, hi, hb⟩ := hv
    rw [← hh b hbd] at hb
    exact read_mid hb rfl hi

theorem fill_ok {v : Val α} {a : α} (k : Nat) : ∀ {h h0 : Heap α} {d i : Nat} {pre mid : List (Slot α)}, ValOK h0 d v a → (∀ x, x ≠ d → h.blocks x = h0.blocks x) →
    h.blocks d = some (pre ++ mid) → mid.length = k → (∀ x ∈ mid, x.alive = true) → i = pre.length →
    fill h (some d) v i k = .ok (h.set d (pre ++ List.replicate k (.live a))) := by
  induction k with
  | zero =>
    intro h h0 d i pre mid hv hs hb hl ha hi
    have : mid = [] := by simpa using hl
    subst this
    simp only [fill, List.replicate_zero]
    rw [Heap.set_self h hb]
  | succ k ih =>
    intro h h0 d i pre mid hv hs hb hl ha hi
    cases mid with
    | nil => simp at hl
    | cons x mid =>
      simp only [fill]
      rw [hv.read hs, R.ok_bind, assign_mid a hb rfl hi (ha x (by simp)), R.ok_bind]
      rw [ih (pre := pre ++ [.live a]) (mid := mid) hv (by intro y hy; rw [Heap.set_blocks_ne _ _ hy]; exact hs y hy) (by rw [Heap.set_blocks_self]; simp)
        (by simpa using hl) (fun y hy => ha y (by simp [hy])) (by simp; omega)]
      rw [Heap.set_set]
      simp [List.replicate_succ]

theorem blank_eq (e : E α) : e.blank = slotOf (if e.tctor then none else some e.dflt) := by
  unfold E.blank
  cases e.tctor <;> rfl

theorem blank_alive (e : E α) : e.blank.alive = true := by rw [blank_eq]; exact slotOf_alive _

theorem filled_ok {e : E α} {h : Heap α} (hb : Bound h) {v : Val α} {a : α} (n : Nat) (hv : ValOK h h.next v a) :
    ∃ h' s, filled e h n v = .ok (h', s) ∧ Good h' s (List.replicate n (some a)) ∧ Ch h h' none s.data ∧ h'.leaked = h.leaked := by
  have hf : ∀ x, x ≠ h.next → (fresh h none (List.replicate n e.blank)).blocks x = h.blocks x := fun x hx => fresh_blocks_old h _ hx (by simp)
  have key := fill_ok (v := v) (a := a) n (h := fresh h none (List.replicate n e.blank)) (h0 := h) (d := h.next) (i := 0) (pre := []) (mid := List.replicate n e.blank)
    hv hf (by rw [fresh_blocks_new]; rfl) (by simp) (by intro x hx; rw [List.eq_of_mem_replicate hx]; exact blank_alive e) rfl
  rw [List.nil_append, fresh_set] at key
  refine ⟨fresh h none (List.replicate n (.live a)), { data := some h.next, size := n, op := true }, ?_, ?_, ch_fresh hb (has_none h) _, by simp⟩
  · unfold filled
    rw [newArr_eq]
    dsimp only
    rw [key, R.ok_bind]
  · have := good_fresh h (List.replicate n (some a)) 0
    rw [bump_zero, List.map_replicate, List.length_replicate] at this
    exact this

theorem overLoop_ok {e : E α} {src : Src α} (l : List α) : ∀ (k : Nat) {h h0 : Heap α} {d i : Nat} {pre mid : List (Slot α)}, SrcOK h0 d src l →
    (∀ x, x ≠ d → h.blocks x = h0.blocks x) → i + k = l.length → h.blocks d = some (pre ++ mid) → mid.length = k → (∀ x ∈ mid, x.alive = true) →
    i = pre.length →
    overLoop e h src (some d) i k = .ok (bump (h.set d (pre ++ (l.drop i).map .live)) (if e.tdtor then 0 else k)) := by
  intro k
  induction k with
  | zero =>
    intro h h0 d i pre mid hsrc hs hik hb hl ha hi
    have : mid = [] := by simpa using hl
    subst this
    have hdrop : l.drop i = [] := by simp; omega
    simp only [overLoop, hdrop, List.map_nil]
    rw [Heap.set_self h hb]
    simp [bump]
  | succ k ih =>
    intro h h0 d i pre mid hsrc hs hik hb hl ha hi
    cases mid with
    | nil => simp at hl
    | cons x mid =>
      have hil : i < l.length := by omega
      simp only [overLoop]
      rw [hsrc.read hs (List.getElem?_eq_getElem hil), R.ok_bind, get_mid hb rfl hi, R.ok_bind, put_mid _ hb rfl hi, R.ok_bind]
      rw [ih (h0 := h0) (pre := pre ++ [.live l[i]]) (mid := mid) hsrc (by intro y hy; show (h.set d _).blocks y = _; rw [Heap.set_blocks_ne _ _ hy]; exact hs y hy)
        (by omega) (by show (h.set d _).blocks d = _; rw [Heap.set_blocks_self]; simp) (by simpa using hl) (fun y hy => ha y (by simp [hy])) (by simp; omega)]
      rw [ha x (by simp)]
      have hd := List.getElem_cons_drop hil
      rw [← hd, List.map_cons]
      have hx : ∀ (m n : Nat) (s t : List (Slot α)), bump ((bump (h.set d s) m).set d t) n = bump (h.set d t) (m + n) := by
        intro m n s t
        show bump (bump ((h.set d s).set d t) m) n = _
        rw [Heap.set_set]
        simp only [bump, Nat.add_assoc]
      rw [hx]
      cases e.tdtor
      · simp [Nat.add_comm]
      · simp

/-- From values outside, or from part of another block; elements without a value only for trivially copyable types. -/
def SpnOK (triv : Bool) (h : Heap α) (src : Src α) (l : List (Option α)) : Prop :=
  match src with
  | .ext l' => l'.map some = l
  | .mem p off => l ≠ [] → ∃ b pre post, p = some b ∧ b < h.next ∧ off = pre.length ∧ h.blocks b = some (pre ++ (l.map slotOf ++ post)) ∧
      (triv = true ∨ ∀ x ∈ l, x.isSome)

theorem map_live (l : List α) : l.map Slot.live = (l.map some).map slotOf := by
  rw [List.map_map]; rfl

theorem all_some {l : List (Option α)} (h : ∀ x ∈ l, x.isSome) : ∃ m : List α, l = m.map some := by
  induction l with
  | nil => exact ⟨[], rfl⟩
  | cons x l ih =>
    obtain ⟨m, rfl⟩ := ih (fun y hy => h y (by simp [hy]))
    have := h x (by simp)
    cases x with
    | none => cases this
    | some a => exact ⟨a :: m, rfl⟩

theorem SpnOK.srcOK {triv : Bool} {h h' : Heap α} {src : Src α} {l : List α} (hs : SpnOK triv h src (l.map some)) (hk : ∀ x, x < h.next → h'.blocks x = h.blocks x) :
    SrcOK h' h.next src l := by
  cases src with
  | ext l' =>
    simp only [SpnOK] at hs
    simp only [SrcOK]
    have := congrArg (List.filterMap id) hs
    simpa using this
  | mem p off =>
    intro hn
    obtain ⟨b, pre, post, h1, h2, h3, h4, _⟩ := hs (by simpa using hn)
    exact ⟨b, pre, post, h1, by omega, h3, by rw [hk b h2, h4, map_live]⟩

theorem copied_ok {e : E α} {h : Heap α} (hb : Bound h) (he : e.triv = true → e.tdtor = true) {src : Src α} {l : List (Option α)} (hs : SpnOK e.triv h src l) :
    ∃ h' s, copied e h src l.length = .ok (h', s) ∧ Good h' s l ∧ Ch h h' none s.data ∧ h'.leaked = h.leaked + if e.tdtor then 0 else l.length := by
  have hf : ∀ x, x < h.next → (fresh h none (List.replicate l.length e.blank)).blocks x = h.blocks x := fun x hx => fresh_blocks_old h _ (by omega) (by simp)
  have fin : ∀ n, (if e.triv then copyConstructRange true (fresh h none (List.replicate l.length e.blank)) src l.length (some h.next) 0
        else overLoop e (fresh h none (List.replicate l.length e.blank)) src (some h.next) 0 l.length : R (Heap α)) = .ok (bump (fresh h none (l.map slotOf)) n) →
      (n = if e.tdtor then 0 else l.length) →
      ∃ h' s, copied e h src l.length = .ok (h', s) ∧ Good h' s l ∧ Ch h h' none s.data ∧ h'.leaked = h.leaked + if e.tdtor then 0 else l.length := by
    intro n hn hn'
    refine ⟨bump (fresh h none (l.map slotOf)) n, { data := some h.next, size := l.length, op := true }, ?_, good_fresh h l n, ch_bump (ch_fresh hb (has_none h) _) n, ?_⟩
    · unfold copied
      rw [newArr_eq]
      dsimp only
      rw [hn, R.ok_bind]
    · rw [← hn']; simp [bump]
  cases ht : e.triv with
  | false =>
    have hsome : ∃ m : List α, l = m.map some := by
      cases src with
      | ext l' => exact ⟨l', by simp only [SpnOK] at hs; exact hs.symm⟩
      | mem p off =>
        by_cases h0 : l = []
        · exact ⟨[], h0⟩
        · obtain ⟨b, pre, post, h1, h2, h3, h4, h5⟩ := hs h0
          rw [ht] at h5
          exact all_some (h5.resolve_left (by simp))
    obtain ⟨m, rfl⟩ := hsome
    have key := overLoop_ok (e := e) (src := src) m m.length (h := fresh h none (List.replicate (m.map some).length e.blank))
      (h0 := fresh h none (List.replicate (m.map some).length e.blank)) (d := h.next) (i := 0) (pre := []) (mid := List.replicate (m.map some).length e.blank)
      (hs.srcOK hf) (fun _ _ => rfl) (by simp) (by rw [fresh_blocks_new]; rfl) (by simp) (by intro x hx; rw [List.eq_of_mem_replicate hx]; exact blank_alive e) rfl
    rw [List.nil_append, fresh_set, List.drop_zero, map_live] at key
    refine fin _ ?_ (by rw [List.length_map])
    rw [ht]
    simp only [Bool.false_eq_true, if_false]
    conv => lhs; arg 6; rw [List.length_map]
    exact key
  | true =>
    refine fin 0 ?_ (by rw [he ht]; rfl)
    rw [ht]
    simp only [if_true, bump_zero]
    have hnew : (fresh h none (List.replicate l.length e.blank)).blocks h.next = some (List.replicate l.length e.blank) := fresh_blocks_new h _ _
    cases src with
    | ext l' =>
      simp only [SpnOK] at hs
      subst hs
      have key := copyConstructRange_ok (triv := true) (src := .ext l') (l := l') (d0 := 0) (pre := []) (mid := List.replicate (l'.map some).length e.blank) (post := [])
        (h := fresh h none (List.replicate (l'.map some).length e.blank)) (d := h.next) rfl hnew (by simp) (by simp) (Or.inl rfl) rfl
      rw [List.nil_append, List.append_nil, fresh_set, map_live] at key
      rw [← key, List.length_map]
    | mem p off =>
      by_cases h0 : l = []
      · subst h0
        exact copyConstructRange_zero true _ _ _ _
      · obtain ⟨b, pre, post, rfl, h2, h3, h4, _⟩ := hs h0
        have hpos : 0 < l.length := List.length_pos_iff.2 h0
        unfold copyConstructRange
        simp only [if_true, gt_iff_lt, hpos]
        rw [memcpy_ok hnew (by rw [hf b h2]; exact h4) (by omega) (by simp) (by simp; omega)]
        rw [h3, fresh_set]
        congr 2
        simp

theorem readAll_ok {h : Heap α} {b : Nat} (m : List α) : ∀ {i : Nat} {pre : List (Slot α)}, h.blocks b = some (pre ++ m.map .live) → i = pre.length →
    readAll h (some b) i m.length = .ok m := by
  induction m with
  | nil => intro i pre hb hi; rfl
  | cons a m ih =>
    intro i pre hb hi
    simp only [List.length_cons, readAll]
    rw [read_mid hb rfl hi, R.ok_bind, ih (pre := pre ++ [.live a]) (by rw [hb]; simp) (by simp; omega), R.ok_bind]

end Verif.FArr
