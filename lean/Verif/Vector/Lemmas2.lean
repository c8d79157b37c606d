import Verif.Vector.Lemmas
import Verif.Vector.Spec

/-! Helper lemmas for vector: single operations, second part. -/
namespace Verif.Vector
open Verif.Mem

variable {α : Type}

/-- A source of values that is not in the block of `v`. -/
def SrcAvail (h : Heap α) (p : Ptr) (src : Src α) (l : List α) : Prop :=
  match src with
  | .ext l' => l' = l
  | .mem q off => l ≠ [] → ∃ b pre post, q = some b ∧ p ≠ some b ∧ b < h.next ∧ off = pre.length ∧
      h.blocks b = some (pre ++ (l.map .live ++ post))

theorem SrcAvail.srcOK {h h' : Heap α} {p p' : Ptr} {src : Src α} {l : List α} (hs : SrcAvail h p src l)
    (f : Frame h p h' p') {d : Nat} (hd : p' = some d) : SrcOK h' d src l := by
  cases src with
  | ext l' => exact hs
  | mem q off =>
    intro hl
    obtain ⟨b, pre, post, h1, h2, h3, h4, h5⟩ := hs hl
    refine ⟨b, pre, post, h1, ?_, h4, ?_⟩
    · intro e
      subst e
      rcases f.ptr with h6 | h6 | ⟨x, hx, h6⟩
      · exact h2 (h6 ▸ hd)
      · rw [hd] at h6; simp at h6
      · rw [hd] at h6; simp at h6; omega
    · rw [f.keep b h3 h2]; exact h5

/-- A vector with room for `n` more elements. -/
theorem Owns.room {T : Ty α} {h : Heap α} {v : Vec} {l : List α} (o : Owns T h v l) {n : Nat} (hn : 0 < n)
    (hc : l.length + n ≤ v.cap) : ∃ b mid tail, v.data = some b ∧ b < h.next ∧
      h.blocks b = some (l.map .live ++ (mid ++ tail)) ∧ mid.length = n ∧ Free T.triv mid ∧ Free T.triv tail ∧
      v.cap = l.length + n + tail.length := by
  obtain ⟨hsz, ⟨hd, hc, hl⟩ | ⟨b, tail, hd, hb, hblk, hf, hc'⟩⟩ := o
  · omega
  · refine ⟨b, tail.take n, tail.drop n, hd, hb, by simpa using hblk, by simp; omega, ?_, ?_, by simp; omega⟩
    · exact hf.of_subset (fun x hx => List.mem_of_mem_take hx)
    · exact hf.of_subset (fun x hx => List.mem_of_mem_drop hx)

theorem pushBackRangeN_ok {T : Ty α} {h : Heap α} (hw : WF h) {v : Vec} {l xs : List α} (o : Owns T h v l)
    {src : Src α} (hsrc : SrcAvail h v.data src xs) (hn : l.length + xs.length ≤ 2 ^ 48) :
    Done T h v (l ++ xs) (pushBackRangeN T h v src xs.length) := by
  unfold pushBackRangeN
  split
  · rename_i h0
    have : xs = [] := by simpa using h0
    subst this
    simpa using Done.refl hw o
  · rename_i h0
    rw [o.1]
    obtain ⟨hd, hcap⟩ := reserve_ok hw o hn
    have hfr := hd
    obtain ⟨h1, v1, e, o1, f1, lk⟩ := hfr
    have hc1 := (hcap h1 v1 e).1
    refine hd.bind ?_
    intro h2 v2 e2 o2 hw2
    rw [e] at e2
    cases e2
    obtain ⟨b, mid, tail, hdat, hb, hblk, hml, hmf, htf, hcc⟩ := o2.room (by omega) hc1
    simp only
    rw [hdat, copyConstructRange_ok (hsrc.srcOK f1 hdat) hblk rfl hml hmf (by simp [o2.1])]
    simp only [R.ok_bind]
    have e3 : l.map Slot.live ++ (xs.map Slot.live ++ tail) = (l ++ xs).map .live ++ tail := by simp
    rw [e3]
    exact Done.inPlace hw2 hdat hb htf rfl (by simp [o2.1]) (by simp; omega)

theorem pushEach_ok {T : Ty α} {xs : List α} : ∀ {h : Heap α} (_ : WF h) {v : Vec} {l : List α} (_ : Owns T h v l),
    Done T h v (l ++ xs) (pushEach T h v xs) := by
  induction xs with
  | nil => intro h hw v l o; simpa [pushEach] using Done.refl hw o
  | cons a xs ih =>
    intro h hw v l o
    unfold pushEach
    refine (emplaceBack_ok hw o (a := a) (arg := .val a) rfl).bind ?_
    intro h1 v1 e o1 hw1
    have := ih hw1 o1
    simpa using this

theorem pushBackRange_ok {T : Ty α} {c s : Bool} {h : Heap α} (hw : WF h) {v : Vec} {l xs : List α} (o : Owns T h v l)
    (hn : l.length + xs.length ≤ 2 ^ 48) :
    Done T h v (l ++ xs) (pushBackRange T c s h v xs) := by
  unfold pushBackRange
  split
  · split
    · rename_i h0
      have : xs = [] := by simpa using h0
      subst this
      simpa using Done.refl hw o
    · exact pushBackRangeN_ok hw o rfl hn
  · split
    · rw [o.1]
      refine Done.bind (reserve_ok hw o hn).1 ?_
      intro h1 v1 e o1 hw1
      exact pushEach_ok hw1 o1
    · exact pushEach_ok hw o

theorem insertRangeAt_ok {T : Ty α} {h : Heap α} (hw : WF h) {v : Vec} {l xs : List α} (o : Owns T h v l)
    (hn : l.length + xs.length ≤ 2 ^ 48) {idx : Nat} (hi : idx ≤ l.length) :
    Done T h v (l.take idx ++ xs ++ l.drop idx) (insertRangeAt T h v idx xs) := by
  unfold insertRangeAt
  rw [ccAssert_true (by simpa [o.1] using hi)]
  simp only [R.ok_bind]
  split
  · rename_i h0
    have : xs = [] := by simpa using h0
    subst this
    simpa using Done.refl hw o
  · rename_i h0
    rw [o.1]
    obtain ⟨hd, hcap⟩ := reserve_ok hw o hn
    refine hd.bind ?_
    intro h2 v2 e2 o2 hw2
    have hc1 := (hcap h2 v2 e2).1
    obtain ⟨b, mid, tail, hdat, hb, hblk, hml, hmf, htf, hcc⟩ := o2.room (by omega) hc1
    simp only
    obtain ⟨mid', hml', hmf', hrel⟩ := relocateRange_ok (l := l.drop idx) (pre := (l.take idx).map .live) (mid := mid)
      (post := tail) (src := idx) (n := xs.length) hblk
      (by rw [← List.append_assoc (List.map Slot.live (l.take idx)), ← List.map_append, List.take_append_drop]) hml
      (by omega) hmf (by simp; omega)
    rw [List.length_drop] at hrel
    rw [hdat, o2.1, hrel]
    simp only [R.ok_bind]
    rw [copyConstructRange_ok (l := xs) (src := .ext xs) (triv := T.triv) (d0 := idx) (pre := (l.take idx).map .live) (mid := mid')
      (post := (l.drop idx).map Slot.live ++ tail) (h := h2.set b _) (d := b) rfl (Heap.set_blocks_self _ _ _) rfl hml' hmf' (by simp; omega)]
    simp only [R.ok_bind, Heap.set_set]
    have e3 : (l.take idx).map Slot.live ++ (xs.map Slot.live ++ ((l.drop idx).map .live ++ tail)) =
      (l.take idx ++ xs ++ l.drop idx).map .live ++ tail := by simp
    rw [e3]
    have hlen : (l.take idx ++ xs ++ l.drop idx).length = l.length + xs.length := by simp; omega
    exact Done.inPlace hw2 hdat hb htf rfl (by rw [hlen]) (by rw [hlen]; exact hcc)

theorem insertRangeAt_bad {T : Ty α} {h : Heap α} {v : Vec} {l xs : List α} (o : Owns T h v l)
    {idx : Nat} (hi : ¬ idx ≤ l.length) : insertRangeAt T h v idx xs = .error .assert := by
  unfold insertRangeAt
  rw [ccAssert_false (by simpa [o.1] using hi)]
  rfl

/-- A non-empty vector, split at the last element. -/
theorem Owns.last {T : Ty α} {h : Heap α} {v : Vec} {l : List α} (o : Owns T h v l) (hl : l ≠ []) :
    ∃ b tail, v.data = some b ∧ b < h.next ∧ l = l.dropLast ++ [l.getLast hl] ∧
      h.blocks b = some (l.dropLast.map .live ++ .live (l.getLast hl) :: tail) ∧ Free T.triv tail ∧
      v.cap = l.length + tail.length ∧ v.size - 1 = l.dropLast.length ∧ 0 < v.size := by
  obtain ⟨hsz, ⟨hd, hc, hl'⟩ | ⟨b, tail, hd, hb, hblk, hf, hc'⟩⟩ := o
  · exact absurd hl' hl
  · have hsplit := (List.dropLast_concat_getLast hl).symm
    have hpos : 0 < l.length := by
      cases l with
      | nil => simp at hl
      | cons => simp
    refine ⟨b, tail, hd, hb, hsplit, ?_, hf, hc', by simp [hsz], by omega⟩
    rw [hblk]; conv => lhs; rw [hsplit]
    simp

theorem popBack_ok {T : Ty α} {h : Heap α} (hw : WF h) {v : Vec} {l : List α} (o : Owns T h v l) (hl : l ≠ []) :
    Done T h v l.dropLast (popBack h v) := by
  obtain ⟨b, tail, hd, hb, hsplit, hblk, hf, hc, hs1, hpos⟩ := o.last hl
  have hlen := o.1
  unfold popBack
  rw [ccAssert_true (by simpa using hpos), hd]
  simp only [R.ok_bind]
  rw [destroy_mid hblk rfl (by simpa using hs1) rfl]
  simp only [R.ok_bind]
  refine Done.inPlace (tail := .raw :: tail) hw hd hb ?_ rfl hs1 ?_
  · exact (Free.replicate T.triv 1).append hf
  · simp at hs1 ⊢; omega

theorem popBack_bad {h : Heap α} {v : Vec} (hv : v.size = 0) : popBack h v = .error .assert := by
  unfold popBack; rw [ccAssert_false (by simp [hv])]; rfl

theorem getAndPopBack_ok {T : Ty α} {h : Heap α} (hw : WF h) {v : Vec} {l : List α} (o : Owns T h v l) (hl : l ≠ []) :
    ∃ h' v', getAndPopBack T h v = .ok (l.getLast hl, h', v') ∧ Owns T h' v' l.dropLast ∧
      Frame h v.data h' v'.data ∧ h'.leaked = h.leaked := by
  obtain ⟨b, tail, hd, hb, hsplit, hblk, hf, hc, hs1, hpos⟩ := o.last hl
  have hlen := o.1
  unfold getAndPopBack
  rw [ccAssert_true (by simpa using hpos), hd]
  simp only [R.ok_bind]
  rw [take_mid' hblk rfl (by simpa using hs1)]
  simp only [R.ok_bind]
  rw [destroy_mid (Heap.set_blocks_self _ _ _) rfl (by simpa using hs1) (leftover_alive _ _)]
  simp only [R.ok_bind, Heap.set_set]
  have : Done T h v l.dropLast (.ok (h.set b (l.dropLast.map .live ++ .raw :: tail), { v with data := some b, size := v.size - 1 })) := by
    refine Done.inPlace (tail := .raw :: tail) hw hd hb ?_ rfl hs1 ?_
    · exact (Free.replicate T.triv 1).append hf
    · simp at hs1 ⊢; omega
  obtain ⟨h', v', e, rest⟩ := this
  cases e
  rw [hd] at rest
  exact ⟨_, _, rfl, rest⟩

theorem getAndPopBack_bad {T : Ty α} {h : Heap α} {v : Vec} (hv : v.size = 0) :
    getAndPopBack T h v = .error .assert := by
  unfold getAndPopBack; rw [ccAssert_false (by simp [hv])]; rfl

theorem alive_live (l : List α) : ∀ x ∈ l.map Slot.live, x.alive = true := by
  intro x hx
  obtain ⟨a, -, rfl⟩ := List.mem_map.1 hx
  rfl

/-- Cut off everything from position `n` on. -/
theorem truncate_ok {T : Ty α} {h : Heap α} (hw : WF h) {v : Vec} {l : List α} (o : Owns T h v l) {n : Nat}
    (hn : n ≤ l.length) :
    Done T h v (l.take n) (do
      let h ← destroyReverse T.triv h v.data v.size n
      .ok (h, { v with size := n })) := by
  obtain ⟨hsz, ⟨hd, hc, hl'⟩ | ⟨b, tail, hd, hb, hblk, hf, hc'⟩⟩ := o
  · subst hl'
    rw [destroyReverse_zero _ _ _ _ _ (by simp at hsz; omega)]
    simp only [R.ok_bind]
    have hn0 : n = 0 := by simpa using hn
    subst hn0
    refine ⟨_, _, rfl, ⟨rfl, Or.inl ⟨hd, hc, rfl⟩⟩, Frame.refl hw _, rfl⟩
  · rw [hd, hsz, destroyReverse_ok (mid := (l.drop n).map .live) (pre := (l.take n).map .live) (post := tail) hblk
      (by rw [← List.append_assoc, ← List.map_append, List.take_append_drop]) (by simp; omega) (alive_live _)
      (by simp; omega)]
    simp only [R.ok_bind]
    exact Done.inPlace hw hd hb ((destroyed_free _ _).append hf) rfl (by simp; omega) (by simp; omega)

theorem clear_ok {T : Ty α} {h : Heap α} (hw : WF h) {v : Vec} {l : List α} (o : Owns T h v l) :
    Done T h v [] (clear T h v) := by
  have := truncate_ok hw o (n := 0) (by omega)
  simpa [clear] using this

theorem resize_ok {T : Ty α} {h : Heap α} (hw : WF h) {v : Vec} {l : List α} (o : Owns T h v l) {n : Nat} {a : α}
    (hn : n ≤ 2 ^ 48) : Done T h v (Spec.resized l n a) (resize T h v n a) := by
  have hres : Done T h v l (if n > v.cap then reserve T h v n else .ok (h, v)) ∧
      ∀ h' v', (if n > v.cap then reserve T h v n else .ok (h, v)) = .ok (h', v') → n ≤ v'.cap := by
    split
    · obtain ⟨h1, h2⟩ := reserve_ok hw o hn
      exact ⟨h1, fun h' v' e => (h2 h' v' e).1⟩
    · refine ⟨Done.refl hw o, ?_⟩
      intro h' v' e
      cases e
      omega
  have hrw : resize T h v n a = ((if n > v.cap then reserve T h v n else .ok (h, v)) >>= fun p => do
      let h ← fillLoop T.triv p.1 p.2.data a p.2.size (n - p.2.size)
      let h ← destroyReverse T.triv h p.2.data p.2.size n
      .ok (h, { p.2 with size := n })) := by
    unfold resize; split <;> rfl
  rw [hrw]
  refine hres.1.bind ?_
  intro h1 v1 e o1 hw1
  have hc := hres.2 h1 v1 e
  have hsz := o1.1
  simp only
  unfold Spec.resized
  rcases Nat.lt_or_ge l.length n with hlt | hge
  · obtain ⟨b, mid, tail, hdat, hb, hblk, hml, hmf, htf, hcc⟩ := o1.room (n := n - l.length) (by omega) (by omega)
    rw [hdat, hsz, fillLoop_ok a (n - l.length) hblk rfl hml hmf (by simp)]
    simp only [R.ok_bind]
    rw [destroyReverse_zero _ _ _ _ _ (by omega)]
    simp only [R.ok_bind]
    have e3 : l.map Slot.live ++ (List.replicate (n - l.length) (.live a) ++ tail) =
        (l.take n ++ List.replicate (n - l.length) a).map .live ++ tail := by
      rw [List.take_of_length_le (by omega)]; simp
    rw [e3]
    exact Done.inPlace hw1 hdat hb htf rfl (by simp; omega) (by simp; omega)
  · have h0 : n - v1.size = 0 := by omega
    rw [h0]
    simp only [fillLoop, R.ok_bind]
    have h1 : n - l.length = 0 := by omega
    rw [h1]
    simpa using truncate_ok hw1 o1 hge

theorem shrinkToFit_ok {T : Ty α} {h : Heap α} (hw : WF h) {v : Vec} {l : List α} (o : Owns T h v l) :
    ∃ h' v', shrinkToFit T h v = .ok (h', v') ∧ Owns T h' v' l ∧ Frame h v.data h' v'.data ∧ v'.cap = v'.size ∧
      h'.leaked = h.leaked + (if T.triv = true ∨ v.size = v.cap then 0 else l.length) := by
  have hsz := o.1
  unfold shrinkToFit
  split
  · rename_i hne
    split
    · rename_i ht
      by_cases h0 : v.size = 0
      · have hl : l = [] := by rw [hsz] at h0; simpa using h0
        subst hl
        have hex : ∀ b, v.data = some b → ∃ s, h.blocks b = some s := by
          intro b hb
          rcases o.2 with ⟨hd, -⟩ | ⟨b', tail, hd, _, hblk, -⟩
          · rw [hd] at hb; simp at hb
          · rw [hd] at hb
            cases hb
            exact ⟨_, hblk⟩
        have hrz : ∀ p, (∀ b, p = some b → ∃ s, h.blocks b = some s) → realloc h p 0 = .ok (none, dropBlock h p) := by
          intro p hp
          rw [realloc_zero hp]
          cases p <;> rfl
        rw [h0, hrz _ hex]
        simp only [R.ok_bind]
        exact ⟨_, _, rfl, ⟨rfl, Or.inl ⟨rfl, rfl, rfl⟩⟩, Frame.drop hw _, rfl, by simp [ht]⟩
      · obtain ⟨tail, htl, hre⟩ := realloc_owns o (n := v.size) (by omega) (by omega)
        rw [hre]
        simp only [R.ok_bind]
        obtain ⟨h', v', e, o', f', lk⟩ := Done.fresh (T := T) hw o.lt (l := l) (tail := tail) (Or.inl ht)
          (n := v.size) (c := v.size) (by omega) hsz
        cases e
        exact ⟨_, _, rfl, o', f', rfl, by simp [ht]⟩
    · rename_i ht
      have ht' : T.triv = false := by simpa using ht
      obtain ⟨-, ⟨hd, hc, hl⟩ | ⟨b, tail, hd, hb, hblk, hf, hc⟩⟩ := o
      · subst hl; simp at hsz; omega
      · have hbn : b ≠ h.next := by omega
        rw [ht'] at hf
        rw [alloc_withNew]
        simp only [ht', moveConstructRange, Bool.false_eq_true, if_false]
        rw [hd, hsz, moveConstructLoop_ok l (i := 0) (s := b) (d := h.next) (pre1 := []) (pre2 := []) (post1 := tail)
          (mid2 := List.replicate l.length .raw) (post2 := []) hbn (by rw [withNew_old _ _ hbn]; exact hblk) (by simp)
          (withNew_new _ _) (by simp) (by simp) (Free.replicate _ _) rfl rfl]
        simp only [R.ok_bind, List.nil_append, List.append_nil]
        rw [Heap.set_comm _ _ _ hbn, withNew_set]
        unfold free
        simp only [Heap.set_blocks_self, Bool.false_eq_true, if_false, R.ok_bind, Heap.set_unset]
        rw [withNew_unset _ _ hbn]
        have hcount : ((List.replicate l.length (Slot.moved : Slot α) ++ tail).filter Slot.alive).length = l.length := by
          rw [List.filter_append, List.filter_replicate]
          have : tail.filter Slot.alive = [] := by
            rw [List.filter_eq_nil_iff]; intro x hx; simp [hf.dead x hx]
          rw [this]; simp [Slot.alive]
        have hne' : ¬ l.length = v.cap := by omega
        have hfr := Frame.fresh hw (p := some b) (by intro c hc; cases hc; exact hb) (l.map .live)
        refine ⟨_, _, rfl, ⟨rfl, Or.inr ⟨h.next, [], rfl, by simp, by simp, Free.nil _, by simp⟩⟩, ?_, rfl, ?_⟩
        · exact ⟨hfr.next, hfr.keep, hfr.gone, hfr.ptr, hfr.wf⟩
        · simp only [Heap.set_leaked, hcount, hne', or_self, if_false]
          rfl
  · rename_i hne
    have : v.size = v.cap := by simpa using hne
    exact ⟨h, v, rfl, o, Frame.refl hw _, this.symm, by simp [this]⟩

/-! ### removing -/

theorem removeLoop_ok {T : Ty α} {pred : α → Bool} (rest : List α) : ∀ {h : Heap α} {b idx i : Nat} {kept : List α}
    {gap tail : List (Slot α)} {s}, h.blocks b = some s →
    s = kept.map .live ++ (gap ++ (rest.map .live ++ tail)) → (∀ x ∈ gap, x.alive = true) → idx = kept.length →
    i = kept.length + gap.length →
    ∃ gap', gap'.length = gap.length + rest.countP pred ∧ (∀ x ∈ gap', x.alive = true) ∧
      removeLoop T pred h (some b) idx i rest.length =
        .ok (h.set b ((kept ++ rest.filter (fun a => !pred a)).map .live ++ (gap' ++ tail)),
          (kept ++ rest.filter (fun a => !pred a)).length) := by
  induction rest with
  | nil =>
    intro h b idx i kept gap tail s hb hs hal hidx hi
    refine ⟨gap, by simp, hal, ?_⟩
    simp only [List.map_nil, List.nil_append] at hs
    subst hs
    simp only [removeLoop, List.length_nil, List.filter_nil, List.append_nil]
    rw [Heap.set_self h hb, hidx]
  | cons a rest ih =>
    intro h b idx i kept gap tail s hb hs hal hidx hi
    simp only [List.length_cons, removeLoop]
    rw [read_mid (pre := kept.map .live ++ gap) (a := a) (post := rest.map .live ++ tail) hb (by simp [hs])
      (by simp [hi])]
    simp only [R.ok_bind]
    cases hp : pred a with
    | true =>
      simp only [Bool.not_true, Bool.false_eq_true, if_false]
      obtain ⟨gap', hl, hal', e⟩ := ih (kept := kept) (gap := gap ++ [.live a]) (tail := tail) (idx := idx) (i := i + 1)
        hb (by simp [hs]) (by
          intro x hx
          rcases List.mem_append.1 hx with hx | hx
          · exact hal x hx
          · simp at hx; subst hx; rfl) hidx (by simp; omega)
      refine ⟨gap', by simp [hl, hp]; omega, hal', ?_⟩
      rw [e]
      simp [hp]
    | false =>
      simp only [Bool.not_false, if_true]
      cases gap with
      | nil =>
        rw [if_neg (by simp at hi; omega)]
        obtain ⟨gap', hl, hal', e⟩ := ih (kept := kept ++ [a]) (gap := []) (tail := tail) (idx := idx + 1) (i := i + 1)
          hb (by simp [hs]) (by simp) (by simp; omega) (by simp at hi ⊢; omega)
        refine ⟨gap', by simp [hl, hp], hal', ?_⟩
        rw [e]
        simp [hp]
      | cons g gap =>
        rw [if_pos (by simp at hi; omega)]
        rw [moveAssign_down (pre := kept.map .live) (x := g) (mid := gap) (a := a) (post := rest.map .live ++ tail) hb
          (by simp [hs]) (by simp [hidx]) (by simp at hi ⊢; omega) (hal g (by simp))]
        simp only [R.ok_bind]
        obtain ⟨gap', hl, hal', e⟩ := ih (kept := kept ++ [a]) (gap := gap ++ [leftover T.triv a]) (tail := tail)
          (h := h.set b (kept.map .live ++ .live a :: (gap ++ leftover T.triv a :: (rest.map .live ++ tail))))
          (idx := idx + 1) (i := i + 1) (Heap.set_blocks_self _ _ _) (by simp) (by
          intro x hx
          rcases List.mem_append.1 hx with hx | hx
          · exact hal x (by simp [hx])
          · simp at hx; subst hx; simp) (by simp; omega) (by simp at hi ⊢; omega)
        refine ⟨gap', by simp [hl, hp], hal', ?_⟩
        rw [e]
        simp [hp]

theorem length_filter_countP (l : List α) (p : α → Bool) :
    (l.filter (fun a => !p a)).length + l.countP p = l.length := by
  induction l with
  | nil => rfl
  | cons a l ih => cases h : p a <;> simp [h] <;> omega

theorem removeAll_ok {T : Ty α} {pred : α → Bool} {h : Heap α} (hw : WF h) {v : Vec} {l : List α} (o : Owns T h v l) :
    ∃ h' v', removeAll T pred h v = .ok (l.countP pred, h', v') ∧ Owns T h' v' (l.filter (fun a => !pred a)) ∧
      Frame h v.data h' v'.data ∧ h'.leaked = h.leaked := by
  unfold removeAll
  have hcnt := length_filter_countP l pred
  obtain ⟨hsz, ⟨hd, hc, hl⟩ | ⟨b, tail, hd, hb, hblk, hf, hc⟩⟩ := o
  · subst hl
    rw [hsz]
    simp only [List.length_nil, removeLoop, R.ok_bind]
    rw [destroyReverse_zero _ _ _ _ _ (by omega)]
    exact ⟨_, _, rfl, ⟨rfl, Or.inl ⟨hd, hc, rfl⟩⟩, Frame.refl hw _, rfl⟩
  · obtain ⟨gap', hgl, hgal, e⟩ := removeLoop_ok (T := T) (pred := pred) l (kept := []) (gap := []) (tail := tail)
      (idx := 0) (i := 0) hblk (by simp) (by simp) rfl rfl
    simp only [List.nil_append] at e
    rw [hd, hsz, e]
    simp only [R.ok_bind]
    rw [destroyReverse_ok (mid := gap') (pre := (l.filter (fun a => !pred a)).map .live) (post := tail)
      (Heap.set_blocks_self _ _ _) rfl (by simp at hgl; omega) hgal (by simp)]
    simp only [R.ok_bind, Heap.set_set]
    have : Done T h v (l.filter (fun a => !pred a)) (.ok (h.set b ((l.filter (fun a => !pred a)).map .live ++ (destroyed T.triv gap' ++ tail)),
        { v with data := some b, size := (l.filter (fun a => !pred a)).length })) := by
      refine Done.inPlace hw hd hb ((destroyed_free _ _).append hf) rfl rfl ?_
      simp at hgl ⊢; omega
    obtain ⟨h', v', e', rest⟩ := this
    cases e'
    rw [hd] at rest
    refine ⟨_, _, ?_, rest⟩
    congr 2
    omega

theorem shiftLoop_ok {T : Ty α} (rest : List α) : ∀ {h : Heap α} {b i : Nat} {pre post : List (Slot α)} {x : Slot α} {s},
    h.blocks b = some s → s = pre ++ x :: (rest.map .live ++ post) → x.alive = true → i = pre.length + 1 →
    ∃ y, y.alive = true ∧
      shiftLoop T h (some b) i rest.length = .ok (h.set b (pre ++ (rest.map .live ++ y :: post))) := by
  induction rest with
  | nil =>
    intro h b i pre post x s hb hs hx hi
    refine ⟨x, hx, ?_⟩
    simp only [List.map_nil, List.nil_append] at hs
    subst hs
    simp only [List.length_nil, shiftLoop, List.map_nil, List.nil_append]
    rw [Heap.set_self h hb]
  | cons a rest ih =>
    intro h b i pre post x s hb hs hx hi
    simp only [List.length_cons, shiftLoop]
    rw [moveAssign_down (pre := pre) (x := x) (mid := []) (a := a) (post := rest.map .live ++ post) hb (by simp [hs])
      (by omega) (by simp; omega) hx]
    simp only [R.ok_bind]
    obtain ⟨y, hy, e⟩ := ih (pre := pre ++ [.live a]) (post := post) (x := leftover T.triv a) (i := i + 1)
      (h := h.set b (pre ++ .live a :: ([] ++ leftover T.triv a :: (rest.map .live ++ post))))
      (Heap.set_blocks_self _ _ _) (by simp) (by simp) (by simp; omega)
    refine ⟨y, hy, ?_⟩
    rw [e]
    simp

/-- The block of a vector, split at a valid index. -/
theorem Owns.at {T : Ty α} {h : Heap α} {v : Vec} {l : List α} (o : Owns T h v l) {k : Nat} (hk : k < l.length) :
    ∃ b tail, v.data = some b ∧ b < h.next ∧ l = l.take k ++ l[k] :: l.drop (k + 1) ∧
      h.blocks b = some ((l.take k).map .live ++ .live l[k] :: ((l.drop (k + 1)).map .live ++ tail)) ∧
      Free T.triv tail ∧ v.cap = l.length + tail.length := by
  obtain ⟨hsz, ⟨hd, hc, hl'⟩ | ⟨b, tail, hd, hb, hblk, hf, hc'⟩⟩ := o
  · subst hl'; simp at hk
  · have hsplit : l = l.take k ++ l[k] :: l.drop (k + 1) := by
      rw [List.getElem_cons_drop hk, List.take_append_drop]
    refine ⟨b, tail, hd, hb, hsplit, ?_, hf, hc'⟩
    rw [hblk]
    congr 1
    conv => lhs; rw [hsplit]
    simp only [List.map_append, List.map_cons, List.append_assoc, List.cons_append]

theorem removeAt_ok {T : Ty α} {h : Heap α} (hw : WF h) {v : Vec} {l : List α} (o : Owns T h v l) {k : Nat}
    (hk : k < l.length) : Done T h v (l.eraseIdx k) (removeAt T h v k) := by
  obtain ⟨b, tail, hd, hb, hsplit, hblk, hf, hc⟩ := o.at hk
  have hsz := o.1
  unfold removeAt
  rw [ccAssert_true (by simpa [hsz] using hk), hd, hsz]
  simp only [R.ok_bind]
  obtain ⟨y, hy, e⟩ := shiftLoop_ok (T := T) (l.drop (k + 1)) (pre := (l.take k).map .live) (x := .live l[k]) (post := tail)
    (i := k + 1) hblk rfl rfl (by simp; omega)
  rw [List.length_drop] at e
  rw [e]
  simp only [R.ok_bind]
  rw [destroy_mid (pre := (l.take k).map .live ++ (l.drop (k + 1)).map .live) (x := y) (post := tail)
    (Heap.set_blocks_self _ _ _) (by simp) (by simp; omega) hy]
  simp only [R.ok_bind, Heap.set_set]
  have e3 : (l.take k).map Slot.live ++ (l.drop (k + 1)).map .live ++ .raw :: tail =
      (l.eraseIdx k).map .live ++ (.raw :: tail) := by
    rw [List.eraseIdx_eq_take_drop_succ]; simp
  rw [e3]
  have hlen : (l.eraseIdx k).length = l.length - 1 := by rw [List.length_eraseIdx]; simp [hk]
  refine Done.inPlace hw hd hb ((Free.replicate T.triv 1).append hf) rfl (by simp [hlen]) ?_
  simp [hlen]; omega

theorem removeAt_bad {T : Ty α} {h : Heap α} {v : Vec} {l : List α} (o : Owns T h v l) {k : Nat}
    (hk : ¬ k < l.length) : removeAt T h v k = .error .assert := by
  unfold removeAt
  rw [ccAssert_false (by simpa [o.1] using hk)]; rfl

theorem swapElems_ok {T : Ty α} {h : Heap α} {v : Vec} {l : List α} (o : Owns T h v l) {k : Nat}
    (hk : k < l.length) : ∃ b tail, v.data = some b ∧ b < h.next ∧ Free T.triv tail ∧ v.cap = l.length + tail.length ∧
      swapElems T h v.data k (v.size - 1) =
        .ok (h.set b (((l.set k (l.getLast (by intro h0; subst h0; simp at hk))).dropLast ++ [l[k]]).map .live ++ tail)) := by
  obtain ⟨b, tail, hd, hb, hsplit, hblk, hf, hc⟩ := o.at hk
  have hsz := o.1
  refine ⟨b, tail, hd, hb, hf, hc, ?_⟩
  have hne : l ≠ [] := by intro h0; subst h0; simp at hk
  have hlast : l.getLast hne = l[l.length - 1] := List.getLast_eq_getElem hne
  rw [hd, hsz]
  unfold swapElems
  rw [take_mid' (pre := (l.take k).map .live) hblk rfl (by simp; omega)]
  simp only [R.ok_bind]
  by_cases hkl : k = l.length - 1
  · have hdrop : l.drop (k + 1) = [] := by simp; omega
    rw [hdrop] at *
    simp only [List.map_nil, List.nil_append] at *
    unfold Mem.moveAssign
    rw [if_pos ⟨rfl, hkl⟩, get_mid (pre := (l.take k).map .live) (Heap.set_blocks_self _ _ _) rfl (by simp; omega)]
    simp only [R.ok_bind, leftover_alive, if_true]
    have hset : (l.set k (l.getLast hne)).dropLast = l.take k := by
      rw [hlast]
      have : l.set k l[l.length - 1] = l := by
        have : l[l.length - 1] = l[k] := by congr 1; omega
        rw [this]; exact List.set_getElem_self hk
      rw [this, List.dropLast_eq_take]; congr 1; omega
    rw [hset]
    have hfin : ((l.take k ++ [l[k]]).map Slot.live ++ tail) = (l.take k).map .live ++ .live l[k] :: tail := by
      simp only [List.map_append, List.map_cons, List.map_nil, List.append_assoc, List.cons_append, List.nil_append]
    rw [hfin]
    cases ht : T.triv with
    | true =>
      simp only [if_true, R.ok_bind]
      rw [assign_mid (pre := (l.take k).map .live) _ (Heap.set_blocks_self _ _ _) rfl (by simp; omega) (by simp)]
      simp
    | false =>
      simp only [Bool.false_eq_true, if_false]
      rw [put_mid (pre := (l.take k).map .live) _ (Heap.set_blocks_self _ _ _) rfl (by simp; omega)]
      simp only [R.ok_bind]
      rw [assign_mid (pre := (l.take k).map .live) _ (Heap.set_blocks_self _ _ _) rfl (by simp; omega) rfl]
      simp
  · have hkl' : k < l.length - 1 := by omega
    have hne' : l.drop (k + 1) ≠ [] := by simp; omega
    have hd1 : l.drop (k + 1) = (l.drop (k + 1)).dropLast ++ [l.getLast hne] := by
      have h1 := (List.dropLast_concat_getLast hne').symm
      rw [List.getLast_drop] at h1
      exact h1
    generalize hM : (l.drop (k + 1)).dropLast = M at hd1
    have hMl : M.length = l.length - 1 - (k + 1) := by rw [← hM]; simp; omega
    rw [hd1] at hblk ⊢
    rw [moveAssign_down (pre := (l.take k).map .live) (x := leftover T.triv l[k]) (mid := M.map .live)
      (a := l.getLast hne) (post := tail) (Heap.set_blocks_self _ _ _) (by simp) (by simp; omega) (by simp; omega)
      (by simp)]
    simp only [R.ok_bind]
    rw [assign_mid (pre := (l.take k).map .live ++ .live (l.getLast hne) :: M.map .live) (x := leftover T.triv (l.getLast hne))
      (post := tail) _ (Heap.set_blocks_self _ _ _) (by simp) (by simp; omega) (by simp)]
    simp only [Heap.set_set]
    have hset : (l.set k (l.getLast hne)).dropLast = l.take k ++ l.getLast hne :: M := by
      have : l.set k (l.getLast hne) = l.take k ++ l.getLast hne :: l.drop (k + 1) := by
        rw [List.set_eq_take_append_cons_drop, if_pos hk]
      rw [this, hd1, ← List.cons_append, ← List.append_assoc, List.dropLast_concat]
    rw [hset]
    simp

theorem removeAtUnordered_ok {T : Ty α} {h : Heap α} (hw : WF h) {v : Vec} {l : List α} (o : Owns T h v l) {k : Nat}
    (hk : k < l.length) : Done T h v (Spec.swapRemove l k) (removeAtUnordered T h v k) := by
  have hsz := o.1
  have hne : l ≠ [] := by intro h0; subst h0; simp at hk
  obtain ⟨b, tail, hd, hb, hf, hc, e⟩ := swapElems_ok o hk
  unfold removeAtUnordered
  rw [ccAssert_true (by simpa [hsz] using hk), ccAssert_true (by simp; omega), e]
  simp only [R.ok_bind]
  have hsr : Spec.swapRemove l k = (l.set k (l.getLast hne)).dropLast := by
    unfold Spec.swapRemove
    rw [List.getLast?_eq_some_getLast hne]
  generalize hL : (l.set k (l.getLast hne)).dropLast = L at e hsr
  have hLl : L.length = l.length - 1 := by rw [← hL]; simp
  rw [hsr]
  have o' : Owns T (h.set b ((L ++ [l[k]]).map .live ++ tail)) v (L ++ [l[k]]) :=
    ⟨by simp; omega, Or.inr ⟨b, tail, hd, hb, by simp, hf, by simp; omega⟩⟩
  have hfr : Frame h v.data (h.set b ((L ++ [l[k]]).map .live ++ tail)) v.data := by rw [hd]; exact Frame.set hw hb _
  obtain ⟨h', v', e2, o2, f2, lk⟩ := popBack_ok hfr.wf o' (by simp)
  rw [List.dropLast_concat] at o2
  exact ⟨h', v', e2, o2, hfr.trans f2, lk⟩

theorem removeAtUnordered_bad {T : Ty α} {h : Heap α} {v : Vec} {l : List α} (o : Owns T h v l) {k : Nat}
    (hk : ¬ k < l.length) : removeAtUnordered T h v k = .error .assert := by
  unfold removeAtUnordered
  rw [ccAssert_false (by simpa [o.1] using hk)]; rfl

theorem findLoop_ok {pred : α → Bool} (rest : List α) : ∀ {h : Heap α} {b i : Nat} {pre post : List (Slot α)} {s},
    h.blocks b = some s → s = pre ++ (rest.map .live ++ post) → i = pre.length →
    findLoop pred h (some b) i rest.length = .ok ((rest.findIdx? pred).map (· + i)) := by
  induction rest with
  | nil => intro h b i pre post s hb hs hi; simp [findLoop]
  | cons a rest ih =>
    intro h b i pre post s hb hs hi
    simp only [List.length_cons, findLoop]
    rw [read_mid (pre := pre) (a := a) (post := rest.map .live ++ post) hb (by simp [hs]) hi]
    simp only [R.ok_bind, List.findIdx?_cons]
    cases hp : pred a with
    | true => simp
    | false =>
      simp only [Bool.false_eq_true, if_false]
      rw [ih (pre := pre ++ [.live a]) (post := post) hb (by simp [hs]) (by simp; omega)]
      congr 1
      cases rest.findIdx? pred with
      | none => rfl
      | some j => simp; omega

theorem findLoop_owns {T : Ty α} {pred : α → Bool} {h : Heap α} {v : Vec} {l : List α} (o : Owns T h v l) :
    findLoop pred h v.data 0 v.size = .ok (l.findIdx? pred) := by
  obtain ⟨hsz, ⟨hd, hc, hl'⟩ | ⟨b, tail, hd, hb, hblk, hf, hc'⟩⟩ := o
  · subst hl'; rw [hsz]; rfl
  · rw [hsz, hd, findLoop_ok l (i := 0) (pre := []) (post := tail) hblk (by simp) rfl]
    congr 1
    cases l.findIdx? pred <;> rfl

theorem eraseP_findIdx {l : List α} {p : α → Bool} :
    match l.findIdx? p with
    | some k => k < l.length ∧ l.eraseP p = l.eraseIdx k ∧ l.any p = true
    | none => l.eraseP p = l ∧ l.any p = false := by
  induction l with
  | nil => simp
  | cons a l ih =>
    rw [List.findIdx?_cons]
    cases hp : p a with
    | true => simp [hp]
    | false =>
      simp only [Bool.false_eq_true, if_false]
      cases hf : l.findIdx? p with
      | none =>
        rw [hf] at ih
        simp only [Option.map_none, List.eraseP_cons, hp, Bool.false_eq_true, if_false, ih.1, List.any_cons, ih.2]
        exact ⟨rfl, rfl⟩
      | some k =>
        rw [hf] at ih
        simp only [Option.map_some, List.eraseP_cons, hp, Bool.false_eq_true, if_false, ih.2.1, List.any_cons, ih.2.2,
          List.length_cons, List.eraseIdx_cons_succ]
        exact ⟨by omega, rfl, rfl⟩

theorem removeFirst_ok {T : Ty α} {pred : α → Bool} {h : Heap α} (hw : WF h) {v : Vec} {l : List α} (o : Owns T h v l) :
    ∃ h' v', removeFirst T pred h v = .ok (l.any pred, h', v') ∧ Owns T h' v' (l.eraseP pred) ∧
      Frame h v.data h' v'.data ∧ h'.leaked = h.leaked := by
  unfold removeFirst
  rw [findLoop_owns o]
  simp only [R.ok_bind]
  have hx := eraseP_findIdx (l := l) (p := pred)
  cases hf : l.findIdx? pred with
  | none =>
    rw [hf] at hx
    simp only at hx ⊢
    rw [hx.1, hx.2]
    exact ⟨_, _, rfl, o, Frame.refl hw _, rfl⟩
  | some k =>
    rw [hf] at hx
    simp only at hx ⊢
    obtain ⟨h', v', e, rest⟩ := removeAt_ok hw o hx.1
    rw [e, hx.2.1, hx.2.2]
    exact ⟨h', v', rfl, rest⟩

theorem removeFirstUnordered_ok {T : Ty α} {pred : α → Bool} {h : Heap α} (hw : WF h) {v : Vec} {l : List α}
    (o : Owns T h v l) :
    ∃ h' v', removeFirstUnordered T pred h v = .ok ((l.findIdx? pred).isSome, h', v') ∧
      Owns T h' v' (match l.findIdx? pred with | some k => Spec.swapRemove l k | none => l) ∧
      Frame h v.data h' v'.data ∧ h'.leaked = h.leaked := by
  unfold removeFirstUnordered
  rw [findLoop_owns o]
  simp only [R.ok_bind]
  have hx := eraseP_findIdx (l := l) (p := pred)
  cases hf : l.findIdx? pred with
  | none => exact ⟨_, _, rfl, o, Frame.refl hw _, rfl⟩
  | some k =>
    rw [hf] at hx
    simp only at hx ⊢
    obtain ⟨h', v', e, rest⟩ := removeAtUnordered_ok hw o hx.1
    rw [e]
    exact ⟨h', v', rfl, rest⟩

theorem rangeLoop_ok {T : Ty α} (rest : List α) : ∀ {h : Heap α} {b i cnt : Nat} {pre gap post : List (Slot α)} {s},
    h.blocks b = some s → s = pre ++ (gap ++ (rest.map .live ++ post)) → gap.length = cnt → 0 < cnt →
    (∀ x ∈ gap, x.alive = true) → i = pre.length → i + cnt + rest.length < 2 ^ 64 →
    ∃ gap', gap'.length = cnt ∧ (∀ x ∈ gap', x.alive = true) ∧
      rangeLoop T h (some b) cnt i rest.length = .ok (h.set b (pre ++ (rest.map .live ++ (gap' ++ post)))) := by
  induction rest with
  | nil =>
    intro h b i cnt pre gap post s hb hs hg hc hal hi hlt
    refine ⟨gap, hg, hal, ?_⟩
    simp only [List.map_nil, List.nil_append] at hs
    subst hs
    simp only [List.length_nil, rangeLoop, List.map_nil, List.nil_append]
    rw [Heap.set_self h hb]
  | cons a rest ih =>
    intro h b i cnt pre gap post s hb hs hg hc hal hi hlt
    simp only [List.length_cons] at hlt
    cases gap with
    | nil => simp at hg; omega
    | cons g gap =>
      simp only [List.length_cons, rangeLoop]
      simp only [List.length_cons] at hg
      have hw64 : w64 (i + cnt) = i + cnt := by unfold w64; exact Nat.mod_eq_of_lt (by omega)
      rw [hw64, moveAssign_down (pre := pre) (x := g) (mid := gap) (a := a) (post := rest.map .live ++ post) hb (by simp [hs])
        (by omega) (by omega) (hal g (by simp))]
      simp only [R.ok_bind]
      obtain ⟨gap', hgl, hal', e⟩ := ih (pre := pre ++ [.live a]) (gap := gap ++ [leftover T.triv a]) (post := post)
        (h := h.set b (pre ++ .live a :: (gap ++ leftover T.triv a :: (rest.map .live ++ post))))
        (i := i + 1) (cnt := cnt) (Heap.set_blocks_self _ _ _) (by simp) (by simp; omega) hc (by
          intro x hx
          rcases List.mem_append.1 hx with hx | hx
          · exact hal x (by simp [hx])
          · simp at hx; subst hx; simp) (by simp; omega) (by omega)
      refine ⟨gap', hgl, hal', ?_⟩
      rw [e]
      simp

theorem removeRange_ok {T : Ty α} {h : Heap α} (hw : WF h) {v : Vec} {l : List α} (o : Owns T h v l) {idx cnt : Nat}
    (hi : idx + cnt ≤ l.length) (hcnt : 0 < cnt) (hlt : l.length < 2 ^ 64) :
    Done T h v (l.take idx ++ l.drop (idx + cnt)) (removeRange T h v idx cnt) := by
  have hsz := o.1
  obtain ⟨-, ⟨hd, hc, hl'⟩ | ⟨b, tail, hd, hb, hblk, hf, hc'⟩⟩ := o
  · subst hl'; simp at hi; omega
  · have hns : w64 (l.length + (2 ^ 64 - cnt)) = l.length - cnt := by
      unfold w64
      have : l.length + (2 ^ 64 - cnt) = (l.length - cnt) + 2 ^ 64 := by omega
      rw [this, Nat.add_mod_right]; exact Nat.mod_eq_of_lt (by omega)
    have hw1 : w64 (idx + cnt) = idx + cnt := by unfold w64; exact Nat.mod_eq_of_lt (by omega)
    unfold removeRange
    rw [if_neg (by omega), ccAssert_true (by simp [hsz]; omega), hw1, ccAssert_true (by simp [hsz]; omega), hd, hsz]
    simp only [R.ok_bind]
    rw [hns]
    have hsplit : l = l.take idx ++ ((l.drop idx).take cnt ++ l.drop (idx + cnt)) := by
      rw [← List.drop_drop, List.take_append_drop, List.take_append_drop]
    have hblk2 : List.map Slot.live l ++ tail = (l.take idx).map .live ++ (((l.drop idx).take cnt).map .live ++
        ((l.drop (idx + cnt)).map .live ++ tail)) := by
      conv => lhs; rw [hsplit]
      simp only [List.map_append, List.append_assoc]
    obtain ⟨gap', hgl, hal, e⟩ := rangeLoop_ok (T := T) (l.drop (idx + cnt)) (pre := (l.take idx).map .live)
      (gap := ((l.drop idx).take cnt).map .live) (post := tail) (i := idx) (cnt := cnt) hblk hblk2 (by simp; omega) hcnt
      (alive_live _) (by simp; omega) (by simp; omega)
    have hlen : l.length - cnt - idx = (l.drop (idx + cnt)).length := by simp; omega
    rw [hlen, e]
    simp only [R.ok_bind]
    rw [destroyReverse_ok (mid := gap') (pre := (l.take idx).map .live ++ (l.drop (idx + cnt)).map .live) (post := tail)
      (Heap.set_blocks_self _ _ _) (by simp) (by omega) hal (by simp; omega)]
    simp only [R.ok_bind, Heap.set_set]
    have e3 : (l.take idx).map Slot.live ++ (l.drop (idx + cnt)).map .live = (l.take idx ++ l.drop (idx + cnt)).map .live := by
      simp
    rw [e3]
    exact Done.inPlace hw hd hb ((destroyed_free _ _).append hf) rfl (by simp; omega) (by simp; omega)

theorem removeRange_bad {T : Ty α} {h : Heap α} {v : Vec} {l : List α} (o : Owns T h v l) {idx cnt : Nat}
    (hi : ¬ idx + cnt ≤ l.length) (hcnt : cnt ≠ 0) (hlt : idx + cnt < 2 ^ 64) :
    removeRange T h v idx cnt = .error .assert := by
  unfold removeRange
  rw [if_neg hcnt]
  have hw1 : w64 (idx + cnt) = idx + cnt := by unfold w64; exact Nat.mod_eq_of_lt hlt
  rcases Nat.lt_or_ge idx v.size with h1 | h1
  · rw [ccAssert_true (by simpa using h1), hw1, ccAssert_false (by simp [o.1]; omega)]
    rfl
  · rw [ccAssert_false (by simp; omega)]
    rfl

/-! ### reading -/

theorem at_ok {T : Ty α} {h : Heap α} {v : Vec} {l : List α} (o : Owns T h v l) {k : Nat} (hk : k < l.length) :
    at_ h v k = .ok l[k] := by
  obtain ⟨b, tail, hd, hb, hsplit, hblk, hf, hc⟩ := o.at hk
  unfold at_
  rw [ccAssert_true (by simpa [o.1] using hk), hd]
  exact read_mid hblk rfl (by simp; omega)

theorem at_bad {T : Ty α} {h : Heap α} {v : Vec} {l : List α} (o : Owns T h v l) {k : Nat} (hk : ¬ k < l.length) :
    at_ h v k = .error .assert := by
  unfold at_
  rw [ccAssert_false (by simpa [o.1] using hk)]; rfl

theorem setAt_ok {T : Ty α} {h : Heap α} (hw : WF h) {v : Vec} {l : List α} (o : Owns T h v l) {k : Nat} {a : α}
    (hk : k < l.length) :
    Done T h v (l.set k a) (do
      let h ← setAt h v k a
      .ok (h, v)) := by
  obtain ⟨b, tail, hd, hb, hsplit, hblk, hf, hc⟩ := o.at hk
  unfold setAt
  rw [ccAssert_true (by simpa [o.1] using hk), hd]
  simp only [R.ok_bind]
  rw [assign_mid a hblk rfl (by simp; omega) rfl]
  simp only [R.ok_bind]
  have e3 : (l.take k).map Slot.live ++ .live a :: ((l.drop (k + 1)).map .live ++ tail) = (l.set k a).map .live ++ tail := by
    rw [List.set_eq_take_append_cons_drop, if_pos hk]; simp only [List.map_append, List.map_cons, List.append_assoc, List.cons_append]
  rw [e3]
  exact Done.inPlace hw hd hb hf hd (by simp [o.1]) (by simp [hc])

theorem setAt_bad {T : Ty α} {h : Heap α} {v : Vec} {l : List α} (o : Owns T h v l) {k : Nat} {a : α}
    (hk : ¬ k < l.length) : setAt h v k a = .error .assert := by
  unfold setAt
  rw [ccAssert_false (by simpa [o.1] using hk)]; rfl

theorem front_eq (h : Heap α) (v : Vec) : front h v = at_ h v 0 := rfl

theorem back_eq {h : Heap α} {v : Vec} (hv : 0 < v.size) : back h v = at_ h v (v.size - 1) := by
  unfold back at_
  rw [ccAssert_true (by simpa using hv), ccAssert_true (by simp; omega)]

theorem containsLoop_ok {T : Ty α} {a : α} (rest : List α) : ∀ {h : Heap α} {b i : Nat} {pre post : List (Slot α)} {s},
    h.blocks b = some s → s = pre ++ (rest.map .live ++ post) → i = pre.length →
    containsLoop T h (some b) a i rest.length = .ok (rest.any (fun x => T.eqv x a)) := by
  induction rest with
  | nil => intro h b i pre post s hb hs hi; simp [containsLoop]
  | cons x rest ih =>
    intro h b i pre post s hb hs hi
    simp only [List.length_cons, containsLoop]
    rw [read_mid (pre := pre) (a := x) (post := rest.map .live ++ post) hb (by simp [hs]) hi]
    simp only [R.ok_bind, List.any_cons]
    cases hp : T.eqv x a with
    | true => simp
    | false =>
      simp only [Bool.false_eq_true, if_false, Bool.false_or]
      exact ih (pre := pre ++ [.live x]) (post := post) hb (by simp [hs]) (by simp; omega)

theorem contains_owns {T : Ty α} {a : α} {h : Heap α} {v : Vec} {l : List α} (o : Owns T h v l) :
    containsLoop T h v.data a 0 v.size = .ok (l.any (fun x => T.eqv x a)) := by
  obtain ⟨hsz, ⟨hd, hc, hl'⟩ | ⟨b, tail, hd, hb, hblk, hf, hc'⟩⟩ := o
  · subst hl'; rw [hsz]; rfl
  · rw [hsz, hd, containsLoop_ok l (i := 0) (pre := []) (post := tail) hblk (by simp) rfl]

theorem eqLoop_ok {T : Ty α} (l1 : List α) : ∀ {l2 : List α} {h : Heap α} {b c i : Nat} {pre1 post1 pre2 post2 : List (Slot α)}
    {s t}, h.blocks b = some s → s = pre1 ++ (l1.map .live ++ post1) → h.blocks c = some t →
    t = pre2 ++ (l2.map .live ++ post2) → i = pre1.length → i = pre2.length → l1.length = l2.length →
    eqLoop T h (some b) (some c) i l1.length = .ok ((l1.zip l2).all (fun p => T.eqv p.1 p.2)) := by
  induction l1 with
  | nil => intros; simp [eqLoop]
  | cons x l1 ih =>
    intro l2 h b c i pre1 post1 pre2 post2 s t hb hs hc ht hi1 hi2 hl
    cases l2 with
    | nil => simp at hl
    | cons y l2 =>
      simp only [List.length_cons, eqLoop]
      rw [read_mid (pre := pre1) (a := x) (post := l1.map .live ++ post1) hb (by simp [hs]) hi1,
        read_mid (pre := pre2) (a := y) (post := l2.map .live ++ post2) hc (by simp [ht]) hi2]
      simp only [R.ok_bind, List.zip_cons_cons, List.all_cons]
      cases hp : T.eqv x y with
      | false => simp
      | true =>
        simp only [Bool.not_true, Bool.false_eq_true, if_false, Bool.true_and]
        exact ih (pre1 := pre1 ++ [.live x]) (post1 := post1) (pre2 := pre2 ++ [.live y]) (post2 := post2) hb (by simp [hs]) hc
          (by simp [ht]) (by simp; omega) (by simp; omega) (by simpa using hl)

theorem eq_owns {T : Ty α} {h : Heap α} {v w : Vec} {l m : List α} (o : Owns T h v l) (o' : Owns T h w m) :
    eq T h v w = .ok (l.length == m.length && (l.zip m).all (fun p => T.eqv p.1 p.2)) := by
  unfold eq
  rw [o.1, o'.1]
  split
  · rename_i hne
    have : (l.length == m.length) = false := by simpa using hne
    rw [this]; rfl
  · rename_i hne
    have hlen : l.length = m.length := by simpa using hne
    have : (l.length == m.length) = true := by simpa using hlen
    rw [this, Bool.true_and]
    obtain ⟨hsz, ⟨hd, hc, hl'⟩ | ⟨b, tail, hd, hb, hblk, hf, hc'⟩⟩ := o
    · subst hl'; rfl
    · obtain ⟨hsz2, ⟨hd2, hc2, hl2⟩ | ⟨b2, tail2, hd2, hb2, hblk2, hf2, hc2⟩⟩ := o'
      · subst hl2; rw [hlen]
        have : l = [] := by simpa using hlen
        subst this; rfl
      · rw [hd, hd2]
        exact eqLoop_ok l (pre1 := []) (pre2 := []) (post1 := tail) (post2 := tail2) hblk (by simp) hblk2 (by simp) rfl rfl hlen

/-! ### construction and destruction -/

theorem dtor_ok {T : Ty α} {h : Heap α} (_ : WF h) {v : Vec} {l : List α} (o : Owns T h v l) :
    dtor T h v = .ok (dropBlock h v.data) := by
  unfold dtor
  obtain ⟨hsz, ⟨hd, hc, hl'⟩ | ⟨b, tail, hd, hb, hblk, hf, hc'⟩⟩ := o
  · subst hl'
    rw [destroyReverse_zero _ _ _ _ _ (by simp at hsz; omega), hd]
    rfl
  · rw [hd, hsz, destroyReverse_ok (mid := l.map .live) (k := l.length) (lo := 0) (pre := []) (post := tail) hblk (by simp) (by simp) (alive_live _) rfl]
    simp only [R.ok_bind, List.nil_append]
    rw [free_ok (Heap.set_blocks_self _ _ _)]
    · simp [dropBlock]
    · rcases (destroyed_free T.triv (l.map .live)).append hf with h1 | h1
      · exact Or.inl h1
      · right; intro x hx; rw [h1 x hx]; rfl

theorem owns_empty (T : Ty α) (h : Heap α) : Owns T h Vec.empty [] := ⟨rfl, Or.inl ⟨rfl, rfl, rfl⟩⟩

theorem mkSized_ok {T : Ty α} {h : Heap α} (hw : WF h) (n : Nat) :
    Done T h Vec.empty (List.replicate n T.dflt) (mkSized T h n) := by
  unfold mkSized
  rw [alloc_withNew]
  simp only
  rw [fillLoop_ok (i := 0) (pre := []) (mid := List.replicate n .raw) (post := []) T.dflt n (withNew_new _ _) (by simp) (by simp)
    (Free.replicate _ _) rfl]
  simp only [R.ok_bind, withNew_set]
  have := Done.fresh (T := T) hw (v := Vec.empty) (by intro b hb; simp [Vec.empty] at hb)
    (l := List.replicate n T.dflt) (tail := []) (Free.nil _) (n := n) (c := n) (by simp) (by simp)
  simpa [Vec.empty, fresh, withNew] using this

theorem mkRange_ok {T : Ty α} {h : Heap α} (hw : WF h) {src : Src α} {xs : List α} (hsrc : SrcAvail h none src xs)
    (hn : xs.length ≤ 2 ^ 48) : Done T h Vec.empty xs (mkRange T h src xs.length) := by
  unfold mkRange
  obtain ⟨hd, hcap⟩ := reserve_ok hw (owns_empty T h) hn
  have hfr := hd
  obtain ⟨h1, v1, e, o1, f1, lk⟩ := hfr
  have hc1 := (hcap h1 v1 e).1
  refine hd.bind ?_
  intro h2 v2 e2 o2 hw2
  rw [e] at e2
  cases e2
  simp only
  by_cases h0 : xs = []
  · subst h0
    simp only [List.length_nil]
    rw [copyConstructRange_zero]
    simp only [R.ok_bind]
    have hs0 : v1.size = 0 := o2.1
    have : ({ v1 with size := 0 } : Vec) = v1 := by cases v1; simp_all
    rw [this]
    exact Done.refl hw2 o2
  · have hpos : 0 < xs.length := by
      cases xs with
      | nil => simp at h0
      | cons => simp
    obtain ⟨b, mid, tail, hdat, hb, hblk, hml, hmf, htf, hcc⟩ := o2.room (n := xs.length) hpos (by simpa using hc1)
    rw [hdat, copyConstructRange_ok (d0 := 0) (pre := []) (post := tail) (hsrc.srcOK f1 hdat) hblk (by simp) hml hmf rfl]
    simp only [R.ok_bind]
    exact Done.inPlace hw2 hdat hb htf rfl rfl (by simpa using hcc)

theorem Owns.srcAvail {T : Ty α} {h : Heap α} {v : Vec} {l : List α} (o : Owns T h v l) {p : Ptr}
    (hp : ∀ b, v.data = some b → p ≠ some b) : SrcAvail h p (.mem v.data 0) l := by
  intro hl
  obtain ⟨hsz, ⟨hd, hc, hl'⟩ | ⟨b, tail, hd, hb, hblk, hf, hc'⟩⟩ := o
  · exact absurd hl' hl
  · exact ⟨b, [], tail, hd, hp b hd, hb, rfl, by simpa using hblk⟩

theorem refill_ok {T : Ty α} {h h1 : Heap α} {v v1 w : Vec} {m : List α} (hav : SrcAvail h v.data (.mem w.data 0) m)
    (o1 : Owns T h1 { v1 with size := 0 } []) (f1 : Frame h v.data h1 v1.data) (lk1 : h1.leaked = h.leaked)
    (hc1 : m.length ≤ v1.cap) : Done T h v m (do
      let h ← copyConstructRange T.triv h1 (.mem w.data 0) m.length v1.data 0
      .ok (h, { v1 with size := m.length })) := by
  by_cases h0 : m = []
  · subst h0
    simp only [List.length_nil]
    rw [copyConstructRange_zero]
    exact ⟨_, _, rfl, o1, f1, lk1⟩
  · have hpos : 0 < m.length := by
      cases m with
      | nil => simp at h0
      | cons => simp
    obtain ⟨b, mid, tail, hdat, hb, hblk, hml, hmf, htf, hcc⟩ := o1.room (n := m.length) hpos (by simpa using hc1)
    simp only at hdat hcc
    rw [hdat, copyConstructRange_ok (d0 := 0) (pre := []) (post := tail) (hav.srcOK f1 hdat) hblk (by simp) hml hmf rfl]
    simp only [R.ok_bind]
    have : Done T h1 v1 m (.ok (h1.set b ([] ++ (m.map .live ++ tail)), { v1 with data := some b, size := m.length })) :=
      Done.inPlace f1.wf hdat hb htf rfl rfl (by simpa using hcc)
    obtain ⟨h2, v2, e2, o2, f2, lk2⟩ := this
    exact ⟨h2, v2, e2, o2, f1.trans f2, lk2.trans lk1⟩

theorem copyAssignOther_ok {T : Ty α} {h : Heap α} (hw : WF h) {v w : Vec} {l m : List α} (o : Owns T h v l)
    (o' : Owns T h w m) (hne : ∀ b, w.data = some b → v.data ≠ some b) :
    Done T h v m (copyAssignOther T h v w) := by
  unfold copyAssignOther
  have hav := o'.srcAvail hne
  have hm := o'.1
  rw [hm]
  have hd0 := clear_ok hw o
  unfold clear at hd0
  obtain ⟨h2, v2, e2, o2, f2, lk2⟩ := hd0
  rw [R.bind_eq_ok] at e2
  obtain ⟨h3, e3, e2⟩ := e2
  simp only [Except.ok.injEq, Prod.mk.injEq] at e2
  obtain ⟨rfl, rfl⟩ := e2
  rw [e3]
  simp only [R.ok_bind]
  split
  · rename_i hc
    have hdt := dtor_ok f2.wf o2
    unfold dtor at hdt
    simp only at hdt
    rw [destroyReverse_zero _ _ _ _ _ (by omega)] at hdt
    simp only [R.ok_bind] at hdt
    rw [hdt]
    simp only [R.ok_bind, alloc_withNew]
    have f3 := Frame.drop f2.wf v.data
    have hfr := Frame.fresh f3.wf (p := none) (by simp) (List.replicate m.length .raw)
    exact refill_ok (v1 := { data := some (dropBlock h3 v.data).next, size := v.size, cap := m.length }) hav
      ⟨rfl, Or.inr ⟨_, List.replicate m.length .raw, rfl, by simp [withNew], by simpa using withNew_new (dropBlock h3 v.data) (List.replicate m.length .raw), Free.replicate _ _, by simp⟩⟩
      (f2.trans (f3.trans hfr)) (by simpa [withNew] using lk2) (Nat.le_refl _)
  · rename_i hc
    exact refill_ok hav o2 f2 lk2 (by omega)

end Verif.Vector
