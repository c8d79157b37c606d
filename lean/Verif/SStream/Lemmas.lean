import Verif.SStream.Spec
import Verif.Mem.Lemmas
import Verif.Str.Ops

/-! Each member function of a stream does what it should. -/
namespace Verif.SStream
open Mem
open Verif.StrView (Chr)

/-- The stream `s` holds the characters `l`. -/
structure Good (h : Heap Chr) (s : SS) (l : List Chr) : Prop where
  curr : s.curr = s.data
  off : s.off = l.length
  hi : s.cap < 2 ^ 62
  len : l.length < 2 ^ 61
  none : s.data = none → l = [] ∧ s.cap = 0
  some : ∀ b, s.data = some b → b < h.next ∧ ∃ r, h.blocks b = some (l.map .live ++ r) ∧ l.length + r.length = s.cap

/-- The heap changes from `h` to `h'` by exchanging the block `p` for the block `q`. -/
structure Ch (h h' : Heap Chr) (p q : Ptr) : Prop where
  next : h.next ≤ h'.next
  keep : ∀ x, x < h.next → p ≠ some x → h'.blocks x = h.blocks x
  own : ∀ b, q = some b → p = some b ∨ h.next ≤ b
  only : ∀ x, h'.blocks x ≠ none → q = some x ∨ (x < h.next ∧ p ≠ some x)
  bound : ∀ x, h'.next ≤ x → h'.blocks x = none

/-- Nothing beyond the allocated blocks. -/
def Bound (h : Heap Chr) : Prop := ∀ x, h.next ≤ x → h.blocks x = none

/-- The block exists. -/
def Has (h : Heap Chr) (p : Ptr) : Prop := ∀ b, p = some b → b < h.next ∧ ∃ s, h.blocks b = some s

theorem Good.has {h : Heap Chr} {s : SS} {l : List Chr} (g : Good h s l) : Has h s.data := by
  intro b e
  obtain ⟨h1, r, h2, _⟩ := g.some b e
  exact ⟨h1, _, h2⟩

theorem Good.size {h : Heap Chr} {s : SS} {l : List Chr} (g : Good h s l) : s.size = .ok l.length := by
  unfold SS.size; rw [if_pos g.curr, g.off]

theorem Good.empty {h : Heap Chr} {s : SS} {l : List Chr} (g : Good h s l) : s.empty = decide (l = []) := by
  unfold SS.empty
  rw [g.off]
  simp [g.curr, List.length_eq_zero_iff]

theorem Good.le {h : Heap Chr} {s : SS} {l : List Chr} (g : Good h s l) : l.length ≤ s.cap := by
  cases e : s.data with
  | none => rw [(g.none e).1]; simp
  | some b => obtain ⟨_, r, _, h3⟩ := g.some b e; omega

theorem data_cases (p : Ptr) : p = none ∨ ∃ b, p = some b := by
  cases p with
  | none => exact Or.inl rfl
  | some b => exact Or.inr ⟨b, rfl⟩

theorem good_new (h : Heap Chr) : Good h SS.new [] :=
  ⟨rfl, rfl, by decide, by decide, fun _ => ⟨rfl, rfl⟩, fun b e => by cases e⟩

theorem ch_refl {h : Heap Chr} (hb : Bound h) {p : Ptr} (hp : Has h p) : Ch h h p p := by
  refine ⟨Nat.le_refl _, fun _ _ _ => rfl, fun b e => Or.inl e, fun x hx => ?_, hb⟩
  by_cases e : p = some x
  · exact Or.inl e
  · refine Or.inr ⟨?_, e⟩
    rcases Nat.lt_or_ge x h.next with h1 | h1
    · exact h1
    · exact absurd (hb x h1) hx

theorem ch_set {h : Heap Chr} (hb : Bound h) {b : Nat} (hp : b < h.next) (s : List (Slot Chr)) : Ch h (h.set b s) (some b) (some b) := by
  refine ⟨Nat.le_refl _, fun x _ hx => Heap.set_blocks_ne _ _ (fun e => hx (by rw [e])), fun b e => Or.inl e, fun x hx => ?_, fun x hx => ?_⟩
  · by_cases e : x = b
    · exact Or.inl (by rw [e])
    · refine Or.inr ⟨?_, fun e' => e (Option.some.inj e').symm⟩
      rcases Nat.lt_or_ge x h.next with h1 | h1
      · exact h1
      · rw [Heap.set_blocks_ne _ _ e] at hx; exact absurd (hb x h1) hx
  · have hx' : h.next ≤ x := hx
    rw [Heap.set_blocks_ne _ _ (by omega)]; exact hb x hx'

theorem ch_trans {h h' h'' : Heap Chr} {p q r : Ptr} (a : Ch h h' p q) (b : Ch h' h'' q r) (hp : Has h p) : Ch h h'' p r := by
  refine ⟨Nat.le_trans a.next b.next, fun x hx hpx => ?_, fun c e => ?_, fun x hx => ?_, b.bound⟩
  · have hq : q ≠ some x := by
      intro e
      rcases a.own x e with h1 | h1
      · exact hpx h1
      · omega
    rw [b.keep x (Nat.lt_of_lt_of_le hx a.next) hq, a.keep x hx hpx]
  · rcases b.own c e with h1 | h1
    · exact a.own c h1
    · exact Or.inr (Nat.le_trans a.next h1)
  · rcases b.only x hx with h1 | ⟨h1, h2⟩
    · exact Or.inl h1
    · rw [b.keep x h1 h2] at hx
      rcases a.only x hx with h3 | h3
      · exact absurd h3 h2
      · exact Or.inr h3

theorem fresh_ch {h : Heap Chr} (hb : Bound h) {p : Ptr} (hp : Has h p) (s : List (Slot Chr)) : Ch h (fresh h p s) p (some h.next) := by
  refine ⟨by simp, fun x hx hpx => fresh_blocks_old h s (by omega) hpx, fun b e => Or.inr (Nat.le_of_eq (Option.some.inj e)), fun x hx => ?_, fun x hx => ?_⟩
  · by_cases e : x = h.next
    · exact Or.inl (by rw [e])
    · refine Or.inr ?_
      by_cases e' : p = some x
      · subst e'; rw [fresh_blocks_freed h s e] at hx; exact absurd rfl hx
      · rw [fresh_blocks_old h s e e'] at hx
        refine ⟨?_, e'⟩
        rcases Nat.lt_or_ge x h.next with h1 | h1
        · exact h1
        · exact absurd (hb x h1) hx
  · rw [fresh_next] at hx
    have : p ≠ some x := by
      intro e
      have := (hp x e).1
      omega
    rw [fresh_blocks_old h s (by omega) this]
    exact hb x (by omega)

theorem free_ch {h : Heap Chr} (hb : Bound h) {p : Ptr} (hp : Has h p) : ∃ h', free true h p = .ok h' ∧ h'.next = h.next ∧ Ch h h' p none := by
  cases p with
  | none => exact ⟨h, rfl, rfl, ch_refl hb hp⟩
  | some b =>
    obtain ⟨h1, s, h2⟩ := hp b rfl
    refine ⟨_, free_ok h2 (Or.inl rfl), rfl, Nat.le_refl _, fun x _ hx => Heap.unset_blocks_ne _ (fun e => hx (by rw [e])), (fun b e => by cases e), fun x hx => ?_, fun x hx => ?_⟩
    · by_cases e : x = b
      · subst e; rw [Heap.unset_blocks_self] at hx; exact absurd rfl hx
      · refine Or.inr ⟨?_, fun e' => e (Option.some.inj e').symm⟩
        rcases Nat.lt_or_ge x h.next with h3 | h3
        · exact h3
        · rw [Heap.unset_blocks_ne _ e] at hx; exact absurd (hb x h3) hx
    · have hx' : h.next ≤ x := hx
      rw [Heap.unset_blocks_ne _ (by omega)]; exact hb x hx'

/-- Allocating first and freeing afterwards is the same as `fresh`. -/
theorem free_fresh {h : Heap Chr} {p : Ptr} (hp : Has h p) (s : List (Slot Chr)) : free true (fresh h none s) p = .ok (fresh h p s) := by
  cases p with
  | none => rfl
  | some b =>
    obtain ⟨h1, t, h2⟩ := hp b rfl
    have e : (fresh h none s).blocks b = some t := by rw [fresh_blocks_old h s (by omega) (by simp)]; exact h2
    rw [free_ok e (Or.inl rfl)]
    congr 1
    simp only [fresh, Heap.set, Heap.unset]
    congr 1
    funext x
    by_cases e1 : x = b <;> by_cases e2 : x = h.next <;> simp [e1, e2] <;> omega

/-- `new char[n]` followed by a copy of `l` from block `c`. -/
theorem copy_fresh {h : Heap Chr} {l : List Chr} {c n : Nat} {r : List (Slot Chr)} (hc : c < h.next) (hcb : h.blocks c = some (l.map .live ++ r))
    (hn : l.length ≤ n) : memcpy (fresh h none (List.replicate n .raw)) (some h.next) 0 (some c) 0 l.length
      = .ok (fresh h none (l.map .live ++ List.replicate (n - l.length) .raw)) := by
  have e : (fresh h none (List.replicate n .raw)).blocks c = some (l.map .live ++ r) := by
    rw [fresh_blocks_old h _ (by omega) (by simp)]; exact hcb
  rw [memcpy_ok (fresh_blocks_new h none _) e (by omega) (by simp; omega) (by simp)]
  rw [fresh_set]
  congr 2
  have : (l.map Slot.live ++ r).take l.length = l.map Slot.live := by
    rw [List.take_append_of_le_length (by simp)]; exact List.take_of_length_le (by simp)
  simp [this]

theorem reserve_ok {h : Heap Chr} {s : SS} {l : List Chr} (hb : Bound h) (g : Good h s l) {n : Nat} (hn : l.length + n < 2 ^ 61) :
    ∃ h' s', reserve h s n = .ok (h', s') ∧ Good h' s' l ∧ Ch h h' s.data s'.data ∧ l.length + n ≤ s'.cap ∧ (l.length + n ≤ s.cap → h' = h ∧ s' = s) := by
  unfold reserve
  have hm : (l.length + n) % 2 ^ 64 = l.length + n := Nat.mod_eq_of_lt (by omega)
  rw [g.size, R.ok_bind, hm]
  by_cases hc : l.length + n ≤ s.cap
  · rw [if_pos hc]
    exact ⟨h, s, rfl, g, ch_refl hb g.has, hc, fun _ => ⟨rfl, rfl⟩⟩
  · rw [if_neg hc]
    have hs : (s.cap <<< 1) % 2 ^ 64 = s.cap * 2 := by
      rw [Nat.shiftLeft_eq]; exact Nat.mod_eq_of_lt (by have := g.hi; omega)
    rw [hs]
    have hN : ∃ N, (if s.cap * 2 < l.length + n then l.length + n else s.cap * 2) = N ∧ l.length + n ≤ N ∧ N < 2 ^ 62 := by
      split
      · exact ⟨_, rfl, Nat.le_refl _, by omega⟩
      · exact ⟨_, rfl, by omega, by omega⟩
    obtain ⟨N, e, hN1, hN2⟩ := hN
    rw [e]
    have e0 : newChars h N = (some h.next, fresh h none (List.replicate N .raw)) := by
      unfold newChars; rw [Nat.mod_eq_of_lt (by omega)]; rfl
    dsimp only
    rw [e0]
    have key : (if s.empty then .ok (fresh h none (List.replicate N .raw)) else memcpy (fresh h none (List.replicate N .raw)) (some h.next) 0 s.data 0 l.length : R (Heap Chr))
        = .ok (fresh h none (l.map .live ++ List.replicate (N - l.length) .raw)) := by
      rw [g.empty]
      by_cases hl : l = []
      · subst hl; simp
      · rw [if_neg (by simp [hl])]
        cases ed : s.data with
        | none => exact absurd (g.none ed).1 hl
        | some c =>
          obtain ⟨h1, r, h2, _⟩ := g.some c ed
          exact copy_fresh h1 h2 (by omega)
    have key2 : free true (fresh h none (l.map .live ++ List.replicate (N - l.length) .raw)) s.data = .ok (fresh h s.data (l.map .live ++ List.replicate (N - l.length) .raw)) :=
      free_fresh g.has _
    refine ⟨fresh h s.data (l.map .live ++ List.replicate (N - l.length) .raw), { data := some h.next, curr := some h.next, off := l.length, cap := N }, ?_, ?_, fresh_ch hb g.has _, hN1,
      fun h1 => absurd h1 hc⟩
    · refine ((congrArg (fun r : R (Heap Chr) => r >>= _) key).trans ?_)
      rw [R.ok_bind, key2]
      rfl
    · refine ⟨rfl, rfl, hN2, g.len, (fun e => by cases e), fun b e => ?_⟩
      obtain rfl : h.next = b := Option.some.inj e
      exact ⟨by simp, _, fresh_blocks_new h _ _, by simp; omega⟩

/-- Writing `m` behind the characters of a stream with enough room. -/
theorem write_ok {h : Heap Chr} {s : SS} {l m : List Chr} (hb : Bound h) (g : Good h s l) (hm : m ≠ []) (hl : l.length + m.length < 2 ^ 61)
    (hc : l.length + m.length ≤ s.cap) : ∃ b pre post, s.data = some b ∧ h.blocks b = some (l.map .live ++ (pre ++ post)) ∧ pre.length = m.length ∧
      ∀ h', h' = h.set b (l.map .live ++ (m.map .live ++ post)) → Good h' { s with off := s.off + m.length } (l ++ m) ∧ Ch h h' s.data s.data := by
  have hm0 : 0 < m.length := List.length_pos_iff.2 hm
  rcases data_cases s.data with e | ⟨b, e⟩
  · have := (g.none e).2; omega
  · obtain ⟨h1, r, h2, h3⟩ := g.some b e
    refine ⟨b, r.take m.length, r.drop m.length, e, by rw [List.take_append_drop]; exact h2, by simp; omega, ?_⟩
    rintro _ rfl
    refine ⟨⟨g.curr, by rw [List.length_append]; exact congrArg (· + m.length) g.off, g.hi, by simp; omega, (fun h0 => absurd h0 (by rw [e]; simp)), fun c hcd => ?_⟩, by rw [e]; exact ch_set hb h1 _⟩
    obtain rfl : b = c := Option.some.inj (e.symm.trans hcd)
    exact ⟨h1, r.drop m.length, by simp, by simp; omega⟩

theorem append_ok {h : Heap Chr} {s : SS} {l : List Chr} (hb : Bound h) (g : Good h s l) {m : List Chr} (hl : l.length + m.length < 2 ^ 61) :
    ∃ h' s', append h s m = .ok (h', s') ∧ Good h' s' (l ++ m) ∧ Ch h h' s.data s'.data ∧ (l.length + m.length ≤ s.cap → s'.data = s.data ∧ s'.cap = s.cap) := by
  unfold append
  by_cases hm : m = []
  · rw [if_pos hm, hm]
    exact ⟨h, s, rfl, by simpa using g, ch_refl hb g.has, fun _ => ⟨rfl, rfl⟩⟩
  · rw [if_neg hm]
    obtain ⟨h1, s1, e1, g1, c1, hc, hk⟩ := reserve_ok hb g hl
    obtain ⟨b, pre, post, e2, e3, e4, k⟩ := write_ok c1.bound g1 hm hl hc
    obtain ⟨g2, c2⟩ := k _ rfl
    rw [e1, R.ok_bind]
    dsimp only
    have e5 := copyConstructRange_ok (triv := true) (src := .ext m) (l := m) (d0 := s1.off) (mid := pre) (post := post) (show SrcOK h1 b (.ext m) m from rfl) e3 rfl e4 (Or.inl rfl)
      (by rw [g1.off]; simp)
    rw [show copyConstructRange true h1 (.ext m) m.length s1.curr s1.off = .ok (h1.set b (l.map .live ++ (m.map .live ++ post))) by rw [g1.curr, e2]; exact e5, R.ok_bind]
    refine ⟨_, _, rfl, ?_, ?_, ?_⟩
    · exact g2
    · exact ch_trans c1 c2 g.has
    · intro hh
      obtain ⟨_, rfl⟩ := hk hh
      exact ⟨rfl, rfl⟩

theorem appendChar_ok {h : Heap Chr} {s : SS} {l : List Chr} (hb : Bound h) (g : Good h s l) {c : Chr} (hl : l.length + 1 < 2 ^ 61) :
    ∃ h' s', appendChar h s c = .ok (h', s') ∧ Good h' s' (l ++ [c]) ∧ Ch h h' s.data s'.data ∧ (l.length + 1 ≤ s.cap → s'.data = s.data ∧ s'.cap = s.cap) := by
  unfold appendChar
  obtain ⟨h1, s1, e1, g1, c1, hc, hk⟩ := reserve_ok hb g hl
  obtain ⟨b, pre, post, e2, e3, e4, k⟩ := write_ok (m := [c]) c1.bound g1 (by simp) hl hc
  obtain ⟨g2, c2⟩ := k _ rfl
  rw [e1, R.ok_bind]
  dsimp only
  obtain ⟨x, rfl⟩ : ∃ x, pre = [x] := List.length_eq_one_iff.1 e4
  have e5 := construct_mid (triv := true) (i := s1.off) c e3 rfl (by rw [g1.off]; simp) (Or.inl rfl)
  rw [show construct true h1 s1.curr s1.off c = .ok (h1.set b (l.map .live ++ ([c].map .live ++ post))) by rw [g1.curr, e2]; exact e5, R.ok_bind]
  refine ⟨_, _, rfl, ?_, ?_, ?_⟩
  · exact g2
  · exact ch_trans c1 c2 g.has
  · intro hh
    obtain ⟨_, rfl⟩ := hk hh
    exact ⟨rfl, rfl⟩

theorem readChars_ok {h : Heap Chr} {b : Nat} (l : List Chr) : ∀ {pre post : List (Slot Chr)} {i : Nat}, h.blocks b = some (pre ++ (l.map .live ++ post)) → i = pre.length →
    readChars h (some b) i l.length = .ok l := by
  induction l with
  | nil => intros; rfl
  | cons c l ih =>
    intro pre post i hb hi
    show (do
      let c ← read h (some b) i
      let l ← readChars h (some b) (i + 1) l.length
      .ok (c :: l) : R (List Chr)) = _
    rw [read_mid (pre := pre) (post := l.map .live ++ post) (a := c) hb (by simp) hi, R.ok_bind,
      ih (pre := pre ++ [.live c]) (post := post) (by rw [hb]; simp) (by simp; omega), R.ok_bind]

theorem toString_ok {h : Heap Chr} {s : SS} {l : List Chr} (g : Good h s l) (junk : Nat → Chr) :
    ∃ r, toString junk h s = .ok r ∧ Str.Good 15 r l true 0 := by
  unfold toString
  rw [g.empty]
  by_cases hl : l = []
  · subst hl
    refine ⟨_, by simp; rfl, ?_⟩
    obtain ⟨u, m, h1, h2, h3⟩ := Str.uninitialized_ok (C := 15) (by decide) (by decide) junk 0 (by decide)
    refine ⟨⟨List.replicate 16 0#8, rfl, by decide, fun _ => rfl⟩, rfl, rfl, by decide, by decide, by decide, by decide⟩
  · rw [if_neg (by simp [hl]), g.size, R.ok_bind]
    obtain ⟨u, m, h1, h2, h3⟩ := Str.uninitialized_ok (C := 15) (by decide) (by decide) junk l.length g.len
    obtain ⟨q, hq, hql, hqt⟩ := h3.ex
    cases ed : s.data with
    | none => exact absurd (g.none ed).1 hl
    | some c =>
      obtain ⟨_, r, hr, _⟩ := g.some c ed
      rw [h1, R.ok_bind, hq, R.ok_bind, readChars_ok l (pre := []) (i := 0) (by simpa using hr) rfl, R.ok_bind, Str.memcpy_pre h2.symm, R.ok_bind]
      refine ⟨_, rfl, ?_⟩
      have := Str.good_set' h3 l q true rfl (by rw [h3.size, h2]) (by rw [← h2]; exact hql) (by rw [← h2]; exact h3.fits) hqt
      exact this

theorem copyCtor_ok {h : Heap Chr} {r : SS} {l : List Chr} (hb : Bound h) (g : Good h r l) :
    ∃ h' s', copyCtor h r = .ok (h', s') ∧ Good h' s' l ∧ Ch h h' none s'.data := by
  unfold copyCtor
  rw [g.empty]
  by_cases hl : l = []
  · subst hl
    exact ⟨h, SS.new, by simp, good_new h, ch_refl hb (fun b e => by cases e)⟩
  · rw [if_neg (by simp [hl]), g.size, R.ok_bind]
    have e0 : newChars h l.length = (some h.next, fresh h none (List.replicate l.length .raw)) := by
      unfold newChars; rw [Nat.mod_eq_of_lt (by have := g.len; omega)]; rfl
    rw [e0]
    cases ed : r.data with
    | none => exact absurd (g.none ed).1 hl
    | some c =>
      obtain ⟨h1, t, h2, _⟩ := g.some c ed
      refine ⟨_, _, (congrArg (fun r : R (Heap Chr) => r >>= _) (copy_fresh h1 h2 (Nat.le_refl _))).trans rfl, ?_, ?_⟩
      · refine ⟨rfl, rfl, by have := g.len; simp only; omega, g.len, (fun e => by cases e), fun b e => ?_⟩
        obtain rfl : h.next = b := Option.some.inj e
        exact ⟨by simp, _, fresh_blocks_new h _ _, by simp⟩
      · exact fresh_ch hb (fun b e => by cases e) _

theorem copyAssign_ok {h : Heap Chr} {s r : SS} {l m : List Chr} (hb : Bound h) (gs : Good h s l) (g : Good h r m)
    (hd : ∀ b, s.data = some b → r.data ≠ some b) :
    ∃ h' s', copyAssign h s r = .ok (h', s') ∧ Good h' s' m ∧ Ch h h' s.data s'.data := by
  unfold copyAssign
  rw [g.size, R.ok_bind]
  by_cases hc : s.cap < m.length
  · rw [if_pos hc]
    obtain ⟨h1, e1, en, c1⟩ := free_ch hb gs.has
    have e0 : newChars h1 m.length = (some h1.next, fresh h1 none (List.replicate m.length .raw)) := by
      unfold newChars; rw [Nat.mod_eq_of_lt (by have := g.len; omega)]; rfl
    have hm : m ≠ [] := by intro e; subst e; simp at hc
    cases ed : r.data with
    | none => exact absurd (g.none ed).1 hm
    | some c =>
      obtain ⟨a1, t, a2, _⟩ := g.some c ed
      have hsc : s.data ≠ some c := fun e => hd c e ed
      have k2 : h1.blocks c = some (m.map .live ++ t) := by rw [c1.keep c a1 hsc]; exact a2
      have k3 := copy_fresh (h := h1) (n := m.length) (by omega) k2 (Nat.le_refl _)
      have hem : r.empty = false := by rw [g.empty]; simp [hm]
      refine ⟨fresh h1 none (m.map .live ++ List.replicate (m.length - m.length) .raw), { data := some h1.next, curr := some h1.next, off := m.length, cap := m.length }, ?_, ?_, ?_⟩
      · rw [e1, R.ok_bind, e0, hem]
        dsimp only
        rw [R.ok_bind, if_neg (by simp), k3]
        rfl
      · refine ⟨rfl, rfl, by have := g.len; simp only; omega, g.len, (fun e => by cases e), fun b e => ?_⟩
        obtain rfl : h1.next = b := Option.some.inj e
        exact ⟨by simp, _, fresh_blocks_new h1 _ _, by simp⟩
      · exact ch_trans c1 (fresh_ch c1.bound (fun b e => by cases e) _) gs.has
  · rw [if_neg hc, R.ok_bind]
    dsimp only
    rw [g.empty]
    by_cases hm : m = []
    · subst hm
      refine ⟨h, { s with curr := s.data, off := 0 }, by simp, ⟨rfl, rfl, gs.hi, by decide, fun e => ⟨rfl, (gs.none e).2⟩, fun b e => ?_⟩, ch_refl hb gs.has⟩
      obtain ⟨a1, t, a2, a3⟩ := gs.some b e
      exact ⟨a1, l.map .live ++ t, by simpa using a2, by simp; omega⟩
    · rw [if_neg (by simp [hm])]
      have hm0 : 0 < m.length := List.length_pos_iff.2 hm
      cases ed : r.data with
      | none => exact absurd (g.none ed).1 hm
      | some c =>
        obtain ⟨a1, t, a2, _⟩ := g.some c ed
        rcases data_cases s.data with es | ⟨b, es⟩
        · have := (gs.none es).2; omega
        · obtain ⟨b1, u, b2, b3⟩ := gs.some b es
          have hne : b ≠ c := fun e => hd b es (by rw [ed, e])
          have k := memcpy_ok (i := 0) (j := 0) (n := m.length) b2 a2 hne (by simp; omega) (by simp)
          have this : (m.map Slot.live ++ t).take m.length = m.map Slot.live := by
            rw [List.take_append_of_le_length (by simp)]; exact List.take_of_length_le (by simp)
          rw [show memcpy h s.data 0 (some c) 0 m.length = _ from (by rw [es]; exact k : memcpy h s.data 0 (some c) 0 m.length = .ok (h.set b _)), R.ok_bind]
          refine ⟨_, _, rfl, ?_, by rw [es]; exact ch_set hb b1 _⟩
          refine ⟨rfl, rfl, gs.hi, g.len, (fun e => absurd e (by rw [es]; simp)), fun d e => ?_⟩
          obtain rfl : b = d := Option.some.inj (es.symm.trans e)
          exact ⟨b1, (l.map Slot.live ++ u).drop m.length, by simp [this], by simp; omega⟩

end Verif.SStream
