import Verif.Str.Model
import Verif.StrView.SplitProps
/-! Helper lemmas for the strings: buffers and loops on them. -/
namespace Verif.Str
open Verif.StrView (Chr View)

/-! ### Bytes of a number -/

theorem leBytes_length (n c : Nat) : (leBytes n c).length = n := by
  induction n generalizing c with
  | zero => rfl
  | succ n ih => rw [leBytes, List.length_cons, ih]

theorem leVal_leBytes (n c : Nat) : leVal (leBytes n c) = c % 256 ^ n := by
  induction n generalizing c with
  | zero => rw [leBytes, leVal, Nat.pow_zero, Nat.mod_one]
  | succ n ih =>
    rw [leBytes, leVal, ih, Nat.pow_succ, Nat.mul_comm (256 ^ n) 256, Nat.mod_mul]
    rw [BitVec.toNat_ofNat]

/-! ### Primitive accesses -/

theorem rd_app {x z : List Chr} {c : Chr} {i : Nat} (hi : i = x.length) : rd (x ++ c :: z) i = .ok c := by
  subst hi
  unfold rd
  rw [List.getElem?_append_right (Nat.le_refl _), Nat.sub_self]
  rfl

theorem wr_app {x z : List Chr} {c d : Chr} {i : Nat} (hi : i = x.length) : wr (x ++ c :: z) i d = .ok (x ++ d :: z) := by
  subst hi
  unfold wr
  rw [if_pos (by rw [List.length_append, List.length_cons]; omega), List.set_append_right _ _ (Nat.le_refl _), Nat.sub_self]
  rfl

theorem memcpy_app {x y z src : List Chr} {off : Nat} (ho : off = x.length) (hs : src.length = y.length) :
    memcpy (x ++ (y ++ z)) off src = .ok (x ++ (src ++ z)) := by
  subst ho
  unfold memcpy
  rw [if_pos (by simp only [List.length_append]; omega), List.take_left' rfl, hs]
  have : (x ++ (y ++ z)).drop (x.length + y.length) = z := by
    rw [← List.append_assoc]
    exact List.drop_left' (by rw [List.length_append])
  rw [this]
  rfl

theorem slice_app {x y z : List Chr} {off n : Nat} (ho : off = x.length) (hn : n = y.length) :
    slice (x ++ (y ++ z)) off n = .ok y := by
  subst ho hn
  unfold slice
  rw [if_pos (by simp only [List.length_append]; omega), List.drop_left' rfl, List.take_left' rfl]
  rfl

theorem slice_pre {y z : List Chr} {n : Nat} (hn : n = y.length) : slice (y ++ z) 0 n = .ok y :=
  slice_app (x := []) rfl hn

theorem memcpy_pre {y z src : List Chr} (hs : src.length = y.length) : memcpy (y ++ z) 0 src = .ok (src ++ z) :=
  memcpy_app (x := []) rfl hs

/-- Cuts a list at a length. -/
theorem cut {l : List Chr} (n : Nat) (h : n ≤ l.length) : ∃ a b, l = a ++ b ∧ a.length = n :=
  ⟨l.take n, l.drop n, (List.take_append_drop n l).symm, by rw [List.length_take]; omega⟩

theorem cut_cons {l : List Chr} (n : Nat) (h : n < l.length) : ∃ a c b, l = a ++ c :: b ∧ a.length = n := by
  obtain ⟨a, b, e, ha⟩ := cut n (Nat.le_of_lt h)
  cases b with
  | nil => rw [e, List.length_append, List.length_nil] at h; omega
  | cons c b => exact ⟨a, c, b, e, ha⟩

theorem newChars_length (junk : Nat → Chr) {n : Nat} (h : n < 2 ^ 64) : (newChars junk n).length = n := by
  unfold newChars
  rw [List.length_map, List.length_range, Nat.mod_eq_of_lt h]

/-! ### Loops -/

theorem fillLoop_ok (c : Chr) (x y z : List Chr) (n i : Nat) (hn : n = y.length) (hi : i = x.length) :
    fillLoop c n (x ++ (y ++ z)) i = .ok (x ++ (List.replicate n c ++ z)) := by
  induction y generalizing x n i with
  | nil =>
    subst hn
    rfl
  | cons d y ih =>
    subst hn
    rw [List.length_cons, fillLoop, List.cons_append, wr_app hi, R.ok_bind]
    have := ih (x ++ [c]) y.length (i + 1) rfl (by rw [List.length_append, hi]; rfl)
    rw [List.append_assoc, List.append_assoc] at this
    exact this

theorem mapLoop_ok (f : Chr → Chr) (x y z : List Chr) (n i : Nat) (hn : n = y.length) (hi : i = x.length) :
    mapLoop f n (x ++ (y ++ z)) i = .ok (x ++ (y.map f ++ z)) := by
  induction y generalizing x n i with
  | nil =>
    subst hn
    rfl
  | cons d y ih =>
    subst hn
    rw [List.length_cons, mapLoop, List.cons_append, rd_app hi, R.ok_bind, wr_app hi, R.ok_bind]
    have := ih (x ++ [f d]) y.length (i + 1) rfl (by rw [List.length_append, hi]; rfl)
    rw [List.append_assoc, List.append_assoc] at this
    exact this

theorem mapToLoop_ok (f : Chr → Chr) (x y z x' y' z' : List Chr) (n i : Nat) (hn : n = y.length) (hn' : n = y'.length)
    (hi : i = x.length) (hi' : i = x'.length) :
    mapToLoop f (x ++ (y ++ z)) n (x' ++ (y' ++ z')) i = .ok (x' ++ (y.map f ++ z')) := by
  induction y generalizing x n i x' y' with
  | nil =>
    subst hn
    cases y' with
    | nil => rfl
    | cons _ _ => exact absurd hn' (by simp)
  | cons d y ih =>
    subst hn
    cases y' with
    | nil => exact absurd hn' (by simp)
    | cons e y' =>
      rw [List.length_cons, mapToLoop, List.cons_append, rd_app hi, R.ok_bind, List.cons_append, wr_app hi', R.ok_bind]
      have := ih (x ++ [d]) (x' ++ [f d]) y' y.length (i + 1) rfl (by simpa using hn')
        (by rw [List.length_append, hi]; rfl) (by rw [List.length_append, hi']; rfl)
      rw [List.append_assoc, List.append_assoc, List.append_assoc] at this
      exact this

theorem shiftDown_ok (x g y z : List Chr) (n dst src : Nat) (hn : n = y.length) (hd : dst = x.length)
    (hs : src = x.length + g.length) :
    ∃ g', g'.length = g.length ∧ shiftDown n (x ++ (g ++ (y ++ z))) dst src = .ok (x ++ (y ++ (g' ++ z))) := by
  induction y generalizing x g n dst src with
  | nil =>
    subst hn
    exact ⟨g, rfl, rfl⟩
  | cons d y ih =>
    subst hn
    have hr : rd (x ++ (g ++ (d :: y ++ z))) src = .ok d := by
      rw [← List.append_assoc, List.cons_append]
      exact rd_app (by rw [List.length_append]; exact hs)
    rw [List.length_cons, shiftDown, hr, R.ok_bind]
    -- the first byte of the gap (or the byte itself, if there is no gap) is overwritten
    obtain ⟨a, g1, hg, hg1⟩ : ∃ a g1, g ++ [d] = a :: g1 ∧ g1.length = g.length := by
      cases g with
      | nil => exact ⟨d, [], rfl, rfl⟩
      | cons a t => exact ⟨a, t ++ [d], rfl, by rw [List.length_append]; rfl⟩
    have hb : x ++ (g ++ (d :: y ++ z)) = x ++ a :: (g1 ++ (y ++ z)) := by
      rw [← List.cons_append, ← hg, List.append_assoc]; rfl
    rw [hb, wr_app hd, R.ok_bind]
    obtain ⟨g', h1, h2⟩ := ih (x ++ [d]) g1 y.length (dst + 1) (src + 1) rfl (by rw [List.length_append, hd]; rfl)
      (by rw [List.length_append, hs, hg1]; simp only [List.length_cons, List.length_nil]; omega)
    refine ⟨g', h1.trans hg1, ?_⟩
    rw [List.append_assoc, List.append_assoc] at h2
    exact h2

theorem shiftUp_ok (x g y z : List Chr) (n dst src : Nat) (hn : n = y.length) (hs : src = x.length + y.length)
    (hd : dst = src + g.length) :
    ∃ g', g'.length = g.length ∧ shiftUp n (x ++ (y ++ (g ++ z))) dst src = .ok (x ++ (g' ++ (y ++ z))) := by
  induction n generalizing y g z dst src with
  | zero =>
    have : y = [] := List.eq_nil_of_length_eq_zero hn.symm
    subst this
    exact ⟨g, rfl, rfl⟩
  | succ n ih =>
    obtain ⟨ys, d, rfl⟩ : ∃ ys d, y = ys ++ [d] := by
      rcases List.eq_nil_or_concat y with h | ⟨ys, d, h⟩
      · subst h; simp at hn
      · exact ⟨ys, d, by simpa using h⟩
    have hl : (ys ++ [d]).length = ys.length + 1 := by rw [List.length_append]; rfl
    rw [hl] at hn hs
    have hr : rd (x ++ ((ys ++ [d]) ++ (g ++ z))) (src - 1) = .ok d := by
      have : x ++ ((ys ++ [d]) ++ (g ++ z)) = (x ++ ys) ++ d :: (g ++ z) := by simp
      rw [this]
      exact rd_app (by rw [List.length_append]; omega)
    rw [shiftUp, hr, R.ok_bind]
    obtain ⟨a, g1, hg, hg1⟩ : ∃ a g1, d :: g = g1 ++ [a] ∧ g1.length = g.length := by
      rcases List.eq_nil_or_concat g with h | ⟨gs, e, h⟩
      · subst h; exact ⟨d, [], rfl, rfl⟩
      · have h : g = gs ++ [e] := by simpa using h
        subst h
        exact ⟨e, d :: gs, rfl, by simp⟩
    have hb : x ++ ((ys ++ [d]) ++ (g ++ z)) = (x ++ (ys ++ g1)) ++ a :: z := by
      have : x ++ ((ys ++ [d]) ++ (g ++ z)) = x ++ (ys ++ ((d :: g) ++ z)) := by simp
      rw [this, hg]
      simp
    rw [hb, wr_app (by simp only [List.length_append]; omega), R.ok_bind]
    have hb2 : (x ++ (ys ++ g1)) ++ d :: z = x ++ (ys ++ (g1 ++ (d :: z))) := by simp
    rw [hb2]
    obtain ⟨g', h1, h2⟩ := ih g1 ys (d :: z) (dst - 1) (src - 1) (by omega) (by omega) (by omega)
    refine ⟨g', h1.trans hg1, ?_⟩
    rw [h2]
    simp

theorem countLoop_ok (p : Chr → Bool) (x y z : List Chr) (k n : Nat) (hk : k = y.length) (hn : n = x.length) :
    countLoop p (x ++ (y ++ z)) k n = .ok (x.length + (y.takeWhile p).length) := by
  induction y generalizing x k n with
  | nil =>
    subst hk hn
    rfl
  | cons d y ih =>
    subst hk
    rw [List.length_cons, countLoop, List.cons_append, rd_app hn, R.ok_bind, List.takeWhile_cons]
    cases e : p d with
    | true =>
      have := ih (x ++ [d]) y.length (n + 1) rfl (by rw [List.length_append, hn]; rfl)
      rw [List.append_assoc] at this
      rw [if_pos rfl, if_pos rfl]
      refine this.trans ?_
      rw [List.length_append, List.length_cons, List.length_cons, List.length_nil]
      congr 1; omega
    | false =>
      rw [if_neg (by simp), if_neg (by simp)]
      subst hn
      rfl

theorem backLoop_ok (p : Chr → Bool) (x y z : List Chr) (s n : Nat) (hs : s = y.length) (hn : n = x.length) :
    backLoop p (x ++ (y ++ z)) n s = .ok ((y.reverse.dropWhile p).length) := by
  induction s generalizing y z with
  | zero =>
    have : y = [] := List.eq_nil_of_length_eq_zero hs.symm
    subst this
    rfl
  | succ s ih =>
    obtain ⟨ys, d, rfl⟩ : ∃ ys d, y = ys ++ [d] := by
      rcases List.eq_nil_or_concat y with h | ⟨ys, d, h⟩
      · subst h; simp at hs
      · exact ⟨ys, d, by simpa using h⟩
    have hl : (ys ++ [d]).length = ys.length + 1 := by rw [List.length_append]; rfl
    rw [hl] at hs
    have hb : x ++ ((ys ++ [d]) ++ z) = (x ++ ys) ++ d :: z := by simp
    have hr : rd (x ++ ((ys ++ [d]) ++ z)) (n + s) = .ok d := by
      rw [hb]
      exact rd_app (by rw [List.length_append]; omega)
    rw [backLoop, hr, R.ok_bind, List.reverse_append, List.reverse_singleton, List.singleton_append, List.dropWhile_cons]
    cases e : p d with
    | true =>
      rw [if_pos rfl, if_pos rfl, hb, List.append_assoc]
      exact ih ys (d :: z) (by omega)
    | false =>
      rw [if_neg (by simp), if_neg (by simp), List.length_cons, List.length_reverse]
      have : s = ys.length := by omega
      rw [this]
      rfl

end Verif.Str
