import Verif.Flags.Text
import Verif.Flags.Props

/-! Property theorems for the text of `cc::flags`: C110. -/
namespace Verif.Flags
open Verif.StrView (Chr)

variable {w : Nat}

/-! Specification -/

/-- The names, separated by a comma and a space. -/
def commas : List (List Chr) → List Chr
  | [] => []
  | [t] => t
  | t :: u :: r => t ++ [44#8, 32#8] ++ commas (u :: r)

/-- The text that lists the names of these values. -/
def listing (name : Nat → List Chr) (es : List Nat) : List Chr := [123#8] ++ commas (es.map name) ++ [125#8]

theorem has_ok {e : Nat} (h : Fits w e) (f : Fl w) : has f e = .ok (f.getLsbD e) := by
  unfold has
  rw [stored_ok h]
  simp only [R.ok_bind, and_twoPow h.1 f]

/-- What the loop appends: before the first name nothing, later a comma. -/
def tail (first : Bool) (ts : List (List Chr)) : List Chr :=
  match ts with
  | [] => []
  | t :: r => (if first then [] else [44#8, 32#8]) ++ commas (t :: r)

theorem tail_cons (first : Bool) (t : List Chr) (r : List (List Chr)) :
    tail first (t :: r) = (if first then [] else [44#8, 32#8]) ++ t ++ tail false r := by
  cases r <;> simp [tail, commas]

theorem textLoop_ok (name : Nat → List Chr) (f : Fl w) (n : Nat) :
    ∀ (i : Nat) (first : Bool) (s : List Chr), (∀ e, e < i + n → Fits w e) →
      textLoop (fun e => .ok (name e)) f i first s n =
        .ok (s ++ tail first (((List.range' i n).filter fun e => f.getLsbD e).map name)) := by
  induction n with
  | zero => intro i first s _; simp [textLoop, tail]
  | succ n ih =>
    intro i first s h
    rw [textLoop, has_ok (h i (by omega)), R.ok_bind, List.range'_succ, List.filter_cons]
    cases hb : f.getLsbD i with
    | false =>
      rw [if_neg (by simp), if_neg (by simp)]
      exact ih (i + 1) first s (fun e he => h e (by omega))
    | true =>
      rw [if_pos rfl, if_pos rfl]
      simp only [R.ok_bind]
      rw [ih (i + 1) false _ (fun e he => h e (by omega)), List.map_cons, tail_cons]
      cases first <;> simp

theorem filter_below (f : Fl w) {bits : Nat} (hb : bits ≤ w) (h : ∀ e ∈ contents f, e < bits) :
    (List.range' 0 bits).filter (fun e => f.getLsbD e) = contents f := by
  unfold contents
  have e : List.range w = List.range bits ++ (List.range (w - bits)).map (bits + ·) := by
    rw [← List.range_add]
    congr 1
    omega
  rw [← List.range_eq_range', e, List.filter_append]
  refine (List.append_nil _).symm.trans (congrArg _ (Eq.symm (List.filter_eq_nil_iff.2 ?_)))
  intro x hx hc
  rw [List.mem_map] at hx
  obtain ⟨y, _, rfl⟩ := hx
  have := h _ ((mem_contents f _).2 hc)
  omega

/-- **C110 (partial)**: for up to 32 bits, flags whose values are below `Bits` are shown as the names of exactly the contained values, in
ascending order. Missing: more than 32 bits, and values that the storage holds but `Bits` does not count (theorems below). -/
theorem C110_text_partial (bits : Nat) (name : Nat → List Chr) (hb : bits ≤ 32) (f : Fl (storageBits bits))
    (h : ∀ e ∈ contents f, e < bits) :
    toStr bits (fun e => .ok (name e)) f = .ok (listing name (contents f)) := by
  have hw : bits ≤ storageBits bits ∧ storageBits bits ≤ 32 := by
    unfold storageBits
    split
    · omega
    · split
      · omega
      · omega
  unfold toStr
  rw [textLoop_ok name f bits 0 true _ (fun e he => ⟨by omega, .inl hw.2⟩), R.ok_bind, filter_below f hw.1 h]
  unfold listing
  cases contents f <;> simp [tail, commas]

/-- The flags `{0, 2, 31}` with one letter names. -/
example : toStr 32 (fun e => .ok [BitVec.ofNat 8 (97 + e)]) (0x80000005#32 : Fl (storageBits 32)) =
    .ok [123#8, 97#8, 44#8, 32#8, 99#8, 44#8, 32#8, 128#8, 125#8] := by decide +kernel
example : toStr 5 (fun e => .ok [BitVec.ofNat 8 (97 + e)]) (0x00#8 : Fl (storageBits 5)) = .ok [123#8, 125#8] := by decide +kernel

theorem intBit_big {i : Nat} (h : 32 ≤ i) (hi : i < 64) (f : Fl 64) : has f i = .error .ub := by
  unfold has storedValueOf intBit
  rw [Nat.mod_eq_of_lt (by omega), if_pos h]
  rfl

theorem textLoop_ub (name : Nat → List Chr) (f : Fl 64) (n : Nat) :
    ∀ (i : Nat) (first : Bool) (s : List Chr), i ≤ 32 → 32 < i + n → i + n ≤ 64 →
      textLoop (fun e => .ok (name e)) f i first s n = .error .ub := by
  induction n with
  | zero => intro i first s h1 h2; omega
  | succ n ih =>
    intro i first s h1 h2 h3
    rw [textLoop]
    by_cases hi : i = 32
    · subst hi
      rw [intBit_big (by omega) (by omega) f]
      rfl
    · have : ∃ b, has f i = .ok b := by
        unfold has storedValueOf intBit
        rw [Nat.mod_eq_of_lt (by omega), if_neg (by omega)]
        exact ⟨_, rfl⟩
      obtain ⟨b, hb⟩ := this
      rw [hb, R.ok_bind]
      cases b with
      | true =>
        rw [if_pos rfl]
        simp only [R.ok_bind]
        exact ih _ _ _ (by omega) (by omega) (by omega)
      | false =>
        rw [if_neg (by simp)]
        exact ih _ _ _ (by omega) (by omega) (by omega)

/-- **C110 is violated**: with more than 32 bits, such as for every enum with a 64 bit type, the text of any flags, also of the empty
ones, is undefined behaviour: the loop shifts the `int` 1 by 32. -/
theorem C110_wide_undefined (bits : Nat) (h : 32 < bits) (h64 : bits ≤ 64) (name : Nat → List Chr) (f : Fl 64) :
    storageBits bits = 64 ∧ toStr bits (fun e => .ok (name e)) f = .error .ub := by
  constructor
  · unfold storageBits
    rw [if_neg (by omega), if_neg (by omega), if_neg (by omega)]
  · unfold toStr
    rw [textLoop_ub name f bits 0 true _ (by omega) (by omega) (by omega)]
    rfl

/-- **C110 is violated**: with `Bits` = 10 the value 12 can be stored and is contained, but is not listed. -/
theorem C110_not_counted : ∃ f : Fl (storageBits 10), ctor [1, 12] = .ok f ∧ has f 12 = .ok true ∧
    toStr 10 (fun e => .ok [BitVec.ofNat 8 (97 + e)]) f = .ok [123#8, 98#8, 125#8] :=
  ⟨0x1002#16, by decide +kernel, by decide +kernel, by decide +kernel⟩

end Verif.Flags
