import Verif.Str.History
/-!
# Strings (C45, C46, C47)

`Spec.step` says what each operation does to mathematical character sequences; `Sys.step` runs the code.
-/
namespace Verif.Str
open Verif.StrView (Chr View)
open Spec

/-- Blocks obtained from `new[]` minus blocks given to `delete[]`. -/
def Sys.balance (st : Sys) : Int := st.gone + (st.vars.map fun o => o.elim 0 Str.bal).sum

/-- Heap blocks that string variables point to. -/
def Sys.owned (st : Sys) : Nat := (st.vars.map fun o => o.elim 0 fun s => match s.data with | .heap _ => 1 | _ => 0).sum

theorem heaps_eq (s : Str) : s.heaps = ((match s.data with | .heap _ => 1 | _ => 0 : Nat) : Int) := by
  unfold Str.heaps
  cases s.data <;> rfl

theorem balance_ok {C : Nat} {st : Sys} {σ : List Cell} (h : Inv C st σ) : st.balance = st.owned := by
  have h1 := h.sum
  have : ∀ v : List (Option Str), (v.map fun o => o.elim 0 Str.bal).sum
      = sumK v + ((v.map fun o => o.elim 0 fun s => match s.data with | .heap _ => 1 | _ => 0).sum : Nat) := by
    intro v
    induction v with
    | nil => rfl
    | cons o v ih =>
      rw [List.map_cons, List.map_cons, List.sum_cons, List.sum_cons, sumK, ih]
      cases o with
      | none => simp [kOf]
      | some s =>
        have := heaps_eq s
        change s.bal + (_ + _) = s.bal - s.heaps + _ + (((match s.data with | .heap _ => 1 | _ => 0) + _ : Nat) : Int)
        rw [Int.natCast_add]
        omega
  have := this st.vars
  unfold Sys.balance Sys.owned
  omega

/-- C45: after any history the string variables show the sequences of the specification: the size, every character,
and the whole text; the size is at most the capacity, which is at least that of the small buffer; and the blocks obtained
and not yet deleted are exactly those some variable points to (no leak, no double delete).
Partial: a string assigned to itself by move, arguments of `replace`/`insert` that view the string itself, counts near
`2^64`, and reading a string that was moved from are outside the specification: see the theorems below. -/
theorem C45_history_partial {C : Nat} (h7 : 7 ≤ C) (hC : C < 2 ^ 61) (junk : Nat → Chr) (n : Nat) (ops : List Op) (σ : List Cell)
    (h : Spec.run (Spec.init n) ops = some σ) :
    ∃ st, Sys.run C junk (Sys.init n) ops = .ok st ∧ st.vars.length = n ∧ st.balance = st.owned ∧
      (∀ (i : Nat) (l : List Chr) (t : Bool), σ[i]? = some (.val l t) → ∃ s, st.vars[i]? = some (some s) ∧ s.size = l.length ∧ s.chars = .ok l ∧
        (∀ (j : Nat) (c : Chr), l[j]? = some c → s.get j = .ok c) ∧ (∀ j : Nat, l.length ≤ j → s.get j = .error .assert) ∧
        s.size ≤ s.capacity C ∧ C ≤ s.capacity C ∧ s.capacity C < 2 ^ 64) ∧
      (∀ i : Nat, σ[i]? = some .moved → ∃ s, st.vars[i]? = some (some s)) ∧
      (∀ i : Nat, σ[i]? = some .dead → st.vars[i]? = some none) := by
  obtain ⟨st, h1, hI⟩ := run_ok h7 hC (junk := junk) ops (init_inv C n) h
  have hlen : σ.length = n := by rw [spec_run_length h]; simp [Spec.init]
  refine ⟨st, h1, by rw [hI.len, hlen], balance_ok hI, fun i l t hc => ?_, fun i hc => ?_, fun i hc => ?_⟩
  · obtain ⟨o, ho, s, rfl, hl, k, hg⟩ := inv_get hI hc
    refine ⟨s, ho, hg.size, chars_ok hg, fun j c hj => get_ok hg hj, fun j hj => ?_, ?_, hg.lo, ?_⟩
    · unfold Str.get
      rw [ccAssert_false (decide_eq_false (by rw [hg.size]; omega))]
      rfl
    · rw [hg.size]; exact hg.fits
    · have := hg.hi
      omega
  · obtain ⟨o, ho, s, rfl, _⟩ := inv_get hI hc
    exact ⟨s, ho⟩
  · obtain ⟨o, ho, hn⟩ := inv_get hI hc
    rw [ho, show o = none from hn]

/-- C45: when every variable's life has ended, every block has been deleted exactly once. -/
theorem C45_no_leak {C : Nat} (h7 : 7 ≤ C) (hC : C < 2 ^ 61) (junk : Nat → Chr) (n : Nat) (ops : List Op)
    (h : Spec.run (Spec.init n) ops = some (Spec.init n)) :
    ∃ st, Sys.run C junk (Sys.init n) ops = .ok st ∧ st.balance = 0 := by
  obtain ⟨st, h1, hI⟩ := run_ok h7 hC (junk := junk) ops (init_inv C n) h
  refine ⟨st, h1, ?_⟩
  rw [balance_ok hI]
  unfold Sys.owned
  have : ∀ o ∈ st.vars, o = none := by
    intro o ho
    obtain ⟨i, hi⟩ := List.mem_iff_getElem?.mp ho
    have hlt : i < (Spec.init n).length := by rw [← hI.len]; exact (List.getElem?_eq_some_iff.mp hi).1
    have hc := List.getElem?_eq_getElem hlt
    have hd : (Spec.init n)[i] = .dead := List.eq_of_mem_replicate (List.getElem_mem hlt)
    rw [hd] at hc
    exact hI.slots i o _ hi hc
  have hz : ∀ v : List (Option Str), (∀ o ∈ v, o = none) →
      (v.map fun o => o.elim 0 fun s => match s.data with | .heap _ => 1 | _ => 0).sum = 0 := by
    intro v hv
    induction v with
    | nil => rfl
    | cons o v ih =>
      rw [List.map_cons, List.sum_cons, ih fun x hx => hv x (List.mem_cons_of_mem _ hx), hv o List.mem_cons_self]
      rfl
  rw [hz st.vars this]
  rfl

/-- C45: what `reserve`, `shrink_to_fit` and `uninitialized` promise about capacity and size, for every string made by a history. -/
theorem C45_capacity {C : Nat} (h7 : 7 ≤ C) (hC : C < 2 ^ 61) (junk : Nat → Chr) (n : Nat) (ops : List Op) (σ : List Cell)
    (h : Spec.run (Spec.init n) ops = some σ) :
    ∃ st, Sys.run C junk (Sys.init n) ops = .ok st ∧
      ∀ (i : Nat) (l : List Chr) (t : Bool), σ[i]? = some (.val l t) → ∃ s, st.vars[i]? = some (some s) ∧
        (∀ m, m < 2 ^ 61 → ∃ s', s.reserve C junk m = .ok s' ∧ m ≤ s'.capacity C ∧ s'.chars = .ok l) ∧
        (∃ s', s.shrinkToFit C junk = .ok s' ∧ s'.chars = .ok l ∧ (s'.capacity C = C ∨ s'.capacity C = l.length)) := by
  obtain ⟨st, h1, hI⟩ := run_ok h7 hC (junk := junk) ops (init_inv C n) h
  refine ⟨st, h1, fun i l t hc => ?_⟩
  obtain ⟨o, ho, s, rfl, hl, k, hg⟩ := inv_get hI hc
  refine ⟨s, ho, fun m hm => ?_, ?_⟩
  · obtain ⟨s', e1, e2, e3, _⟩ := reserve_ok h7 (junk := junk) hg hm
    exact ⟨s', e1, e3, chars_ok e2⟩
  · obtain ⟨s', e1, e2, e3⟩ := shrink_ok h7 hC (junk := junk) hg
    exact ⟨s', e1, chars_ok e2, e3⟩

/-- C45: `uninitialized(n)` has `n` characters, room for them, and a zero behind them. -/
theorem C45_uninitialized {C : Nat} (h7 : 7 ≤ C) (hC : C < 2 ^ 61) (junk : Nat → Chr) (n : Nat) (hn : n < 2 ^ 61) :
    ∃ s l, uninitialized C junk n = .ok s ∧ l.length = n ∧ s.size = n ∧ n ≤ s.capacity C ∧ s.cstrUpTo n = .ok (l ++ [0#8]) := by
  obtain ⟨s, l, h1, h2, h3⟩ := uninitialized_ok h7 hC junk n hn
  refine ⟨s, l, h1, h2, by rw [h3.size, h2], by rw [← h2]; exact h3.fits, ?_⟩
  have := cstr_ok h3
  rwa [h3.size, h2] at this

/-- C45: constructing from a zero-terminated text at `off` takes the characters before the first zero. -/
theorem C45_from_c_str {C : Nat} (h7 : 7 ≤ C) (hC : C < 2 ^ 61) (junk : Nat → Chr) (pre l post : List Chr)
    (hl : l.length < 2 ^ 61) (hz : 0#8 ∉ l) :
    ∃ s, fromCstr C junk (pre ++ (l ++ 0#8 :: post)) pre.length = .ok s ∧ s.chars = .ok l ∧ s.cstrUpTo s.size = .ok (l ++ [0#8]) := by
  have key : ∀ (k : Nat) (m : List Chr) (fuel : Nat), l.drop k = m → k ≤ l.length → m.length < fuel →
      StrView.cstrLoop (pre ++ (l ++ 0#8 :: post)) pre.length fuel k = .ok ⟨pre ++ (l ++ 0#8 :: post), pre.length, l.length⟩ := by
    intro k m
    induction m generalizing k with
    | nil =>
      intro fuel hd hk hf
      have : k = l.length := by
        have := List.drop_eq_nil_iff.mp hd
        omega
      subst this
      cases fuel with
      | zero => cases hf
      | succ fuel =>
        rw [StrView.cstrLoop]
        have hg : (pre ++ (l ++ 0#8 :: post))[pre.length + l.length]? = some 0#8 := by
          rw [List.getElem?_append_right (by omega), List.getElem?_append_right (by omega)]
          simp
        unfold View.rd
        dsimp only
        rw [hg]
        rfl
    | cons c m ih =>
      intro fuel hd hk hf
      cases fuel with
      | zero => cases hf
      | succ fuel =>
        have hlt : k < l.length := by
          rcases Nat.lt_or_ge k l.length with g | g
          · exact g
          · rw [List.drop_of_length_le g] at hd; cases hd
        have hc : l[k]? = some c := by
          have : (l.drop k)[0]? = some c := by rw [hd]; rfl
          rwa [List.getElem?_drop] at this
        have hg : (pre ++ (l ++ 0#8 :: post))[pre.length + k]? = some c := by
          rw [List.getElem?_append_right (by omega), List.getElem?_append_left (by omega)]
          rw [Nat.add_sub_cancel_left]
          exact hc
        have hne : c ≠ 0#8 := fun e => hz (e ▸ List.mem_of_getElem? hc)
        have hr : (View.mk (pre ++ (l ++ 0#8 :: post)) pre.length 0).rd k = .ok c := by
          unfold View.rd
          dsimp only
          rw [hg]
        rw [StrView.cstrLoop, hr, R.ok_bind, if_neg hne]
        refine ih (k + 1) fuel ?_ hlt (by rw [List.length_cons] at hf; omega)
        rw [← List.drop_drop, hd]; rfl
  unfold fromCstr StrView.ofCstr
  rw [key 0 l _ rfl (Nat.zero_le _) (by simp only [List.length_append, List.length_cons]; omega), R.ok_bind]
  have hs : slice (pre ++ (l ++ 0#8 :: post)) pre.length l.length = .ok l := by
    unfold slice
    rw [if_pos (by simp only [List.length_append]; omega), List.drop_left' rfl, List.take_left' rfl]
    rfl
  rw [hs, R.ok_bind]
  obtain ⟨s, h1, h2⟩ := fromView_ok h7 hC junk l hl
  exact ⟨s, h1, chars_ok h2, cstr_ok h2⟩

example : (fromCstr 15 (fun _ => 0#8) [9#8, 104#8, 105#8, 0#8, 7#8] 1 >>= fun s => s.chars) = .ok [104#8, 105#8] := by decide +kernel

/-- Text for the examples. -/
def txt (s : String) : List Chr := s.toList.map fun c => BitVec.ofNat 8 c.toNat

/-- A history with small and heap strings, growth, copies, moves and every kind of change. -/
def demo : List Op :=
  [.make 0 (txt "hello"), .make 1 (txt "a text that is longer than fifteen"), .copyNew 2 1, .append 0 (txt " world, how are you"),
   .moveNew 3 0, .assign 0 2, .resize 2 3 33#8, .shrink 2, .insert 2 1 (txt "XY"), .replaceAll 1 (txt "t") (txt "TT"),
   .moveAssign 2 3, .destroy 3, .padStart 0 40 46#8, .trimEnd 0 (fun c => c == 110#8), .pushBack 2 33#8, .appendOwn 2 0 5,
   .substringNew 3 2 6 5, .upperNew 4 3, .removePrefix 2 6, .popBack 2]

/-- C45: the hypothesis is met by a history that uses both storages, and these are the texts. -/
example : Spec.run (Spec.init 5) demo = some
    [.val (txt "......a text that is longer than fiftee") true,
     .val (txt "a TTexTT TThaTT is longer TThan fifTTeen") true,
     .val (txt "world, how are you!hell") true,
     .val (txt "world") true,
     .val (txt "WORLD") true] := by decide +kernel

example : (Sys.run 15 (fun i => BitVec.ofNat 8 i) (Sys.init 5) demo).map (fun st => (st.owned, st.balance)) = .ok (3, 3) := by decide +kernel

/-! ### Where the code and the property disagree -/

/-- C45: a string that was moved from keeps its size: reading a character then passes the bounds check and reads
through a null pointer, if the text was on the heap. -/
theorem C45_moved_from_keeps_size (junk : Nat → Chr) (C : Nat) (h7 : 7 ≤ C) (hC : C < 2 ^ 60) :
    ∃ s, fromView C junk (List.replicate (C + 1) 97#8) = .ok s ∧ (moveCtor C s).2.size = C + 1 ∧ (moveCtor C s).2.get 0 = .error .ub := by
  obtain ⟨s, h1, h2⟩ := fromView_ok h7 (by omega) junk (List.replicate (C + 1) 97#8) (by rw [List.length_replicate]; omega)
  have hs : s.size = C + 1 := by rw [h2.size, List.length_replicate]
  have hn : s.isShort = false := by
    cases e : s.isShort with
    | false => rfl
    | true =>
      have := h2.fits
      rw [List.length_replicate] at this
      unfold Str.capacity at this
      rw [if_pos e] at this
      omega
  refine ⟨s, h1, ?_, ?_⟩
  · unfold moveCtor moveInto
    rw [hn]
    exact hs
  · unfold moveCtor moveInto
    rw [hn]
    unfold Str.get
    change (ccAssert (decide (0 < s.size)) >>= fun _ => _) = _
    rw [ccAssert_true (decide_eq_true (by omega))]
    rfl

/-- C45: moving a string onto itself loses a text on the heap: the string is then small with a size over its capacity,
and reading the last character is out of bounds of the small buffer. -/
theorem C45_self_move_loses_text :
    (do let s ← fromView 15 (fun _ => 0#8) (txt "a text on the heap")
        let s := selfMoveAssign s
        pure (s.isShort, s.size, s.capacity 15) : R (Bool × Nat × Nat)) = .ok (true, 18, 15) ∧
    (do let s ← fromView 15 (fun _ => 0#8) (txt "a text on the heap")
        (selfMoveAssign s).get 17 : R Chr) = .error .ub := by decide +kernel

/-- C45: `insert` and `replace` of a view of the string itself give a wrong text when the buffer is not replaced. -/
theorem C45_insert_own_view_wrong :
    (do let s ← fromView 15 (fun _ => 0#8) (txt "abcd")
        let s ← s.insert 15 (fun _ => 0#8) 0 (.own 2 2)
        s.chars : R (List Chr)) = .ok (txt "ababcd") ∧ txt "ababcd" ≠ txt "cd" ++ txt "abcd" := by decide +kernel

/-- C45: `replace` with a count near `2^64` passes the contract: the sum of position and count wraps. -/
theorem C45_replace_count_wraps :
    (do let s ← fromView 15 (fun _ => 0#8) (txt "abc")
        let s ← s.replaceAt 15 (fun _ => 0#8) 1 (2 ^ 64 - 1) (.ext (txt ""))
        s.chars : R (List Chr)) = .ok (txt "aaaa") := by decide +kernel

/-- C45: `reserve` of the largest size allocates no bytes and writes past them. -/
theorem C45_reserve_max_wraps (junk : Nat → Chr) (C : Nat) (hC : C < 2 ^ 61) : (Str.empty C).reserve C junk (2 ^ 64 - 1) = .error .ub := by
  have hg := empty_good C hC
  unfold Str.reserve
  have hc : (Str.empty C).capacity C = C := rfl
  rw [hc, if_neg (by omega)]
  unfold Str.reserveForce
  have hb : (Str.empty C).buf = .ok (List.replicate (C + 1) 0#8) := rfl
  rw [hb, R.ok_bind]
  have hs : slice (List.replicate (C + 1) 0#8) 0 ((Str.empty C).size + 1) = .ok [0#8] := by
    unfold slice
    rw [if_pos (by rw [List.length_replicate]; change 0 + (0 + 1) ≤ C + 1; omega)]
    rfl
  rw [hs, R.ok_bind]
  have hn : newChars junk (2 ^ 64 - 1 + 1) = [] := by
    unfold newChars
    rw [show (2 ^ 64 - 1 + 1) % 2 ^ 64 = 0 by decide]
    rfl
  rw [hn]
  rfl

/-! ### C46 -/

/-- The operations after which a terminating zero may be missing. -/
def Op.leavesEnd : Op → Bool
  | .removePrefix .. | .removeSuffix .. | .removePrefixStr .. | .removeSuffixStr .. => true
  | _ => false

/-- C46: after any history, `c_str()` shows the text followed by a zero at index `size()` for every string of which the
specification's flag says so. -/
theorem C46_c_str_flag {C : Nat} (h7 : 7 ≤ C) (hC : C < 2 ^ 61) (junk : Nat → Chr) (n : Nat) (ops : List Op) (σ : List Cell)
    (h : Spec.run (Spec.init n) ops = some σ) :
    ∃ st, Sys.run C junk (Sys.init n) ops = .ok st ∧
      ∀ (i : Nat) (l : List Chr), σ[i]? = some (.val l true) →
        ∃ s, st.vars[i]? = some (some s) ∧ s.size = l.length ∧ s.cstrUpTo s.size = .ok (l ++ [0#8]) := by
  obtain ⟨st, h1, hI⟩ := run_ok h7 hC (junk := junk) ops (init_inv C n) h
  refine ⟨st, h1, fun i l hc => ?_⟩
  obtain ⟨o, ho, s, rfl, hl, k, hg⟩ := inv_get hI hc
  exact ⟨s, ho, hg.size, cstr_ok hg⟩

/-- Every live text of the specification is known to be followed by a zero. -/
def AllZero (σ : List Cell) : Prop := ∀ c ∈ σ, ∀ l t, c = .val l t → t = true

theorem allZero_set {σ : List Cell} {d : Nat} {c : Cell} (h : AllZero σ) (hc : ∀ l t, c = .val l t → t = true) : AllZero (σ.set d c) := by
  intro x hx l t e
  rcases List.mem_or_eq_of_mem_set hx with hx | rfl
  · exact h x hx l t e
  · exact hc l t e

theorem allZero_get {σ : List Cell} {d : Nat} {l : List Chr} {t : Bool} (h : AllZero σ) (hc : σ[d]? = some (.val l t)) : t = true :=
  h _ (List.mem_of_getElem? hc) l t rfl

theorem allZero_modify {σ σ' : List Cell} {d : Nat} {g : List Chr → Bool → Option (List Chr × Bool)} (h : AllZero σ)
    (hg : ∀ l p, g l true = some p → p.2 = true) (hs : Spec.modify σ d g = some σ') : AllZero σ' := by
  unfold Spec.modify at hs
  split at hs
  · rename_i l t hc
    obtain ⟨p, e1, e2⟩ := Option.map_eq_some_iff.mp hs
    rw [allZero_get h hc] at e1
    rw [← e2]
    refine allZero_set h fun l' t' e => ?_
    cases e
    exact hg l p e1
  · cases hs

theorem allZero_create {σ σ' : List Cell} {d : Nat} {v : Option (List Chr × Bool)} (h : AllZero σ)
    (hv : ∀ p, v = some p → p.2 = true) (hs : Spec.create σ d v = some σ') : AllZero σ' := by
  unfold Spec.create at hs
  split at hs
  · obtain ⟨p, e1, e2⟩ := Option.map_eq_some_iff.mp hs
    rw [← e2]
    refine allZero_set h fun l' t' e => ?_
    cases e
    exact hv p e1
  · cases hs

theorem allZero_createFrom {σ σ' : List Cell} {d s : Nat} {g : List Chr → Bool → Option (List Chr × Bool)} (h : AllZero σ)
    (hg : ∀ l p, g l true = some p → p.2 = true) (hs : Spec.createFrom σ d s g = some σ') : AllZero σ' := by
  unfold Spec.createFrom at hs
  split at hs
  · rename_i l t hc
    rw [allZero_get h hc] at hs
    exact allZero_create h (hg l) hs
  · cases hs

theorem allZero_step {σ σ' : List Cell} {op : Op} (h : AllZero σ) (hop : op.leavesEnd = false) (hs : Spec.step σ op = some σ') : AllZero σ' := by
  have key : ∀ (b : Bool) (x p : List Chr × Bool), x.2 = true → (if b then some x else none) = some p → p.2 = true := by
    intro b x p hx e
    cases b
    · cases e
    · rw [← Option.some.inj e]; exact hx
  have hsm : ∀ (l : List Chr) (p : List Chr × Bool), small l true = some p → p.2 = true := by
    intro l p e
    unfold small at e
    split at e
    · rw [← Option.some.inj e]
    · cases e
  cases op with
  | moveNew d s =>
    obtain ⟨p, e1, e⟩ := Option.map_eq_some_iff.mp hs
    rw [← e]
    refine allZero_set (allZero_createFrom h (fun l p e => by rw [← Option.some.inj e]) e1) fun _ _ e => nomatch e
  | assign d s =>
    rw [Spec.step] at hs
    split at hs
    · rename_i l t hc
      split at hs
      · rw [← Option.some.inj hs]; exact h
      · split at hs
        · rw [← Option.some.inj hs]
          refine allZero_set h fun l' t' e => ?_
          cases e
          exact allZero_get h hc
        · cases hs
    · cases hs
  | moveAssign d s =>
    rw [Spec.step] at hs
    split at hs
    · rename_i l t hc
      split at hs
      · rw [← Option.some.inj hs]
        refine allZero_set (allZero_set h fun l' t' e => ?_) fun _ _ e => nomatch e
        cases e
        exact allZero_get h hc
      · cases hs
    · cases hs
  | destroy d =>
    rw [Spec.step] at hs
    split at hs
    · rw [← Option.some.inj hs]
      exact allZero_set h fun _ _ e => nomatch e
    · cases hs
  | clear d =>
    rw [Spec.step] at hs
    split at hs
    · rw [← Option.some.inj hs]
      refine allZero_set h fun _ _ e => ?_
      cases e
      rfl
    · cases hs
  | removePrefix d n => cases hop
  | removeSuffix d n => cases hop
  | removePrefixStr d p => cases hop
  | removeSuffixStr d p => cases hop
  | _ =>
    first
    | refine allZero_modify h (fun l p e => ?_) hs
    | refine allZero_create h (fun p e => ?_) hs
    | refine allZero_createFrom h (fun l p e => ?_) hs
    all_goals
      first
      | exact hsm _ _ e
      | (rw [← Option.some.inj e])
      | (split at e
         · first
           | cases e
             done
           | exact hsm _ _ e
           | (rw [← Option.some.inj e])
         · first
           | cases e
             done
           | exact hsm _ _ e
           | (rw [← Option.some.inj e]))

theorem allZero_run {ops : List Op} {σ σ' : List Cell} (h : AllZero σ) (hop : ∀ op ∈ ops, op.leavesEnd = false)
    (hs : Spec.run σ ops = some σ') : AllZero σ' := by
  induction ops generalizing σ with
  | nil => rw [← Option.some.inj hs]; exact h
  | cons op ops ih =>
    obtain ⟨σ1, e1, e2⟩ := Option.bind_eq_some_iff.mp hs
    exact ih (allZero_step h (hop op List.mem_cons_self) e1) (fun o ho => hop o (List.mem_cons_of_mem _ ho)) e2

/-- C46: after any history without `remove_prefix` and `remove_suffix`, `c_str()` of every string shows its text followed by a
zero at index `size()`.  Partial: those two operations do not store the zero (`C46_remove_suffix_no_zero`). -/
theorem C46_c_str_partial {C : Nat} (h7 : 7 ≤ C) (hC : C < 2 ^ 61) (junk : Nat → Chr) (n : Nat) (ops : List Op) (σ : List Cell)
    (hop : ∀ op ∈ ops, op.leavesEnd = false) (h : Spec.run (Spec.init n) ops = some σ) :
    ∃ st, Sys.run C junk (Sys.init n) ops = .ok st ∧
      ∀ (i : Nat) (l : List Chr) (t : Bool), σ[i]? = some (.val l t) →
        ∃ s, st.vars[i]? = some (some s) ∧ s.size = l.length ∧ s.cstrUpTo s.size = .ok (l ++ [0#8]) := by
  obtain ⟨st, h1, h2⟩ := C46_c_str_flag h7 hC junk n ops σ h
  have hz : AllZero σ := allZero_run (σ := Spec.init n) (fun c hc l t e => by
    rw [List.eq_of_mem_replicate hc] at e
    cases e) hop h
  refine ⟨st, h1, fun i l t hc => ?_⟩
  have := allZero_get hz hc
  subst this
  exact h2 i l hc

example : ∀ op ∈ (demo.take 18), op.leavesEnd = false := by decide +kernel
example : (Spec.run (Spec.init 5) (demo.take 18)).isSome = true := by decide +kernel

/-- C46 fails after `remove_suffix`: the character at index `size()` is the one that was there before. -/
theorem C46_remove_suffix_no_zero :
    (do let s ← fromView 15 (fun _ => 0#8) (txt "hello")
        let s ← s.removeSuffix 2
        s.cstrUpTo s.size : R (List Chr)) = .ok (txt "hell") := by decide +kernel

/-- C46 fails after `remove_prefix`, too. -/
theorem C46_remove_prefix_no_zero :
    (do let s ← fromView 15 (fun _ => 0#8) (txt "hello")
        let s ← s.removePrefix 2
        s.cstrUpTo s.size : R (List Chr)) = .ok (txt "llol") := by decide +kernel

/-! ### C47 -/

/-- C47: for any string made by any history, `replace(old, new)` on it and `replaced(old, new)` of it both give the text in
which every leftmost non-overlapping occurrence of `old` is replaced by `new` (`Spec.Replaced`, which determines it). -/
theorem C47_replace_agrees {C : Nat} (h7 : 7 ≤ C) (hC : C < 2 ^ 61) (junk : Nat → Chr) (n : Nat) (ops : List Op) (σ : List Cell)
    (h : Spec.run (Spec.init n) ops = some σ) (old new : List Chr) (h0 : old ≠ []) :
    ∃ st, Sys.run C junk (Sys.init n) ops = .ok st ∧
      ∀ (i : Nat) (l r : List Chr) (t : Bool), σ[i]? = some (.val l t) → Replaced old new l r → r.length < 2 ^ 61 →
        ∃ s s1 s2, st.vars[i]? = some (some s) ∧ s.replaceAll C junk old new = .ok s1 ∧ s.replaced C junk old new = .ok s2 ∧
          s1.chars = .ok r ∧ s2.chars = .ok r ∧ s1.size = r.length ∧ s2.size = r.length ∧ s.chars = .ok l := by
  obtain ⟨st, h1, hI⟩ := run_ok h7 hC (junk := junk) ops (init_inv C n) h
  refine ⟨st, h1, fun i l r t hc hr hlen => ?_⟩
  obtain ⟨o, ho, s, rfl, hl, k, hg⟩ := inv_get hI hc
  have he : subst old new l 0 = r := replaced_unique h0 (subst_replaced new h0 l.length l (Nat.le_refl _)) hr
  subst he
  obtain ⟨s1, e1, g1⟩ := replaceAll_ok h7 (junk := junk) h0 hg hl hlen
  obtain ⟨s2, e2, g2⟩ := replaced_ok h7 hC (junk := junk) h0 hg hl hlen
  exact ⟨s, s1, s2, ho, e1, e2, chars_ok g1, chars_ok g2, g1.size, g2.size, chars_ok hg⟩

/-- C47: the specification is met by exactly one text. -/
theorem C47_spec_determines (old new l : List Chr) (h0 : old ≠ []) : ∃ r, Replaced old new l r ∧ ∀ r', Replaced old new l r' → r' = r :=
  ⟨subst old new l 0, subst_replaced new h0 l.length l (Nat.le_refl _),
    fun _ h => replaced_unique h0 h (subst_replaced new h0 l.length l (Nat.le_refl _))⟩

/-- C47: overlapping occurrences are taken from the left, and the new text is not searched again. -/
example : Replaced (txt "aa") (txt "aab") (txt "xaaaa-aaa") (txt "xaabaab-aaba") := by
  have : subst (txt "aa") (txt "aab") (txt "xaaaa-aaa") 0 = txt "xaabaab-aaba" := by decide +kernel
  rw [← this]
  exact subst_replaced _ (by decide) 9 _ (by decide)

/-- C47: an empty `old` is rejected by both. -/
theorem C47_empty_old_rejected (C : Nat) (junk : Nat → Chr) (s : Str) (new : List Chr) :
    s.replaceAll C junk [] new = .error .assert ∧ s.replaced C junk [] new = .error .assert := ⟨rfl, rfl⟩

end Verif.Str
