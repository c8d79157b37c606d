import Verif.Fmt.Parse
/-! # Formatted integers (C69) -/
namespace Verif.Fmt
open Verif.StrView (Chr)
open Verif.Num (IntT digitChr numLoop numeral viaBuffer txt numLoop_app)
open Verif.Num.Spec (IsDigit value)
open Spec (Fields IsAlign IsSign IsLetter IsNumeralB digit)

/-! ### Numerals -/

theorem digitChr_eq (caps : Bool) : ∀ d, d < 16 → digitChr caps d = digit caps d := by
  cases caps <;> decide +kernel

/-- The value of a sequence of digits. -/
def valueB (b : Nat) (ds : List Nat) : Nat := ds.foldl (fun a d => b * a + d) 0

theorem valueB_snoc (b : Nat) (ds : List Nat) (d : Nat) : valueB b (ds ++ [d]) = b * valueB b ds + d := by
  unfold valueB
  rw [List.foldl_append]
  rfl

theorem valueB_ge {b : Nat} (hb : 2 ≤ b) (ds : List Nat) (h0 : ds ≠ []) (h1 : ds.head? = some 0 → ds.length = 1) :
    ds.length = 1 ∨ b ^ (ds.length - 1) ≤ valueB b ds := by
  have key : ∀ (l : List Nat) (acc : Nat), acc * b ^ l.length ≤ l.foldl (fun a d => b * a + d) acc := by
    intro l
    induction l with
    | nil => intro acc; simp
    | cons d t ih =>
      intro acc
      have := ih (b * acc + d)
      rw [List.foldl_cons, List.length_cons, Nat.pow_succ]
      refine Nat.le_trans ?_ this
      rw [Nat.add_mul, Nat.mul_comm b acc, Nat.mul_assoc, Nat.mul_comm b]
      exact Nat.le_add_right _ _
  cases ds with
  | nil => exact absurd rfl h0
  | cons d t =>
    by_cases e : d = 0
    · subst e; exact Or.inl (h1 rfl)
    · refine Or.inr ?_
      unfold valueB
      rw [List.foldl_cons, List.length_cons, Nat.add_sub_cancel]
      refine Nat.le_trans ?_ (key t (b * 0 + d))
      have : 1 ≤ b * 0 + d := by omega
      have := Nat.mul_le_mul_right (b ^ t.length) this
      omega

theorem numLoop_numeralB (caps : Bool) {b : Nat} (hb : 2 ≤ b) (hb2 : b ≤ 16) (f n : Nat) (h : n < 2 ^ f) (h0 : 0 < f) :
    IsNumeralB caps b (numLoop caps b f n []) n := by
  induction f generalizing n with
  | zero => exact absurd h0 (Nat.lt_irrefl 0)
  | succ f ih =>
    have hd : n % b < b := Nat.mod_lt _ (by omega)
    have hm := Nat.div_add_mod n b
    rw [numLoop, digitChr_eq caps _ (by omega)]
    by_cases e : n / b = 0
    · rw [if_pos e]
      refine ⟨[n % b], rfl, by simp, ?_, fun _ => rfl, ?_⟩
      · intro d h
        rw [List.mem_singleton.mp h]; exact hd
      · change b * 0 + n % b = n
        rw [e] at hm
        omega
    · rw [if_neg e, numLoop_app]
      have hn : n / b < 2 ^ f := by
        rw [Nat.pow_succ] at h
        have : n / b ≤ n / 2 := Nat.div_le_div_left hb (by decide)
        omega
      have hf : 0 < f := by
        rcases Nat.eq_zero_or_pos f with g | g
        · subst g
          rw [Nat.pow_zero] at hn
          exact absurd (Nat.lt_one_iff.mp hn) e
        · exact g
      obtain ⟨ds, g1, g2, g3, g4, g5⟩ := ih (n / b) hn hf
      refine ⟨ds ++ [n % b], by rw [g1, List.map_append]; rfl, by simp, ?_, ?_, ?_⟩
      · intro d h
        rcases List.mem_append.mp h with g | g
        · exact g3 d g
        · rw [List.mem_singleton.mp g]; exact hd
      · intro hh
        exfalso
        cases ds with
        | nil => exact g2 rfl
        | cons d t =>
          have hd0 : d = 0 := Option.some.inj hh
          subst hd0
          have hl := g4 rfl
          have ht : t = [] := by
            rw [List.length_cons] at hl
            exact List.length_eq_zero_iff.mp (by omega)
          subst ht
          have : b * 0 + 0 = n / b := g5
          omega
      · have := valueB_snoc b ds (n % b)
        unfold valueB at this
        rw [this, g5]
        exact hm

theorem numeralB_ok (caps : Bool) {b : Nat} (hb : 2 ≤ b) (hb2 : b ≤ 16) (n : Nat) : IsNumeralB caps b (numeral caps b n) n :=
  numLoop_numeralB caps hb hb2 _ n Nat.lt_log2_self (Nat.succ_pos _)

theorem numeralB_length {caps : Bool} {b : Nat} (hb : 2 ≤ b) {l : List Chr} {n k : Nat} (h : IsNumeralB caps b l n) (hk : 0 < k) (hn : n < b ^ k) :
    l.length ≤ k := by
  obtain ⟨ds, rfl, h1, h2, h3, h4⟩ := h
  rw [List.length_map]
  rcases valueB_ge hb ds h1 h3 with g | g
  · omega
  · have h5 : valueB b ds = n := h4
    rw [h5] at g
    have : b ^ (ds.length - 1) < b ^ k := by omega
    have := (Nat.pow_lt_pow_iff_right (by omega : 1 < b)).mp this
    omega

theorem viaBuffer_ok {n : Nat} {text : List Chr} (h : text.length ≤ n - 1) : viaBuffer n text = .ok text := by
  unfold viaBuffer Str.slice
  rw [List.take_of_length_le h, if_pos (by rw [List.length_append]; simp), List.drop_zero, List.take_left' rfl]
  rfl

/-- The binary digits of a positive number. -/
theorem binLoop_ok (s v : Nat) (acc : List Chr) (hv : v < 2 ^ s) (h0 : v ≠ 0) :
    ∃ l, binLoop s v acc = .ok (l ++ acc) ∧ IsNumeralB false 2 l v := by
  induction s generalizing v acc with
  | zero => rw [Nat.pow_zero] at hv; omega
  | succ s ih =>
    rw [binLoop, if_neg h0]
    have hdig : (if v % 2 = 1 then 49#8 else 48#8 : Chr) = digit false (v % 2) := by
      by_cases e : v % 2 = 1
      · rw [if_pos e, e]; rfl
      · have : v % 2 = 0 := by omega
        rw [if_neg e, this]; rfl
    rw [hdig]
    by_cases e : v / 2 = 0
    · have hv1 : v = 1 := by omega
      subst hv1
      refine ⟨[digit false 1], ?_, [1], rfl, by simp, by simp, by simp, rfl⟩
      have : ∀ s acc, binLoop s 0 acc = .ok acc := by intro s acc; cases s <;> rfl
      rw [show (1 : Nat) / 2 = 0 from rfl, this]
      rfl
    · obtain ⟨l, l1, ds, g1, g2, g3, g4, g5⟩ := ih (v / 2) (digit false (v % 2) :: acc) (by rw [Nat.pow_succ] at hv; omega) e
      refine ⟨l ++ [digit false (v % 2)], by rw [l1, List.append_assoc]; rfl, ds ++ [v % 2], by rw [g1, List.map_append]; rfl, by simp, ?_, ?_, ?_⟩
      · intro d hd
        rcases List.mem_append.mp hd with g | g
        · exact g3 d g
        · rw [List.mem_singleton.mp g]; omega
      · intro hh
        exfalso
        cases ds with
        | nil => exact g2 rfl
        | cons d t =>
          have hd0 : d = 0 := Option.some.inj hh
          subst hd0
          have hl := g4 rfl
          have ht : t = [] := by
            rw [List.length_cons] at hl
            exact List.length_eq_zero_iff.mp (by omega)
          subst ht
          have : 2 * 0 + 0 = v / 2 := g5
          omega
      · have := valueB_snoc 2 ds (v % 2)
        unfold valueB at this
        rw [this, g5]
        omega

/-! ### The layout -/

theorem signText_eq (c : Chr) (neg : Bool) (h : IsSign c) : signText c neg = Spec.sign c neg := by
  rcases h with rfl | rfl | rfl <;> cases neg <;> rfl

/-- How many fill characters are added. -/
theorem addFill_eq (a : Args) (n : Nat) : addFill a n = List.replicate (a.width.toNat - n) (if a.zero then 48#8 else a.fill) := by
  unfold addFill
  by_cases h : a.width > 0 ∧ (n : Int) < a.width
  · rw [if_pos h]
    have : (a.width - n).toNat = a.width.toNat - n := by omega
    rw [this]
  · rw [if_neg h]
    have : a.width.toNat - n = 0 := by omega
    rw [this]
    rfl

theorem filled_ok {a : Args} {size : Nat} {text : List Chr} (h : text.length ≤ size - 1) :
    filled a size text = .ok (List.replicate (a.width.toNat - text.length) (if a.zero then 48#8 else a.fill) ++ text) := by
  unfold filled
  rw [viaBuffer_ok h, addFill_eq]
  rfl

/-- The text of a magnitude: fill characters before the prefix and the digits, except for binary numbers. -/
theorem unsignedFmt_ok (t : IntT) (v : Nat) (hv : v < 2 ^ t.bits) (a : Args) {base : Nat} {caps : Bool} {pre : List Chr} (hs : Spec.Shape a.type base caps pre)
    (h2 : base = 2 → v ≠ 0) (h8 : base = 8 → a.alt = false) (h16 : base = 16 → a.alt = true → v ≠ 0 ∧ v < 16 ^ (t.bits / 4 - 2)) :
    ∃ num, IsNumeralB caps base num v ∧
      unsignedFmt t v a = .ok (List.replicate ((if base = 2 then 0 else a.width.toNat) - ((if a.alt then pre else []) ++ num).length) (if a.zero then 48#8 else a.fill) ++
        ((if a.alt then pre else []) ++ num)) := by
  have hb : t.bits = 8 ∨ t.bits = 16 ∨ t.bits = 32 ∨ t.bits = 64 := by cases t <;> simp [IntT.bits]
  have dec : ∀ T : Chr, a.type = T → (T = 0#8 ∨ T = 100#8 ∨ T = 117#8) → ∃ num, IsNumeralB false 10 num v ∧
      unsignedFmt t v a = .ok (List.replicate (a.width.toNat - ((if a.alt then [] else []) ++ num).length) (if a.zero then 48#8 else a.fill) ++
        ((if a.alt then [] else []) ++ num)) := by
    intro T hT hTT
    have hn := numeralB_ok false (b := 10) (by decide) (by decide) v
    have hl : (numeral false 10 v).length ≤ 20 := by
      refine numeralB_length (by decide) hn (by decide) ?_
      rcases hb with e | e | e | e <;> rw [e] at hv <;> omega
    refine ⟨numeral false 10 v, hn, ?_⟩
    unfold unsignedFmt
    rw [hT, if_pos hTT, filled_ok (by omega)]
    cases a.alt <;> rfl
  have bin : ∀ (T : Chr) (p : List Chr), a.type = T → ((T = 98#8 ∧ p = [48#8, 98#8]) ∨ (T = 66#8 ∧ p = [48#8, 66#8])) → v ≠ 0 → ∃ num, IsNumeralB false 2 num v ∧
      unsignedFmt t v a = .ok (List.replicate (0 - ((if a.alt then p else []) ++ num).length) (if a.zero then 48#8 else a.fill) ++
        ((if a.alt then p else []) ++ num)) := by
    intro T p hT hTT h0
    obtain ⟨l, l1, l2⟩ := binLoop_ok (t.bits + 1) v [] (by rw [Nat.pow_succ]; omega) h0
    rw [List.append_nil] at l1
    refine ⟨l, l2, ?_⟩
    rw [Nat.zero_sub]
    unfold unsignedFmt toBinary
    rw [hT, l1]
    rcases hTT with ⟨rfl, rfl⟩ | ⟨rfl, rfl⟩
    · rw [if_neg (by decide), if_pos rfl]
      rfl
    · rw [if_neg (by decide), if_neg (by decide), if_pos rfl]
      rfl
  have hex : ∀ (T : Chr) (caps : Bool), a.type = T → ((T = 120#8 ∧ caps = false) ∨ (T = 88#8 ∧ caps = true)) → (a.alt = true → v ≠ 0 ∧ v < 16 ^ (t.bits / 4 - 2)) →
      ∃ num, IsNumeralB caps 16 num v ∧
      unsignedFmt t v a = .ok (List.replicate (a.width.toNat - ((if a.alt then [48#8, if caps then 88#8 else 120#8] else []) ++ num).length) (if a.zero then 48#8 else a.fill) ++
        ((if a.alt then [48#8, if caps then 88#8 else 120#8] else []) ++ num)) := by
    intro T caps hT hTT halt
    have hn := numeralB_ok caps (b := 16) (by decide) (by decide) v
    have hk : ∀ m, v < 16 ^ m → (numeral caps 16 v).length ≤ m ∨ m = 0 := by
      intro m hm
      rcases Nat.eq_zero_or_pos m with e | e
      · exact Or.inr e
      · exact Or.inl (numeralB_length (by decide) hn e hm)
    have htext : hexText caps a.alt v = (if a.alt then [48#8, if caps then 88#8 else 120#8] else []) ++ numeral caps 16 v := by
      unfold hexText
      cases e : a.alt with
      | false => rw [if_neg (by simp)]; rfl
      | true => rw [if_pos ⟨rfl, (halt e).1⟩]; rfl
    have hl : (hexText caps a.alt v).length ≤ t.bits / 8 * 2 := by
      rw [htext, List.length_append]
      cases e : a.alt with
      | false =>
        have h1 : v < 16 ^ (t.bits / 8 * 2) := by
          rcases hb with e | e | e | e <;> rw [e] at hv ⊢ <;> exact hv
        rw [if_neg (by decide), List.length_nil]
        rcases hk _ h1 with g | g
        · omega
        · exfalso
          rcases hb with e | e | e | e <;> rw [e] at g <;> exact absurd g (by decide)
      | true =>
        have h1 := (halt e).2
        have h0 := (halt e).1
        rw [if_pos rfl]
        rcases hk _ h1 with g | g
        · have : t.bits / 8 * 2 = t.bits / 4 := by
            rcases hb with e | e | e | e <;> rw [e]
          rw [this]
          have hg : (numeral caps 16 v).length ≠ 0 := by
            obtain ⟨ds, q1, q2, _⟩ := hn
            rw [q1, List.length_map]
            exact fun z => q2 (List.length_eq_zero_iff.mp z)
          change 2 + _ ≤ _
          omega
        · exfalso
          rw [g, Nat.pow_zero] at h1
          omega
    refine ⟨numeral caps 16 v, hn, ?_⟩
    unfold unsignedFmt
    rw [← htext, hT]
    rcases hTT with ⟨rfl, rfl⟩ | ⟨rfl, rfl⟩
    · rw [if_neg (by decide), if_neg (by decide), if_neg (by decide), if_neg (by decide), if_pos rfl, filled_ok (by omega)]
    · rw [if_neg (by decide), if_neg (by decide), if_neg (by decide), if_neg (by decide), if_neg (by decide), if_pos rfl, filled_ok (by omega)]
  generalize hT : a.type = T at hs
  cases hs with
  | none => exact dec _ hT (Or.inl rfl)
  | d => exact dec _ hT (Or.inr (Or.inl rfl))
  | u => exact dec _ hT (Or.inr (Or.inr rfl))
  | b => exact bin _ _ hT (Or.inl ⟨rfl, rfl⟩) (h2 rfl)
  | B => exact bin _ _ hT (Or.inr ⟨rfl, rfl⟩) (h2 rfl)
  | o =>
    have hn := numeralB_ok false (b := 8) (by decide) (by decide) v
    have h8 := h8 rfl
    refine ⟨numeral false 8 v, hn, ?_⟩
    have hl : (numeral false 8 v).length ≤ t.bits / 3 + 1 := by
      refine numeralB_length (by decide) hn (by omega) ?_
      rcases hb with e | e | e | e <;> rw [e] at hv ⊢ <;> exact Nat.lt_of_lt_of_le hv (by decide)
    unfold unsignedFmt
    rw [hT, if_neg (by decide), if_neg (by decide), if_neg (by decide), if_pos rfl, filled_ok (by omega), h8]
    rfl
  | x => exact hex _ _ hT (Or.inl ⟨rfl, rfl⟩) (h16 rfl)
  | X => exact hex _ _ hT (Or.inr ⟨rfl, rfl⟩) (h16 rfl)

/-- The magnitude of a value of the type. -/
theorem natAbs_lt (t : IntT) (x : Int) (hx : t.InRange x) : x.natAbs < 2 ^ t.bits := by
  unfold IntT.InRange at hx
  cases t
  all_goals
    simp only [IntT.signed, IntT.bits, if_true, Bool.false_eq_true, if_false] at *
    omega

theorem signChr_ok (f : Fields) (h : f.Wf) : IsSign f.signChr := by
  unfold Fields.signChr
  cases e : f.sign with
  | none => exact Or.inr (Or.inl rfl)
  | some c => exact h.sign c e

/-- The least value of the types with 32 and 64 bits. -/
def Least (t : IntT) (x : Int) : Prop := t.signed = true ∧ 32 ≤ t.bits ∧ x = -2 ^ (t.bits - 1)

/-- The text of any value but the least of its type. -/
theorem intFmt_ok (t : IntT) (x : Int) (hx : t.InRange x) (hmin : ¬ Least t x) (fmt : List Chr) (f : Fields) (hf : f.Wf) (hp : parseArgs fmt = .ok (meaning f))
    {base : Nat} {caps : Bool} {pre : List Chr} (hs : Spec.Shape (f.type.getD 0#8) base caps pre)
    (h2 : base = 2 → x ≠ 0) (h8 : base = 8 → f.alt = false) (h16 : base = 16 → f.alt = true → x ≠ 0 ∧ x.natAbs < 16 ^ (t.bits / 4 - 2)) :
    ∃ num, IsNumeralB caps base num x.natAbs ∧
      intFmt t x fmt = .ok ((if t.signed then Spec.sign f.signChr (decide (x < 0)) else []) ++
        (List.replicate ((if base = 2 then 0 else f.minWidth) - ((if t.signed then Spec.sign f.signChr (decide (x < 0)) else []) ++ ((if f.alt then pre else []) ++ num)).length)
          (if f.zero then 48#8 else f.fillChr) ++ ((if f.alt then pre else []) ++ num))) := by
  have hv := natAbs_lt t x hx
  have hw : ∀ w : Int, w = (meaning f).width → w.toNat = f.minWidth := by
    rintro _ rfl
    change (if f.width = [] then (-1 : Int) else (value 0 f.width : Nat)).toNat = _
    unfold Fields.minWidth
    split
    · rename_i e; rw [e]; rfl
    · rw [Int.toNat_natCast]
  unfold intFmt
  rw [hp, R.ok_bind]
  cases hsg : t.signed with
  | false =>
    rw [if_neg (by decide), if_neg (by decide)]
    have h0 : 0 ≤ x := by
      unfold IntT.InRange at hx
      rw [hsg] at hx
      exact hx.1
    have e : x.toNat = x.natAbs := by omega
    rw [e]
    obtain ⟨num, n1, n2⟩ := unsignedFmt_ok t x.natAbs hv (meaning f) hs (fun g => by have := h2 g; omega) h8 (fun g1 g2 => by have := h16 g1 g2; omega)
    refine ⟨num, n1, ?_⟩
    rw [n2, hw _ rfl]
    rfl
  | true =>
    rw [if_pos rfl, if_pos rfl]
    unfold signedFmt
    have hlim : ¬ (x < 0 ∧ ¬ (-x < 2 ^ (max t.bits 32 - 1))) := by
      rintro ⟨g1, g2⟩
      apply hmin
      unfold Least
      unfold IntT.InRange at hx
      cases t
      all_goals
        simp only [IntT.signed, IntT.bits, if_true, Bool.false_eq_true, if_false, show max 8 32 = 32 from rfl, show max 16 32 = 32 from rfl,
          show max 32 32 = 32 from rfl, show max 64 32 = 64 from rfl] at *
      all_goals first
        | (refine ⟨trivial, by decide, by omega⟩)
        | (exfalso; omega)
    rw [if_neg hlim]
    dsimp only
    have hmag : ((if x < 0 then -x else x) % 2 ^ t.bits).toNat = x.natAbs := by
      have hc : ((2 : Int) ^ t.bits) = ((2 ^ t.bits : Nat) : Int) := by simp
      rw [hc]
      generalize 2 ^ t.bits = P at *
      have : (if x < 0 then -x else x) = (x.natAbs : Int) := by split <;> omega
      rw [this, Int.emod_eq_of_lt (by omega) (by omega)]
      rfl
    have hst : signText (meaning f).sign (decide (x < 0)) = Spec.sign f.signChr (decide (x < 0)) := signText_eq _ _ (signChr_ok f hf)
    rw [hmag, hst]
    generalize hSG : Spec.sign f.signChr (decide (x < 0)) = sg
    have hlen : sg.length = if sg = [] then 0 else 1 := by
      rw [← hSG]
      unfold Spec.sign
      split
      · rfl
      · split
        · rfl
        · split <;> rfl
    obtain ⟨num, n1, n2⟩ := unsignedFmt_ok t x.natAbs hv { meaning f with width := if (meaning f).width > 0 ∧ sg ≠ [] then (meaning f).width - 1 else (meaning f).width }
      hs (fun g => by have := h2 g; omega) h8 (fun g1 g2 => by have := h16 g1 g2; omega)
    refine ⟨num, n1, ?_⟩
    rw [n2, R.ok_bind]
    have hW := hw _ rfl
    have hcount : (if base = 2 then 0 else (if (meaning f).width > 0 ∧ sg ≠ [] then (meaning f).width - 1 else (meaning f).width).toNat) - ((if f.alt then pre else []) ++ num).length =
        (if base = 2 then 0 else f.minWidth) - (sg ++ ((if f.alt then pre else []) ++ num)).length := by
      rw [List.length_append (as := sg), hlen]
      by_cases e : base = 2
      · rw [if_pos e, if_pos e]; omega
      · rw [if_neg e, if_neg e]
        by_cases e2 : sg = []
        · rw [if_neg (fun g => g.2 e2), if_pos e2, hW]; omega
        · rw [if_neg e2]
          by_cases e3 : (meaning f).width > 0
          · rw [if_pos ⟨e3, e2⟩]; omega
          · rw [if_neg (fun g => e3 g.1)]; omega
    rw [R.pure_eq]
    refine congrArg Except.ok ?_
    rw [← hcount]
    rfl

/-- What is asked of the value and the specification in `C69_int_partial`; each of these is needed, see the theorems at the end
of this file. -/
structure Plain (t : IntT) (x : Int) (f : Fields) (base : Nat) (pre num : List Chr) : Prop where
  /-- Not the least value of a type with at least 32 bits. -/
  least : ¬ Least t x
  /-- Zero is not printed in binary. -/
  bin0 : base = 2 → x ≠ 0
  /-- `#` is not used with octal numbers. -/
  oct : base = 8 → f.alt = false
  /-- With `#`, the hexadecimal digits leave room for the prefix, and the value is not zero. -/
  hex : base = 16 → f.alt = true → x ≠ 0 ∧ x.natAbs < 16 ^ (t.bits / 4 - 2)
  /-- No sign is asked for when the type has none. -/
  sign : t.signed = false → f.signChr = 45#8
  /-- If the text has to be padded: not in binary; after the sign with zeros, otherwise on the left with no sign before. -/
  pad : (Spec.sign f.signChr (decide (x < 0)) ++ ((if f.alt then pre else []) ++ num)).length < f.minWidth → base ≠ 2 ∧
    (if f.zero then (if f.alt then pre else []) = [] else f.alignChr = 62#8 ∧ Spec.sign f.signChr (decide (x < 0)) = [])

/-- C69: an integer formatted with a specification is the sign, the prefix, and the usual numeral of its absolute value in the base of the
type, with zeros or fill characters up to the width. -/
theorem C69_int_partial (t : IntT) (x : Int) (hx : t.InRange x) (f : Fields) (hf : f.Wf) (ht : ∀ c, f.type = some c → IsLetter c)
    {base : Nat} {caps : Bool} {pre : List Chr} (hs : Spec.Shape (f.type.getD 0#8) base caps pre)
    (hpl : ∀ num, IsNumeralB caps base num x.natAbs → Plain t x f base pre num) :
    ∃ out, intFmt t x f.render = .ok out ∧ Spec.IntText f base caps pre x out := by
  have hbase : 2 ≤ base ∧ base ≤ 16 := by generalize f.type.getD 0#8 = T at hs; cases hs <;> decide
  have h0 := hpl _ (numeralB_ok caps hbase.1 hbase.2 x.natAbs)
  obtain ⟨num, n1, n2⟩ := intFmt_ok t x hx h0.least f.render f hf (parseArgs_ok f hf ht) hs h0.bin0 h0.oct h0.hex
  have hp := hpl num n1
  refine ⟨_, n2, num, n1, ?_⟩
  have hsg : (if t.signed then Spec.sign f.signChr (decide (x < 0)) else []) = Spec.sign f.signChr (decide (x < 0)) := by
    cases e : t.signed with
    | true => rfl
    | false =>
      have hn : ¬ x < 0 := by
        unfold IntT.InRange at hx
        rw [e] at hx
        have := hx.1
        omega
      rw [hp.sign e, decide_eq_false hn]
      rfl
  rw [hsg]
  have hpad := hp.pad
  generalize Spec.sign f.signChr (decide (x < 0)) = sg at *
  generalize (if f.alt then pre else []) = P at *
  dsimp only
  by_cases hlt : (sg ++ (P ++ num)).length < f.minWidth
  · obtain ⟨q1, q2⟩ := hpad hlt
    rw [if_neg q1]
    cases e : f.zero with
    | true =>
      rw [e, if_pos rfl] at q2
      rw [if_pos rfl, if_pos rfl, q2]
      simp only [List.nil_append, List.append_nil, List.append_assoc]
    | false =>
      rw [e, if_neg (by decide)] at q2
      rw [if_neg (by decide), if_neg (by decide), q2.2]
      refine ⟨f.minWidth - (P ++ num).length, 0, ?_, ?_, ?_, fun _ => rfl, ?_⟩
      · simp only [List.nil_append, List.replicate_zero, List.append_nil, List.append_assoc]
      · simp only [List.nil_append]; omega
      · rw [q2.1]; intro g; cases g
      · rw [q2.1]; intro g; cases g
  · have z : (if base = 2 then 0 else f.minWidth) - (sg ++ (P ++ num)).length = 0 := by
      split <;> omega
    have z2 : f.minWidth - (sg ++ P ++ num).length = 0 := by
      rw [List.append_assoc]; omega
    rw [z]
    cases e : f.zero with
    | true =>
      rw [if_pos rfl, if_pos rfl, z2]
      simp only [List.replicate_zero, List.nil_append, List.append_assoc, List.append_nil]
    | false =>
      rw [if_neg (by decide), if_neg (by decide)]
      refine ⟨0, 0, ?_, by omega, fun _ => rfl, fun _ => rfl, fun _ => Or.inl rfl⟩
      simp only [List.replicate_zero, List.nil_append, List.append_assoc, List.append_nil]

/-- C69: without a specification, as for `cc::format("{}", x)`, the text is the usual decimal form. Partial: not for the least
value of `int`, `long` and `long long`. -/
theorem C69_default_partial (t : IntT) (x : Int) (hx : t.InRange x) (hmin : ¬ Least t x) :
    intFmt t x [] = .ok (Num.decimal x) ∧ Num.Spec.IsDecimal (Num.decimal x) x := by
  refine ⟨?_, Num.decimal_ok x⟩
  have hw : ({} : Fields).Wf :=
    ⟨(fun _ _ h => nomatch h), (fun _ h => nomatch h), by decide +kernel, (fun h => nomatch h), (fun _ h => nomatch h)⟩
  have hv := natAbs_lt t x hx
  have hdec : ∀ a : Args, a.type = 0#8 → a.width = -1 → unsignedFmt t x.natAbs a = .ok (numeral false 10 x.natAbs) := by
    intro a ha hwd
    unfold unsignedFmt
    rw [if_pos (Or.inl ha), filled_ok, hwd]
    · simp
    · refine numeralB_length (by decide) (numeralB_ok false (b := 10) (by decide) (by decide) x.natAbs) (by decide) ?_
      have hb : t.bits = 8 ∨ t.bits = 16 ∨ t.bits = 32 ∨ t.bits = 64 := by cases t <;> simp [IntT.bits]
      rcases hb with e | e | e | e <;> rw [e] at hv <;> omega
  have hp : parseArgs [] = .ok {} := rfl
  unfold intFmt Num.decimal
  rw [hp, R.ok_bind]
  cases hsg : t.signed with
  | false =>
    have h0 : 0 ≤ x := by
      unfold IntT.InRange at hx
      rw [hsg] at hx
      exact hx.1
    have e : x.toNat = x.natAbs := by omega
    rw [if_neg (by decide), e, hdec _ rfl rfl, if_neg (by omega)]
  | true =>
    rw [if_pos rfl]
    unfold signedFmt
    have hlim : ¬ (x < 0 ∧ ¬ (-x < 2 ^ (max t.bits 32 - 1))) := by
      rintro ⟨g1, g2⟩
      apply hmin
      unfold Least
      unfold IntT.InRange at hx
      cases t
      all_goals
        simp only [IntT.signed, IntT.bits, if_true, Bool.false_eq_true, if_false, show max 8 32 = 32 from rfl, show max 16 32 = 32 from rfl,
          show max 32 32 = 32 from rfl, show max 64 32 = 64 from rfl] at *
      all_goals first
        | (refine ⟨trivial, by decide, by omega⟩)
        | (exfalso; omega)
    rw [if_neg hlim]
    dsimp only
    have hmag : ((if x < 0 then -x else x) % 2 ^ t.bits).toNat = x.natAbs := by
      have hc : ((2 : Int) ^ t.bits) = ((2 ^ t.bits : Nat) : Int) := by simp
      rw [hc]
      generalize 2 ^ t.bits = P at *
      have : (if x < 0 then -x else x) = (x.natAbs : Int) := by split <;> omega
      rw [this, Int.emod_eq_of_lt (by omega) (by omega)]
      rfl
    rw [hmag, hdec _ rfl (by rw [if_neg (by omega)]), R.ok_bind]
    by_cases e : x < 0
    · rw [if_pos e, decide_eq_true e]; rfl
    · rw [if_neg e, decide_eq_false e]; rfl

/-- C69: other types are rejected by a contract. -/
theorem C69_type_rejected (t : IntT) (x : Int) (hmin : ¬ (x < 0 ∧ ¬ (-x < 2 ^ (max t.bits 32 - 1)))) (fmt : List Chr) (a : Args) (hp : parseArgs fmt = .ok a)
    (hs : ∀ base caps pre, ¬ Spec.Shape a.type base caps pre) : intFmt t x fmt = .error .assert := by
  have hu : ∀ v (a' : Args), a'.type = a.type → unsignedFmt t v a' = .error .assert := by
    intro v a' e
    unfold unsignedFmt
    rw [e]
    rw [if_neg, if_neg (fun g => ?_), if_neg (fun g => ?_), if_neg (fun g => ?_), if_neg (fun g => ?_), if_neg (fun g => ?_)]
    · rw [g] at hs; exact hs _ _ _ .X
    · rw [g] at hs; exact hs _ _ _ .x
    · rw [g] at hs; exact hs _ _ _ .o
    · rw [g] at hs; exact hs _ _ _ .B
    · rw [g] at hs; exact hs _ _ _ .b
    · rintro (g | g | g)
      · rw [g] at hs; exact hs _ _ _ .none
      · rw [g] at hs; exact hs _ _ _ .d
      · rw [g] at hs; exact hs _ _ _ .u
  unfold intFmt
  rw [hp, R.ok_bind]
  split
  · unfold signedFmt
    rw [if_neg hmin]
    dsimp only
    rw [hu _ { a with width := if a.width > 0 ∧ signText a.sign (decide (x < 0)) ≠ [] then a.width - 1 else a.width } rfl]
    rfl
  · exact hu _ _ rfl

/-- `+08d` -/
def exInt : Fields := { sign := some 43#8, zero := true, width := [56#8], type := some 100#8 }

example : exInt.render = txt "+08d" ∧ intFmt .i32 (-1234) (txt "+08d") = .ok (txt "-0001234") ∧ intFmt .i16 77 (txt "+08d") = .ok (txt "+0000077") := by
  decide +kernel
example : exInt.Wf ∧ Spec.Shape (exInt.type.getD 0#8) 10 false [] ∧ (∀ c, exInt.type = some c → IsLetter c) ∧
    ∀ num, IsNumeralB false 10 num 1234 → Plain .i32 (-1234) exInt 10 [] num := by
  refine ⟨⟨(fun _ _ h => nomatch h), ?_, by decide +kernel, fun _ => by decide, (fun _ h => nomatch h)⟩, .d, ?_, fun num _ => ?_⟩
  · intro c hc
    rw [← Option.some.inj hc]; exact Or.inl rfl
  · intro c hc
    rw [← Option.some.inj hc]; exact Or.inl (by decide)
  · refine ⟨?_, (fun h => nomatch h), (fun h => nomatch h), (fun h => nomatch h), (fun h => nomatch h), fun _ => ⟨by decide, rfl⟩⟩
    unfold Least
    decide
example : intFmt .u8 255 (txt "*>6x") = .ok (txt "****ff") ∧ intFmt .u32 255 (txt "#8X") = .ok (txt "    0XFF") ∧
    intFmt .i64 (-5) (txt "#b") = .ok (txt "-0b101") ∧ intFmt .u16 65535 (txt "o") = .ok (txt "177777") := by decide +kernel
example : intFmt .i32 5 (txt "i") = .error .assert ∧ intFmt .i64 5 (txt "ld") = .error .assert := by decide +kernel

/-! ### Where the code and C69 disagree -/

/-- The least `int`, `long` and `long long` cannot be formatted at all: the negation overflows. -/
theorem C69_least_undefined : intFmt .i32 (-2147483648) [] = .error .ub ∧ intFmt .i64 (-9223372036854775808) [] = .error .ub ∧
    intFmt .ill (-9223372036854775808) (txt "d") = .error .ub := by decide +kernel

/-- Zero in binary is the empty text. -/
theorem C69_binary_zero_empty : intFmt .u32 0 (txt "b") = .ok [] ∧ intFmt .i8 0 (txt "#b") = .ok (txt "0b") := by decide +kernel

/-- The width is ignored for binary numbers. -/
theorem C69_binary_not_padded : intFmt .u32 5 (txt "08b") = .ok (txt "101") := by decide +kernel

/-- With `#x` the buffer is too small: the last character is a zero, or the text behind the buffer is read. -/
theorem C69_hex_prefix_overflows : intFmt .u8 15 (txt "#x") = .ok (txt "0x" ++ [0#8]) ∧ intFmt .u8 255 (txt "#x") = .error .ub ∧
    intFmt .u32 4294967295 (txt "#X") = .error .ub := by decide +kernel

/-- The prefix of octal numbers is before the fill characters and not counted; zeros are put before `0x`. -/
theorem C69_prefix_misplaced : intFmt .u32 8 (txt "#5o") = .ok (txt "0   10") ∧ intFmt .u32 255 (txt "#08x") = .ok (txt "00000xff") := by decide +kernel

/-- The alignment is ignored, and the fill characters are put between the sign and the digits. -/
theorem C69_align_ignored : intFmt .i32 42 (txt "<5") = .ok (txt "   42") ∧ intFmt .i32 (-42) (txt "5") = .ok (txt "-  42") := by decide +kernel

/-- Signs are ignored for unsigned types. -/
theorem C69_unsigned_sign_ignored : intFmt .u32 42 (txt "+") = .ok (txt "42") ∧ intFmt .i32 42 (txt "+") = .ok (txt "+42") := by decide +kernel

/-- For characters and truth values, which are documented like the others, width and alignment are ignored. -/
theorem C69_char_bool_not_padded : charFmt 65#8 (txt "5") = .ok (txt "A") ∧ boolFmt true (txt "8") = .ok (txt "true") := by decide +kernel

end Verif.Fmt
