import Verif.Format.Printf
import Verif.StrView.Props
/-! # One round of the loop -/
namespace Verif.Format
open Verif.StrView (Chr isLower isUpper)
open Verif.Num (isDigit isDigit_iff value_nil value_cons)
open Verif.Num.Spec (IsDigit value)
open Spec (PrintfSpec Piece NameStart IsName renderSpec NoClose Denote)

/-! ### The three small loops -/

theorem value_mod (M a : Nat) (l : List Chr) : value (a % M) l % M = value a l % M := by
  induction l generalizing a with
  | nil => rw [value_nil, value_nil, Nat.mod_mod]
  | cons c t ih =>
    rw [value_cons, value_cons, ← ih (10 * (a % M) + _), ← ih (10 * a + _)]
    have : (10 * (a % M) + (c.toNat - 48)) % M = (10 * a + (c.toNat - 48)) % M := by
      rw [Nat.add_mod, Nat.mul_mod, Nat.mod_mod, ← Nat.mul_mod, ← Nat.add_mod]
    rw [this]

theorem indexLoop_ok (T ds b : List Chr) (acc : Nat) (hacc : acc < 2 ^ 64) (hd : ∀ c ∈ ds, IsDigit c) (hb0 : b ≠ []) (hb : ∀ c, b.head? = some c → ¬ IsDigit c) :
    indexLoop (ds ++ b ++ T) ((ds ++ b).length : Int) acc = .ok (value acc ds % 2 ^ 64, P T b) := by
  induction ds generalizing acc with
  | nil =>
    cases b with
    | nil => exact absurd rfl hb0
    | cons c b =>
      change indexLoop (c :: (b ++ T)) _ acc = _
      rw [indexLoop, if_neg (fun e => hb c rfl ((isDigit_iff c).mp e)), value_nil, Nat.mod_eq_of_lt hacc]
      rfl
  | cons c ds ih =>
    have hc := hd c List.mem_cons_self
    change indexLoop (c :: (ds ++ b ++ T)) _ acc = _
    have hlen : (((c :: ds) ++ b).length : Int) - 1 = ((ds ++ b).length : Int) := by
      simp only [List.cons_append, List.length_cons]; omega
    have hpos : ((ds ++ b).length : Int) ≠ 0 := by
      have := List.length_pos_iff.mpr hb0
      rw [List.length_append]; omega
    rw [indexLoop, if_pos ((isDigit_iff c).mpr hc), hlen, decide_eq_true hpos, ccAssert_true rfl, R.ok_bind,
      ih _ (Nat.mod_lt _ (by decide)) (fun x hx => hd x (List.mem_cons_of_mem _ hx)), value_mod, value_cons]
    have : value (acc * 10 % 2 ^ 64 + (c.toNat - 48)) ds % 2 ^ 64 = value (10 * acc + (c.toNat - 48)) ds % 2 ^ 64 := by
      rw [← value_mod, ← value_mod (2 ^ 64) (10 * acc + _)]
      have : (acc * 10 % 2 ^ 64 + (c.toNat - 48)) % 2 ^ 64 = (10 * acc + (c.toNat - 48)) % 2 ^ 64 := by omega
      rw [this]
    rw [this]

theorem indexLoop_all (T ds : List Chr) (acc : Nat) (hd : ∀ c ∈ ds, IsDigit c) (h0 : ds ≠ []) : indexLoop (ds ++ T) (ds.length : Int) acc = .error .assert := by
  induction ds generalizing acc with
  | nil => exact absurd rfl h0
  | cons c ds ih =>
    change indexLoop (c :: (ds ++ T)) _ acc = _
    have hlen : ((c :: ds).length : Int) - 1 = (ds.length : Int) := by
      simp only [List.length_cons]; omega
    rw [indexLoop, if_pos ((isDigit_iff c).mpr (hd c List.mem_cons_self)), hlen]
    cases ds with
    | nil => rfl
    | cons d ds =>
      rw [decide_eq_true (by simp only [List.length_cons]; omega), ccAssert_true rfl, R.ok_bind]
      exact ih _ (fun x hx => hd x (List.mem_cons_of_mem _ hx)) (by simp)

theorem indexLoop_cases (T s : List Chr) (acc : Nat) (hacc : acc < 2 ^ 64) (h0 : s ≠ []) :
    (∃ ds b, s = ds ++ b ∧ (∀ c ∈ ds, IsDigit c) ∧ b ≠ [] ∧ (∀ c, b.head? = some c → ¬ IsDigit c) ∧
      indexLoop (s ++ T) (s.length : Int) acc = .ok (value acc ds % 2 ^ 64, P T b)) ∨
    indexLoop (s ++ T) (s.length : Int) acc = .error .assert := by
  obtain ⟨ds, b, e, h1, h2⟩ := split_while isDigit s
  have h1' : ∀ c ∈ ds, IsDigit c := fun c hc => (isDigit_iff c).mp (h1 c hc)
  by_cases hb : b = []
  · subst hb
    rw [List.append_nil] at e
    subst e
    exact Or.inr (indexLoop_all T s acc h1' h0)
  · have h2' : ∀ c, b.head? = some c → ¬ IsDigit c := by
      intro c hc g
      have := h2 c hc
      rw [(isDigit_iff c).mpr g] at this
      cases this
    refine Or.inl ⟨ds, b, e, h1', hb, h2', ?_⟩
    rw [e]
    exact indexLoop_ok T ds b acc hacc h1' hb h2'

/-- The characters of a name. -/
def isNameChr (c : Chr) : Bool := isNameStart c || isDigit c

theorem nameLoop_ok (T nm b acc : List Chr) (hd : ∀ c ∈ nm, isNameChr c = true) (hb0 : b ≠ []) (hb : ∀ c, b.head? = some c → isNameChr c = false) :
    nameLoop (nm ++ b ++ T) ((nm ++ b).length : Int) acc = .ok (acc ++ nm, P T b) := by
  induction nm generalizing acc with
  | nil =>
    cases b with
    | nil => exact absurd rfl hb0
    | cons c b =>
      change nameLoop (c :: (b ++ T)) _ acc = _
      have : (isNameStart c || isDigit c) = false := hb c rfl
      rw [nameLoop, this, if_neg (by decide), List.append_nil]
      rfl
  | cons c nm ih =>
    have hc : (isNameStart c || isDigit c) = true := hd c List.mem_cons_self
    change nameLoop (c :: (nm ++ b ++ T)) _ acc = _
    have hlen : (((c :: nm) ++ b).length : Int) - 1 = ((nm ++ b).length : Int) := by
      simp only [List.cons_append, List.length_cons]; omega
    have hpos : ((nm ++ b).length : Int) ≠ 0 := by
      have := List.length_pos_iff.mpr hb0
      rw [List.length_append]; omega
    rw [nameLoop, hc, if_pos rfl, hlen, decide_eq_true hpos, ccAssert_true rfl, R.ok_bind,
      ih _ (fun x hx => hd x (List.mem_cons_of_mem _ hx)), List.append_assoc]
    rfl

theorem nameLoop_all (T nm acc : List Chr) (hd : ∀ c ∈ nm, isNameChr c = true) (h0 : nm ≠ []) : nameLoop (nm ++ T) (nm.length : Int) acc = .error .assert := by
  induction nm generalizing acc with
  | nil => exact absurd rfl h0
  | cons c nm ih =>
    change nameLoop (c :: (nm ++ T)) _ acc = _
    have hc : (isNameStart c || isDigit c) = true := hd c List.mem_cons_self
    have hlen : ((c :: nm).length : Int) - 1 = (nm.length : Int) := by
      simp only [List.length_cons]; omega
    rw [nameLoop, hc, if_pos rfl, hlen]
    cases nm with
    | nil => rfl
    | cons d nm =>
      rw [decide_eq_true (by simp only [List.length_cons]; omega), ccAssert_true rfl, R.ok_bind]
      exact ih _ (fun x hx => hd x (List.mem_cons_of_mem _ hx)) (by simp)

theorem nameLoop_cases (T s acc : List Chr) (h0 : s ≠ []) :
    (∃ nm b, s = nm ++ b ∧ (∀ c ∈ nm, isNameChr c = true) ∧ b ≠ [] ∧
      nameLoop (s ++ T) (s.length : Int) acc = .ok (acc ++ nm, P T b)) ∨
    nameLoop (s ++ T) (s.length : Int) acc = .error .assert := by
  obtain ⟨nm, b, e, h1, h2⟩ := split_while isNameChr s
  by_cases hb : b = []
  · subst hb
    rw [List.append_nil] at e
    subst e
    exact Or.inr (nameLoop_all T s acc h1 h0)
  · refine Or.inl ⟨nm, b, e, h1, hb, ?_⟩
    rw [e]
    exact nameLoop_ok T nm b acc h1 hb h2

theorem specLoop_ok (T sp r acc : List Chr) (hd : 125#8 ∉ sp) :
    specLoop (sp ++ 125#8 :: r ++ T) ((sp ++ 125#8 :: r).length : Int) acc = .ok (acc ++ sp, P T (125#8 :: r)) := by
  induction sp generalizing acc with
  | nil =>
    change specLoop (125#8 :: (r ++ T)) _ acc = _
    rw [specLoop, if_neg (by decide), List.append_nil]
    rfl
  | cons c sp ih =>
    have hc : c ≠ 125#8 := fun e => hd (by rw [e]; exact List.mem_cons_self)
    change specLoop (c :: (sp ++ 125#8 :: r ++ T)) _ acc = _
    have hlen : (((c :: sp) ++ 125#8 :: r).length : Int) - 1 = ((sp ++ 125#8 :: r).length : Int) := by
      simp only [List.cons_append, List.length_cons]; omega
    have hpos : ((sp ++ 125#8 :: r).length : Int) ≠ 0 := by
      rw [List.length_append, List.length_cons]; omega
    rw [specLoop, if_pos hc, hlen, decide_eq_true hpos, ccAssert_true rfl, R.ok_bind,
      ih _ (fun hx => hd (List.mem_cons_of_mem _ hx)), List.append_assoc]
    rfl

theorem specLoop_cases (T s acc : List Chr) (h0 : s ≠ []) :
    (∃ sp r, s = sp ++ 125#8 :: r ∧ 125#8 ∉ sp ∧ specLoop (s ++ T) (s.length : Int) acc = .ok (acc ++ sp, P T (125#8 :: r))) ∨
    specLoop (s ++ T) (s.length : Int) acc = .error .assert := by
  induction s generalizing acc with
  | nil => exact absurd rfl h0
  | cons c s ih =>
    by_cases e : c = 125#8
    · subst e
      exact Or.inl ⟨[], s, rfl, by simp, specLoop_ok T [] s acc (by simp)⟩
    · have hlen : ((c :: s).length : Int) - 1 = (s.length : Int) := by
        simp only [List.length_cons]; omega
      have hstep : specLoop (c :: s ++ T) ((c :: s).length : Int) acc = (do
          ccAssert (decide ((s.length : Int) ≠ 0))
          specLoop (s ++ T) (s.length : Int) (acc ++ [c]) : R _) := by
        change specLoop (c :: (s ++ T)) _ acc = _
        rw [specLoop, if_pos e, hlen]
      rw [hstep]
      cases hs : s with
      | nil => exact Or.inr rfl
      | cons d t =>
        rw [← hs, decide_eq_true (by rw [hs]; simp only [List.length_cons]; omega), ccAssert_true rfl, R.ok_bind]
        rcases ih (acc ++ [c]) (by rw [hs]; simp) with ⟨sp, r, e1, e2, e3⟩ | e3
        · refine Or.inl ⟨c :: sp, r, by rw [e1]; rfl, ?_, by rw [e3, List.append_assoc]; rfl⟩
          intro g
          rcases List.mem_cons.mp g with g | g
          · exact e g.symm
          · exact e2 g
        · exact Or.inr e3

/-! ### Names -/

theorem isNameStart_iff (c : Chr) : isNameStart c = true ↔ NameStart c := by
  unfold isNameStart NameStart isLower isUpper StrView.chLe
  have ht : c.toInt = if c.toNat < 128 then (c.toNat : Int) else (c.toNat : Int) - 256 := by
    rw [BitVec.toInt_eq_toNat_cond]
    have := c.isLt
    split <;> split <;> omega
  have h61 : (0x61#8).toInt = 97 := by decide
  have h7a : (0x7A#8).toInt = 122 := by decide
  have h41 : (0x41#8).toInt = 65 := by decide
  have h5a : (0x5A#8).toInt = 90 := by decide
  rw [ht, h61, h7a, h41, h5a]
  have hlt := c.isLt
  simp only [Bool.or_eq_true, beq_iff_eq, Bool.and_eq_true, decide_eq_true_eq, or_assoc]
  constructor
  · rintro (e | e | e)
    · exact Or.inl e
    · refine Or.inr (Or.inl ?_); split at e <;> omega
    · refine Or.inr (Or.inr ?_); split at e <;> omega
  · rintro (e | e | e)
    · exact Or.inl e
    · refine Or.inr (Or.inl ?_); split <;> omega
    · refine Or.inr (Or.inr ?_); split <;> omega

theorem isName_iff (c : Chr) (t : List Chr) : IsName (c :: t) ↔ isNameStart c = true ∧ ∀ x ∈ t, isNameChr x = true := by
  have hchr : ∀ x, isNameChr x = true ↔ NameStart x ∨ IsDigit x := by
    intro x
    unfold isNameChr
    rw [Bool.or_eq_true, isNameStart_iff, isDigit_iff]
  unfold IsName
  constructor
  · rintro ⟨d, u, e, h1, h2⟩
    obtain ⟨rfl, rfl⟩ := List.cons.inj e
    exact ⟨(isNameStart_iff _).mpr h1, fun x hx => (hchr x).mpr (h2 x hx)⟩
  · rintro ⟨h1, h2⟩
    exact ⟨c, t, rfl, (isNameStart_iff _).mp h1, fun x hx => (hchr x).mp (h2 x hx)⟩

theorem nameStart_not_digit {c : Chr} (h : isNameStart c = true) : isDigit c = false := by
  rw [Bool.eq_false_iff]
  intro g
  have h1 := (isDigit_iff c).mp g
  unfold IsDigit at h1
  rcases (isNameStart_iff c).mp h with e | e | e
  · subst e; exact absurd h1 (by decide)
  · omega
  · omega

theorem findName_spec (args : List Arg) (hl : args.length < 2 ^ 31) (nm : List Chr) (h0 : nm ≠ []) (f i : Nat) (hf : args.length ≤ i + f) (hi : i ≤ args.length)
    (hbefore : ∀ (j : Nat) (b : Arg), j < i → args[j]? = some b → b.name ≠ nm) :
    (∃ a, args[findName args nm f i]? = some a ∧ a.name = nm ∧ ∀ (j : Nat) (b : Arg), j < findName args nm f i → args[j]? = some b → b.name ≠ nm) ∨
    (¬ findName args nm f i < args.length ∧ ∀ (j : Nat) (b : Arg), args[j]? = some b → b.name ≠ nm) := by
  induction f generalizing i with
  | zero =>
    refine Or.inr ⟨by rw [findName]; omega, fun j b hb => hbefore j b ?_ hb⟩
    have := (List.getElem?_eq_some_iff.mp hb).1
    omega
  | succ f ih =>
    rw [findName]
    cases ha : args[i]? with
    | none =>
      dsimp only
      refine Or.inr ⟨by omega, fun j b hb => hbefore j b ?_ hb⟩
      have := (List.getElem?_eq_some_iff.mp hb).1
      have := List.getElem?_eq_none_iff.mp ha
      omega
    | some a =>
      dsimp only
      have hil := (List.getElem?_eq_some_iff.mp ha).1
      by_cases e : a.name = nm
      · rw [if_pos ⟨by rw [e]; exact h0, e⟩]
        exact Or.inl ⟨a, ha, e, hbefore⟩
      · rw [if_neg (fun g => e g.2)]
        refine ih (i + 1) (by omega) (by omega) ?_
        intro j b hj hb
        rcases Nat.lt_or_ge j i with g | g
        · exact hbefore j b g hb
        · have : j = i := by omega
          subst this
          rw [ha] at hb
          rw [← Option.some.inj hb]
          exact e

end Verif.Format
