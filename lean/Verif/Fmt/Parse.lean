import Verif.Fmt.Model
import Verif.Fmt.Spec
import Verif.Num.Props
/-! # `parse_args` accepts the grammar -/
namespace Verif.Fmt
open Verif.StrView (Chr)
open Verif.Num (isDigit isDigit_iff value_nil value_cons)
open Verif.Num.Spec (IsDigit value)
open Spec (Fields IsAlign IsSign IsLetter renderAlign)

theorem isAlign_iff (c : Chr) : isAlign c = true ↔ IsAlign c := by
  unfold isAlign IsAlign
  simp only [Bool.or_eq_true, beq_iff_eq, or_assoc]

theorem isSign_iff (c : Chr) : isSign c = true ↔ IsSign c := by
  unfold isSign IsSign
  simp only [Bool.or_eq_true, beq_iff_eq, or_assoc]

/-- The text does not begin with a digit. -/
def NoDigit (r : List Chr) : Prop := ∀ c, r.head? = some c → ¬ IsDigit c

theorem value_mono (l : List Chr) (a : Nat) : a ≤ value a l := by
  induction l generalizing a with
  | nil => exact Nat.le_refl _
  | cons c t ih =>
    rw [value_cons]
    have := ih (10 * a + (c.toNat - 48))
    omega

theorem intOp_ok {x : Int} (h1 : 0 ≤ x) (h2 : x < 2 ^ 31) : intOp x = .ok x := by
  unfold intOp
  rw [if_pos ⟨by omega, h2⟩]

theorem intOp_inv {x y : Int} (h : intOp x = .ok y) : y = x ∧ x < 2 ^ 31 := by
  unfold intOp at h
  split at h
  · rename_i g
    exact ⟨(Except.ok.inj h).symm, g.2⟩
  · cases h

theorem uintLoop_ok (ds r : List Chr) (acc : Nat) (h : ∀ c ∈ ds, IsDigit c) (hr : NoDigit r) (hv : value acc ds < 2 ^ 31) :
    uintLoop (ds ++ r) acc = .ok ((value acc ds : Nat), r) := by
  induction ds generalizing acc with
  | nil =>
    rw [List.nil_append, value_nil]
    cases r with
    | nil => rfl
    | cons c t =>
      rw [uintLoop, if_neg (fun e => hr c rfl ((isDigit_iff c).mp e))]
      rfl
  | cons c t ih =>
    have hc := h c List.mem_cons_self
    rw [value_cons] at hv ⊢
    have hm := value_mono t (10 * acc + (c.toNat - 48))
    have hc1 := hc.1
    rw [List.cons_append, uintLoop, if_pos ((isDigit_iff c).mpr hc), intOp_ok (by omega) (by omega), R.ok_bind,
      intOp_ok (by omega) (by omega), R.ok_bind]
    have e : (acc : Int) * 10 + ((c.toNat : Int) - 48) = ((10 * acc + (c.toNat - 48) : Nat) : Int) := by omega
    rw [e]
    exact ih _ (fun x hx => h x (List.mem_cons_of_mem _ hx)) hv

theorem uintLoop_inv (l : List Chr) (acc : Nat) (n : Int) (r : List Chr) (h0 : acc < 2 ^ 31) (h : uintLoop l acc = .ok (n, r)) :
    ∃ ds, l = ds ++ r ∧ (∀ c ∈ ds, IsDigit c) ∧ NoDigit r ∧ n = (value acc ds : Nat) ∧ value acc ds < 2 ^ 31 := by
  induction l generalizing acc with
  | nil =>
    obtain ⟨rfl, rfl⟩ := Prod.mk.inj (Except.ok.inj h)
    refine ⟨[], rfl, by simp, ?_, rfl, h0⟩
    intro c hc
    cases hc
  | cons c t ih =>
    rw [uintLoop] at h
    by_cases e : isDigit c = true
    · rw [if_pos e] at h
      have hc := (isDigit_iff c).mp e
      obtain ⟨y, h1, h2⟩ := R.bind_eq_ok.mp h
      obtain ⟨rfl, g1⟩ := intOp_inv h1
      obtain ⟨y, h3, h4⟩ := R.bind_eq_ok.mp h2
      obtain ⟨rfl, g2⟩ := intOp_inv h3
      have hc1 := hc.1
      have e : (acc : Int) * 10 + ((c.toNat : Int) - 48) = ((10 * acc + (c.toNat - 48) : Nat) : Int) := by omega
      rw [e] at h4 g2
      obtain ⟨ds, e1, e2, e3, e4, e5⟩ := ih _ (by omega) h4
      refine ⟨c :: ds, by rw [e1]; rfl, ?_, e3, ?_, ?_⟩
      · intro x hx
        rcases List.mem_cons.mp hx with g | g
        · rw [g]; exact hc
        · exact e2 x g
      · rw [e4, value_cons]
      · rw [value_cons]; exact e5
    · rw [if_neg e] at h
      obtain ⟨rfl, rfl⟩ := Prod.mk.inj (Except.ok.inj h)
      refine ⟨[], rfl, by simp, ?_, rfl, h0⟩
      intro d hd
      have : d = c := (Option.some.inj hd).symm
      rw [this]
      exact fun g => e ((isDigit_iff c).mpr g)

theorem parseUInt_ok (ds r : List Chr) (h0 : ds ≠ []) (h : ∀ c ∈ ds, IsDigit c) (hr : NoDigit r) (hv : value 0 ds < 2 ^ 31) :
    parseUInt (ds ++ r) = .ok ((value 0 ds : Nat), r) := by
  cases ds with
  | nil => exact absurd rfl h0
  | cons c t =>
    have hc := (h c List.mem_cons_self).1
    rw [value_cons] at hv ⊢
    have e : ((c.toNat : Int) - 48) = ((10 * 0 + (c.toNat - 48) : Nat) : Int) := by omega
    rw [List.cons_append, parseUInt, e]
    exact uintLoop_ok t r _ (fun x hx => h x (List.mem_cons_of_mem _ hx)) hr hv

theorem parseUInt_inv (c : Chr) (t : List Chr) (n : Int) (r : List Chr) (hc : IsDigit c) (h : parseUInt (c :: t) = .ok (n, r)) :
    ∃ ds, c :: t = (c :: ds) ++ r ∧ (∀ x ∈ c :: ds, IsDigit x) ∧ NoDigit r ∧ n = (value 0 (c :: ds) : Nat) ∧ value 0 (c :: ds) < 2 ^ 31 := by
  have hc1 := hc.1
  have e : ((c.toNat : Int) - 48) = ((10 * 0 + (c.toNat - 48) : Nat) : Int) := by omega
  rw [parseUInt, e] at h
  have hc2 := hc.2
  obtain ⟨ds, e1, e2, e3, e4, e5⟩ := uintLoop_inv t _ n r (by omega) h
  refine ⟨ds, by rw [e1]; rfl, ?_, e3, by rw [value_cons]; exact e4, by rw [value_cons]; exact e5⟩
  intro x hx
  rcases List.mem_cons.mp hx with g | g
  · rw [g]; exact hc
  · exact e2 x g

/-! ### The parts -/

/-- The arguments that the parts stand for. -/
def meaning (f : Fields) : Args where
  width := if f.width = [] then -1 else (value 0 f.width : Nat)
  precision := match f.precision with | none => -1 | some p => (value 0 p : Nat)
  fill := f.fillChr
  align := f.alignChr
  sign := f.signChr
  type := f.type.getD 0#8
  alt := f.alt
  zero := f.zero

theorem letter_not {c : Chr} (h : IsLetter c) : ¬ IsDigit c ∧ ¬ IsAlign c ∧ ¬ IsSign c ∧ c ≠ 35#8 ∧ c ≠ 46#8 ∧ c ≠ 48#8 := by
  have key : ∀ k : Nat, k < 256 → c.toNat ≠ k → c ≠ BitVec.ofNat 8 k := by
    intro k hk h1 h2
    rw [h2, BitVec.toNat_ofNat] at h1
    omega
  unfold IsLetter at h
  refine ⟨?_, ?_, ?_, key 35 (by decide) (by omega), key 46 (by decide) (by omega), key 48 (by decide) (by omega)⟩
  · unfold IsDigit; omega
  · rintro (e | e | e)
    · exact key 60 (by decide) (by omega) e
    · exact key 62 (by decide) (by omega) e
    · exact key 94 (by decide) (by omega) e
  · rintro (e | e | e)
    · exact key 43 (by decide) (by omega) e
    · exact key 45 (by decide) (by omega) e
    · exact key 32 (by decide) (by omega) e

theorem digit_not {c : Chr} (h : IsDigit c) : ¬ IsAlign c ∧ ¬ IsSign c ∧ c ≠ 35#8 ∧ c ≠ 46#8 := by
  have key : ∀ k : Nat, k < 256 → c.toNat ≠ k → c ≠ BitVec.ofNat 8 k := by
    intro k hk h1 h2
    rw [h2, BitVec.toNat_ofNat] at h1
    omega
  unfold IsDigit at h
  refine ⟨?_, ?_, key 35 (by decide) (by omega), key 46 (by decide) (by omega)⟩
  · rintro (e | e | e)
    · exact key 60 (by decide) (by omega) e
    · exact key 62 (by decide) (by omega) e
    · exact key 94 (by decide) (by omega) e
  · rintro (e | e | e)
    · exact key 43 (by decide) (by omega) e
    · exact key 45 (by decide) (by omega) e
    · exact key 32 (by decide) (by omega) e

theorem type_ok (t : Option Chr) (a : Args) (h0 : a.type = 0#8) : parseType t.toList a = .ok { a with type := t.getD 0#8 } := by
  cases t with
  | none => cases a; cases h0; rfl
  | some c => unfold parseType; rfl

def precVal (p : Option (List Chr)) : Int := match p with | none => -1 | some p => (value 0 p : Nat)

def precText (p : Option (List Chr)) : List Chr := match p with | none => [] | some p => 46#8 :: p

theorem precision_ok (p : Option (List Chr)) (r : List Chr) (a : Args) (h0 : a.precision = -1)
    (hp : ∀ q, p = some q → q ≠ [] ∧ (∀ c ∈ q, IsDigit c) ∧ value 0 q < 2 ^ 31) (hr : NoDigit r) (hr2 : r.head? ≠ some 46#8) :
    parsePrecision (precText p ++ r) a =
      .ok ({ a with precision := precVal p }, r) := by
  cases p with
  | none =>
    have e : ({ a with precision := (-1 : Int) } : Args) = a := by cases a; cases h0; rfl
    change _ = Except.ok ({ a with precision := (-1 : Int) }, r)
    rw [e]
    cases r with
    | nil => rfl
    | cons c t =>
      change parsePrecision (c :: t) a = _
      unfold parsePrecision
      dsimp only
      rw [if_neg (fun e => hr2 (by rw [e]; rfl))]
      rfl
  | some q =>
    obtain ⟨h1, h2, h3⟩ := hp q rfl
    cases q with
    | nil => exact absurd rfl h1
    | cons d q =>
      have := parseUInt_ok (d :: q) r h1 h2 hr h3
      change parsePrecision (46#8 :: ((d :: q) ++ r)) a = _
      unfold parsePrecision
      dsimp only
      rw [if_pos rfl, this]
      change (ccAssert (isDigit d) >>= fun _ => _) = _
      rw [(isDigit_iff d).mpr (h2 d List.mem_cons_self)]
      rfl

theorem width_ok (w r : List Chr) (a : Args) (h0 : a.width = -1) (hw : (∀ c ∈ w, IsDigit c) ∧ value 0 w < 2 ^ 31) (hr : NoDigit r) :
    parseWidth (w ++ r) a = .ok ({ a with width := if w = [] then -1 else (value 0 w : Nat) }, r) := by
  cases w with
  | nil =>
    have e : ({ a with width := (-1 : Int) } : Args) = a := by cases a; cases h0; rfl
    rw [if_pos rfl, e, List.nil_append]
    cases r with
    | nil => rfl
    | cons c t =>
      unfold parseWidth
      dsimp only
      rw [if_neg (fun e => hr c rfl ((isDigit_iff c).mp e))]
      rfl
  | cons d w =>
    have := parseUInt_ok (d :: w) r (by simp) hw.1 hr hw.2
    rw [if_neg (by simp)]
    change parseWidth (d :: (w ++ r)) a = _
    unfold parseWidth
    dsimp only
    rw [if_pos ((isDigit_iff d).mpr (hw.1 d List.mem_cons_self))]
    change (parseUInt ((d :: w) ++ r) >>= _) = _
    rw [this]
    rfl

theorem zero_ok (z : Bool) (r : List Chr) (a : Args) (h0 : a.zero = false) (h1 : r.head? ≠ some 48#8)
    (hz : z = true → ∃ c, r.head? = some c ∧ IsDigit c) :
    parseZero ((if z then [48#8] else []) ++ r) a = .ok ({ a with zero := z }, r) := by
  cases z with
  | false =>
    have e : ({ a with zero := false } : Args) = a := by cases a; cases h0; rfl
    rw [e]
    change parseZero r a = _
    cases r with
    | nil => rfl
    | cons c t =>
      unfold parseZero
      dsimp only
      rw [if_neg (fun e => h1 (by rw [e]; rfl))]
      rfl
  | true =>
    obtain ⟨c, hc, hd⟩ := hz rfl
    cases r with
    | nil => cases hc
    | cons d t =>
      have : d = c := Option.some.inj hc
      subst this
      change parseZero (48#8 :: d :: t) a = _
      unfold parseZero
      dsimp only
      rw [if_pos rfl, (isDigit_iff d).mpr hd, decide_eq_true (show d ≠ 48#8 from fun e => h1 (by rw [e]; rfl))]
      rfl

theorem alt_ok (z : Bool) (r : List Chr) (a : Args) (h0 : a.alt = false) (h1 : r.head? ≠ some 35#8) :
    parseAlt ((if z then [35#8] else []) ++ r) a = ({ a with alt := z }, r) := by
  cases z with
  | false =>
    have e : ({ a with alt := false } : Args) = a := by cases a; cases h0; rfl
    rw [e]
    change parseAlt r a = _
    cases r with
    | nil => rfl
    | cons c t =>
      unfold parseAlt
      dsimp only
      rw [if_neg (fun e => h1 (by rw [e]; rfl))]
  | true => rfl

theorem sign_ok (s : Option Chr) (r : List Chr) (a : Args) (h0 : a.sign = 45#8) (hs : ∀ c, s = some c → IsSign c)
    (h1 : ∀ c, r.head? = some c → ¬ IsSign c) :
    parseSign (s.toList ++ r) a = ({ a with sign := s.getD 45#8 }, r) := by
  cases s with
  | none =>
    have e : ({ a with sign := 45#8 } : Args) = a := by cases a; cases h0; rfl
    change parseSign r a = ({ a with sign := 45#8 }, r)
    rw [e]
    cases r with
    | nil => rfl
    | cons c t =>
      unfold parseSign
      dsimp only
      rw [if_neg (fun e => h1 c rfl ((isSign_iff c).mp e))]
  | some c =>
    change parseSign (c :: r) a = _
    unfold parseSign
    dsimp only
    rw [if_pos ((isSign_iff c).mpr (hs c rfl))]
    rfl

theorem align_ok (f : Fields) (r : List Chr) (h : ∀ fl a, f.align = some (fl, a) → IsAlign a ∧ ∀ c, fl = some c → ¬ IsAlign c)
    (h1 : f.align = none → ∀ c ∈ r.take 2, ¬ IsAlign c) :
    parseAlign (renderAlign f.align ++ r) {} = ({ fill := f.fillChr, align := f.alignChr }, r) := by
  unfold Fields.fillChr Fields.alignChr
  cases he : f.align with
  | none =>
    have h1 := h1 he
    change parseAlign r {} = ({}, r)
    cases r with
    | nil => rfl
    | cons c t =>
      unfold parseAlign
      dsimp only
      rw [if_neg (fun e => h1 c (by simp) ((isAlign_iff c).mp e))]
      cases t with
      | nil => rfl
      | cons d t =>
        dsimp only
        rw [if_neg (fun e => h1 d (by simp) ((isAlign_iff d).mp e))]
  | some p =>
    obtain ⟨fl, a⟩ := p
    obtain ⟨g1, g2⟩ := h fl a he
    cases fl with
    | none =>
      change parseAlign (a :: r) {} = _
      unfold parseAlign
      dsimp only
      rw [if_pos ((isAlign_iff a).mpr g1)]
    | some c =>
      change parseAlign (c :: a :: r) {} = _
      unfold parseAlign
      dsimp only
      rw [if_neg (fun e => g2 c rfl ((isAlign_iff c).mp e)), if_pos ((isAlign_iff a).mpr g1)]

/-- Every specification of the grammar whose type is a letter is accepted, with its parts. -/
theorem parseArgs_ok (f : Fields) (hw : f.Wf) (ht : ∀ c, f.type = some c → IsLetter c) : parseArgs f.render = .ok (meaning f) := by
  -- what the tails may begin with
  have t6 : ∀ c ∈ f.type.toList, IsLetter c := by
    intro c hc
    cases he : f.type with
    | none => rw [he] at hc; cases hc
    | some d =>
      rw [he] at hc
      rw [List.mem_singleton.mp hc]
      exact ht d he
  have h6 : ∀ c, f.type.toList.head? = some c → IsLetter c := by
    intro c hc
    exact t6 c (List.mem_of_mem_head? hc)
  -- `.`, or a letter
  have t5 : ∀ c ∈ precText f.precision ++ f.type.toList, c = 46#8 ∨ IsDigit c ∨ IsLetter c := by
    intro c hc
    rcases List.mem_append.mp hc with g | g
    · cases he : f.precision with
      | none => rw [he] at g; cases g
      | some p =>
        rw [he] at g
        rcases List.mem_cons.mp g with g | g
        · exact Or.inl g
        · exact Or.inr (Or.inl ((hw.precision p he).2.1 c g))
    · exact Or.inr (Or.inr (t6 c g))
  have h5 : ∀ c, (precText f.precision ++ f.type.toList).head? = some c → c = 46#8 ∨ IsLetter c := by
    intro c hc
    cases he : f.precision with
    | none =>
      rw [he] at hc
      exact Or.inr (h6 c hc)
    | some p =>
      rw [he] at hc
      exact Or.inl (Option.some.inj hc).symm
  have t4 : ∀ c ∈ f.width ++ (precText f.precision ++ f.type.toList), c = 46#8 ∨ IsDigit c ∨ IsLetter c := by
    intro c hc
    rcases List.mem_append.mp hc with g | g
    · exact Or.inr (Or.inl (hw.width.1 c g))
    · exact t5 c g
  have h4 : (f.width ++ (precText f.precision ++ f.type.toList)).head? ≠ some 48#8 := by
    intro hc
    cases he : f.width with
    | nil =>
      rw [he] at hc
      rcases h5 _ hc with g | g
      · cases g
      · exact (letter_not g).2.2.2.2.2 rfl
    | cons d w =>
      rw [he] at hc
      exact hw.width.2.1 (by rw [he]; exact hc)
  have t3 : ∀ c ∈ (if f.zero then [48#8] else []) ++ (f.width ++ (precText f.precision ++ f.type.toList)), c = 46#8 ∨ IsDigit c ∨ IsLetter c := by
    intro c hc
    rcases List.mem_append.mp hc with g | g
    · cases he : f.zero with
      | false => rw [he] at g; cases g
      | true =>
        rw [he] at g
        rw [List.mem_singleton.mp g]
        exact Or.inr (Or.inl (by unfold IsDigit; decide))
    · exact t4 c g
  have k35 : ∀ c, (c = 46#8 ∨ IsDigit c ∨ IsLetter c) → ¬ IsAlign c ∧ ¬ IsSign c ∧ c ≠ 35#8 := by
    rintro c (rfl | g | g)
    · unfold IsAlign IsSign; decide
    · exact ⟨(digit_not g).1, (digit_not g).2.1, (digit_not g).2.2.1⟩
    · exact ⟨(letter_not g).2.1, (letter_not g).2.2.1, (letter_not g).2.2.2.1⟩
  have t2 : ∀ c ∈ (if f.alt then [35#8] else []) ++ ((if f.zero then [48#8] else []) ++ (f.width ++ (precText f.precision ++ f.type.toList))),
      ¬ IsAlign c ∧ ¬ IsSign c := by
    intro c hc
    rcases List.mem_append.mp hc with g | g
    · cases he : f.alt with
      | false => rw [he] at g; cases g
      | true =>
        rw [he] at g
        rw [List.mem_singleton.mp g]
        unfold IsAlign IsSign; decide
    · exact ⟨(k35 c (t3 c g)).1, (k35 c (t3 c g)).2.1⟩
  have t1 : ∀ c ∈ f.sign.toList ++ ((if f.alt then [35#8] else []) ++ ((if f.zero then [48#8] else []) ++ (f.width ++ (precText f.precision ++ f.type.toList)))),
      ¬ IsAlign c := by
    intro c hc
    rcases List.mem_append.mp hc with g | g
    · cases he : f.sign with
      | none => rw [he] at g; cases g
      | some d =>
        rw [he] at g
        rw [List.mem_singleton.mp g]
        rcases hw.sign d he with rfl | rfl | rfl <;> (unfold IsAlign; decide)
    · exact (t2 c g).1
  have hr : f.render = renderAlign f.align ++ (f.sign.toList ++ ((if f.alt then [35#8] else []) ++ ((if f.zero then [48#8] else []) ++ (f.width ++
      (precText f.precision ++ f.type.toList))))) := rfl
  rw [hr]
  unfold parseArgs
  dsimp only
  rw [align_ok f _ hw.align (fun _ c hc => t1 c (List.mem_of_mem_take hc))]
  dsimp only
  rw [sign_ok f.sign _ _ rfl hw.sign (fun c hc => (t2 c (List.mem_of_mem_head? hc)).2)]
  dsimp only
  rw [alt_ok f.alt _ _ rfl (fun hc => (k35 _ (t3 _ (List.mem_of_mem_head? hc))).2.2 rfl)]
  dsimp only
  rw [zero_ok f.zero _ _ rfl h4 (fun hz => by
    cases he : f.width with
    | nil => exact absurd he (hw.zero hz)
    | cons d w => exact ⟨d, rfl, hw.width.1 d (by rw [he]; exact List.mem_cons_self)⟩)]
  rw [R.ok_bind]
  dsimp only
  rw [width_ok f.width _ _ rfl ⟨hw.width.1, hw.width.2.2⟩ (fun c hc => by
    rcases h5 c hc with rfl | g
    · unfold IsDigit; decide
    · exact (letter_not g).1)]
  rw [R.ok_bind]
  dsimp only
  rw [precision_ok f.precision _ _ rfl hw.precision (fun c hc => (letter_not (h6 c hc)).1) (fun hc => (letter_not (h6 _ hc)).2.2.2.2.1 rfl)]
  rw [R.ok_bind]
  dsimp only
  rw [type_ok f.type _ rfl]
  rfl

/-! ### Only the grammar is accepted -/

theorem type_inv {l : List Chr} {a b : Args} (h0 : a.type = 0#8) (h : parseType l a = .ok b) :
    ∃ t : Option Chr, l = t.toList ∧ b = { a with type := t.getD 0#8 } := by
  cases l with
  | nil =>
    refine ⟨none, rfl, ?_⟩
    have := Except.ok.inj h
    rw [← this]
    cases a; cases h0; rfl
  | cons c t =>
    unfold parseType at h
    dsimp only at h
    by_cases e : t = []
    · rw [decide_eq_true e] at h
      refine ⟨some c, by rw [e]; rfl, ?_⟩
      exact (Except.ok.inj h).symm
    · rw [decide_eq_false e] at h; cases h

theorem assert_inv {b : Bool} {α : Type} {k : Unit → R α} {x : α} (h : (ccAssert b >>= k) = .ok x) : b = true ∧ k () = .ok x := by
  cases b
  · cases h
  · exact ⟨rfl, h⟩

theorem precision_inv {l r : List Chr} {a b : Args} (h0 : a.precision = -1) (h : parsePrecision l a = .ok (b, r)) :
    ∃ p : Option (List Chr), l = precText p ++ r ∧ b = { a with precision := precVal p } ∧
      (∀ q, p = some q → q ≠ [] ∧ (∀ c ∈ q, IsDigit c) ∧ value 0 q < 2 ^ 31) := by
  have triv : parsePrecision l a = .ok (a, l) → ∃ p : Option (List Chr), l = precText p ++ r ∧ b = { a with precision := precVal p } ∧
      (∀ q, p = some q → q ≠ [] ∧ (∀ c ∈ q, IsDigit c) ∧ value 0 q < 2 ^ 31) := by
    intro g
    rw [g] at h
    obtain ⟨rfl, rfl⟩ := Prod.mk.inj (Except.ok.inj h)
    refine ⟨none, rfl, ?_, fun q hq => nomatch hq⟩
    cases a; cases h0; rfl
  cases l with
  | nil => exact triv rfl
  | cons c t =>
    by_cases e : c = 46#8
    · subst e
      unfold parsePrecision at h
      dsimp only at h
      rw [if_pos rfl] at h
      cases t with
      | nil => cases h
      | cons d t =>
        obtain ⟨h1, h2⟩ := assert_inv h
        obtain ⟨⟨n, r'⟩, h3, h4⟩ := R.bind_eq_ok.mp h2
        obtain ⟨rfl, rfl⟩ := Prod.mk.inj (Except.ok.inj h4)
        obtain ⟨ds, e1, e2, e3, e4, e5⟩ := parseUInt_inv d t n _ ((isDigit_iff d).mp h1) h3
        refine ⟨some (d :: ds), by rw [e1]; rfl, by rw [e4]; rfl, ?_⟩
        intro q hq
        have : d :: ds = q := Option.some.inj hq
        subst this
        exact ⟨by simp, e2, e5⟩
    · refine triv ?_
      unfold parsePrecision
      dsimp only
      rw [if_neg e]
      rfl

theorem width_inv {l r : List Chr} {a b : Args} (h0 : a.width = -1) (h : parseWidth l a = .ok (b, r)) :
    ∃ w : List Chr, l = w ++ r ∧ b = { a with width := if w = [] then -1 else (value 0 w : Nat) } ∧
      (∀ c ∈ w, IsDigit c) ∧ value 0 w < 2 ^ 31 ∧ NoDigit r := by
  have triv : parseWidth l a = .ok (a, l) → NoDigit l → ∃ w : List Chr, l = w ++ r ∧ b = { a with width := if w = [] then -1 else (value 0 w : Nat) } ∧
      (∀ c ∈ w, IsDigit c) ∧ value 0 w < 2 ^ 31 ∧ NoDigit r := by
    intro g hn
    rw [g] at h
    obtain ⟨rfl, rfl⟩ := Prod.mk.inj (Except.ok.inj h)
    refine ⟨[], rfl, ?_, by simp, by rw [value_nil]; decide, hn⟩
    rw [if_pos rfl]
    cases a; cases h0; rfl
  cases l with
  | nil => exact triv rfl (fun c hc => by cases hc)
  | cons c t =>
    by_cases e : isDigit c = true
    · unfold parseWidth at h
      dsimp only at h
      rw [if_pos e] at h
      obtain ⟨⟨n, r'⟩, h3, h4⟩ := R.bind_eq_ok.mp h
      obtain ⟨rfl, rfl⟩ := Prod.mk.inj (Except.ok.inj h4)
      obtain ⟨ds, e1, e2, e3, e4, e5⟩ := parseUInt_inv c t n _ ((isDigit_iff c).mp e) h3
      exact ⟨c :: ds, e1, by rw [e4, if_neg (by simp)], e2, e5, e3⟩
    · refine triv ?_ ?_
      · unfold parseWidth
        dsimp only
        rw [if_neg e]
        rfl
      · intro d hd
        have : d = c := (Option.some.inj hd).symm
        rw [this]
        exact fun g => e ((isDigit_iff c).mpr g)

theorem zero_inv {l r : List Chr} {a b : Args} (h0 : a.zero = false) (h : parseZero l a = .ok (b, r)) :
    ∃ z : Bool, l = (if z then [48#8] else []) ++ r ∧ b = { a with zero := z } ∧ r.head? ≠ some 48#8 ∧
      (z = true → ∃ c, r.head? = some c ∧ IsDigit c) := by
  have triv : parseZero l a = .ok (a, l) → l.head? ≠ some 48#8 → ∃ z : Bool, l = (if z then [48#8] else []) ++ r ∧ b = { a with zero := z } ∧
      r.head? ≠ some 48#8 ∧ (z = true → ∃ c, r.head? = some c ∧ IsDigit c) := by
    intro g hn
    rw [g] at h
    obtain ⟨rfl, rfl⟩ := Prod.mk.inj (Except.ok.inj h)
    refine ⟨false, rfl, ?_, hn, fun q => nomatch q⟩
    cases a; cases h0; rfl
  cases l with
  | nil => exact triv rfl (by simp)
  | cons c t =>
    by_cases e : c = 48#8
    · subst e
      unfold parseZero at h
      dsimp only at h
      rw [if_pos rfl] at h
      cases t with
      | nil => cases h
      | cons d t =>
        obtain ⟨h1, h2⟩ := assert_inv h
        obtain ⟨h3, h4⟩ := assert_inv h2
        obtain ⟨rfl, rfl⟩ := Prod.mk.inj (Except.ok.inj h4)
        exact ⟨true, rfl, rfl, fun g => of_decide_eq_true h3 (Option.some.inj g), fun _ => ⟨d, rfl, (isDigit_iff d).mp h1⟩⟩
    · refine triv ?_ (fun g => e (Option.some.inj g))
      unfold parseZero
      dsimp only
      rw [if_neg e]
      rfl

theorem alt_inv (l : List Chr) (a : Args) (h0 : a.alt = false) :
    ∃ z : Bool, l = (if z then [35#8] else []) ++ (parseAlt l a).2 ∧ (parseAlt l a).1 = { a with alt := z } := by
  have e0 : a = { a with alt := false } := by cases a; cases h0; rfl
  cases l with
  | nil => exact ⟨false, rfl, e0⟩
  | cons c t =>
    unfold parseAlt
    dsimp only
    by_cases e : c = 35#8
    · rw [if_pos e, e]
      exact ⟨true, rfl, rfl⟩
    · rw [if_neg e]
      exact ⟨false, rfl, e0⟩

theorem sign_inv (l : List Chr) (a : Args) (h0 : a.sign = 45#8) :
    ∃ s : Option Chr, l = s.toList ++ (parseSign l a).2 ∧ (parseSign l a).1 = { a with sign := s.getD 45#8 } ∧ ∀ c, s = some c → IsSign c := by
  have e0 : a = { a with sign := 45#8 } := by cases a; cases h0; rfl
  cases l with
  | nil => exact ⟨none, rfl, e0, fun c hc => nomatch hc⟩
  | cons c t =>
    unfold parseSign
    dsimp only
    by_cases e : isSign c = true
    · rw [if_pos e]
      refine ⟨some c, rfl, rfl, ?_⟩
      intro d hd
      rw [← Option.some.inj hd]
      exact (isSign_iff c).mp e
    · rw [if_neg e]
      exact ⟨none, rfl, e0, fun c hc => nomatch hc⟩

theorem align_inv (l : List Chr) :
    ∃ al : Option (Option Chr × Chr), l = renderAlign al ++ (parseAlign l {}).2 ∧
      (parseAlign l {}).1 = { fill := (Fields.mk al none false false [] none none).fillChr, align := (Fields.mk al none false false [] none none).alignChr } ∧
      ∀ fl a, al = some (fl, a) → IsAlign a ∧ ∀ c, fl = some c → ¬ IsAlign c := by
  cases l with
  | nil => exact ⟨none, rfl, rfl, fun _ _ h => nomatch h⟩
  | cons c t =>
    unfold parseAlign
    dsimp only
    by_cases e : isAlign c = true
    · rw [if_pos e]
      refine ⟨some (none, c), rfl, rfl, ?_⟩
      intro fl a h
      obtain ⟨rfl, rfl⟩ := Prod.mk.inj (Option.some.inj h)
      exact ⟨(isAlign_iff _).mp e, fun _ h => nomatch h⟩
    · rw [if_neg e]
      cases t with
      | nil => exact ⟨none, rfl, rfl, fun _ _ h => nomatch h⟩
      | cons d t =>
        dsimp only
        by_cases e' : isAlign d = true
        · rw [if_pos e']
          refine ⟨some (some c, d), rfl, rfl, ?_⟩
          intro fl a h
          obtain ⟨rfl, rfl⟩ := Prod.mk.inj (Option.some.inj h)
          refine ⟨(isAlign_iff _).mp e', fun x hx => ?_⟩
          rw [← Option.some.inj hx]
          exact fun g => e ((isAlign_iff c).mpr g)
        · rw [if_neg e']
          exact ⟨none, rfl, rfl, fun _ _ h => nomatch h⟩

/-- Only specifications of the grammar are accepted, with their parts. -/
theorem parseArgs_inv {l : List Chr} {a : Args} (h : parseArgs l = .ok a) : ∃ f : Fields, f.Wf ∧ f.render = l ∧ meaning f = a := by
  obtain ⟨al, a1, a2, a3⟩ := align_inv l
  obtain ⟨s, s1, s2, s3⟩ := sign_inv (parseAlign l {}).2 (parseAlign l {}).1 (by rw [a2])
  obtain ⟨z, z1, z2⟩ := alt_inv (parseSign (parseAlign l {}).2 (parseAlign l {}).1).2 (parseSign (parseAlign l {}).2 (parseAlign l {}).1).1 (by rw [s2, a2])
  unfold parseArgs at h
  dsimp only at h
  obtain ⟨⟨b1, r1⟩, g1, h⟩ := R.bind_eq_ok.mp h
  obtain ⟨zz, y1, y2, y3, y4⟩ := zero_inv (by rw [z2, s2, a2]) g1
  obtain ⟨⟨b2, r2⟩, g2, h⟩ := R.bind_eq_ok.mp h
  obtain ⟨w, w1, w2, w3, w4, w5⟩ := width_inv (by rw [y2, z2, s2, a2]) g2
  obtain ⟨⟨b3, r3⟩, g3, h⟩ := R.bind_eq_ok.mp h
  obtain ⟨p, p1, p2, p3⟩ := precision_inv (by rw [w2, y2, z2, s2, a2]) g3
  obtain ⟨t, t1, t2⟩ := type_inv (by rw [p2, w2, y2, z2, s2, a2]) h
  dsimp only at w1 p1 t1 w2 p2 t2
  refine ⟨⟨al, s, z, zz, w, p, t⟩, ⟨a3, s3, ⟨w3, ?_, w4⟩, ?_, p3⟩, ?_, ?_⟩
  · intro g
    change w.head? = some 48#8 at g
    cases w with
    | nil => cases g
    | cons d w => rw [w1] at y3; exact y3 g
  · intro g e
    change w = [] at e
    obtain ⟨c, c1, c2⟩ := y4 g
    rw [e] at w1
    rw [w1] at c1
    exact w5 c c1 c2
  · rw [a1, s1, z1, y1, w1, p1, t1]
    rfl
  · rw [t2, p2, w2, y2, z2, s2, a2]
    rfl

end Verif.Fmt
