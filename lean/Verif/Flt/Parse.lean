import Verif.Flt.Round
import Verif.Num.Lemmas

/-! The texts read. -/
namespace Verif.Flt
open Verif.StrView (Chr)
open Verif.Num (isDigit skipSpace readDigits isDigit_iff isSpaceC isSpaceC_iff value_cons value_append)
open Verif.Num.Spec (IsDigit IsSpace value)
open Spec

/-! ### characters -/

theorem lower_toNat (c : Chr) : (lower c).toNat = if 65 ≤ c.toNat ∧ c.toNat ≤ 90 then c.toNat + 32 else c.toNat := by
  unfold lower
  by_cases h : 65 ≤ c.toNat ∧ c.toNat ≤ 90
  · rw [if_pos h, if_pos h, BitVec.toNat_add]
    have : (32#8 : Chr).toNat = 32 := rfl
    omega
  · rw [if_neg h, if_neg h]

/-- A small letter. -/
def Small (d : Chr) : Prop := 97 ≤ d.toNat ∧ d.toNat ≤ 122

theorem lower_small {c d : Chr} (hd : Small d) : lower c = d ↔ c = d ∨ c.toNat + 32 = d.toNat := by
  unfold Small at hd
  constructor
  · intro e
    have := lower_toNat c
    rw [e] at this
    by_cases h : 65 ≤ c.toNat ∧ c.toNat ≤ 90
    · rw [if_pos h] at this; exact .inr this.symm
    · rw [if_neg h] at this; exact .inl (BitVec.eq_of_toNat_eq this.symm)
  · intro e
    apply BitVec.eq_of_toNat_eq
    rw [lower_toNat]
    rcases e with rfl | e
    · rw [if_neg (by omega)]
    · rw [if_pos (by omega)]; exact e

theorem lower_letter {c small capital : Chr} (hs : Small small) (hc : capital.toNat + 32 = small.toNat) : lower c = small ↔ c = small ∨ c = capital := by
  rw [lower_small hs]
  constructor
  · rintro (h | h)
    · exact .inl h
    · exact .inr (BitVec.eq_of_toNat_eq (by omega))
  · rintro (h | h)
    · exact .inl h
    · rw [h]; exact .inr hc

theorem lower_zero {c : Chr} : lower c = 48#8 ↔ c = 48#8 := by
  constructor
  · intro e
    have := lower_toNat c
    rw [e] at this
    have h48 : (48#8 : Chr).toNat = 48 := rfl
    by_cases h : 65 ≤ c.toNat ∧ c.toNat ≤ 90
    · rw [if_pos h] at this; omega
    · rw [if_neg h] at this; exact BitVec.eq_of_toNat_eq this.symm
  · rintro rfl; rfl

theorem sameWord_iff {l w : List Chr} (hw : ∀ d ∈ w, Small d) : l.map lower = w ↔ SameWord l w := by
  unfold SameWord
  induction l generalizing w with
  | nil =>
    cases w with
    | nil => simp
    | cons d t => simp
  | cons c t ih =>
    cases w with
    | nil => simp
    | cons d u =>
      rw [List.map_cons, List.cons.injEq, ih (fun x hx => hw x (List.mem_cons_of_mem _ hx)), lower_small (hw d List.mem_cons_self), List.length_cons, List.length_cons]
      constructor
      · rintro ⟨h1, h2, h3⟩
        refine ⟨by omega, fun k a b ha hb => ?_⟩
        cases k with
        | zero => cases Option.some.inj ha; cases Option.some.inj hb; exact h1
        | succ k => exact h3 k a b ha hb
      · rintro ⟨h1, h2⟩
        exact ⟨h2 0 c d rfl rfl, by omega, fun k a b ha hb => h2 (k + 1) a b ha hb⟩

theorem hexDigit_eq (c : Chr) : hexDigit c = hexVal c := by
  unfold hexDigit hexVal
  rw [lower_toNat]
  by_cases h : 48 ≤ c.toNat ∧ c.toNat ≤ 57
  · rw [if_pos ((isDigit_iff c).2 h), if_pos h]
  · rw [if_neg (fun e => h ((isDigit_iff c).1 e)), if_neg h]
    by_cases h2 : 65 ≤ c.toNat ∧ c.toNat ≤ 90
    · rw [if_pos h2]
      by_cases h3 : c.toNat ≤ 70
      · rw [if_pos ⟨by omega, by omega⟩, if_pos ⟨h2.1, h3⟩]
        exact congrArg some (by omega)
      · rw [if_neg (by omega), if_neg (by omega), if_neg (by omega)]
    · rw [if_neg h2, if_neg (show ¬ (65 ≤ c.toNat ∧ c.toNat ≤ 70) by omega)]

theorem isNChar_iff (c : Chr) : isNChar c = true ↔ IsWordChr c := by
  unfold isNChar IsWordChr
  rw [Bool.or_eq_true, Bool.or_eq_true, Bool.and_eq_true, beq_iff_eq, decide_eq_true_iff, decide_eq_true_iff, isDigit_iff, lower_toNat]
  by_cases h : 65 ≤ c.toNat ∧ c.toNat ≤ 90
  · rw [if_pos h]
    exact ⟨fun _ => .inr (.inl h), fun _ => .inr (by omega)⟩
  · rw [if_neg h]
    constructor
    · rintro ((h1 | h1) | h1)
      · exact .inl h1
      · exact .inr (.inr (.inr h1))
      · exact .inr (.inr (.inl h1))
    · rintro (h1 | h1 | h1 | h1)
      · exact .inl (.inl h1)
      · exact absurd h1 h
      · exact .inr h1
      · exact .inl (.inr h1)

/-! ### digits -/

/-- The text does not go on with such a character. -/
def Stop (D : Chr → Bool) (s : List Chr) : Prop := ∀ c, s.head? = some c → D c = false

theorem split_on (D : Chr → Bool) (s : List Chr) : ∃ ds s', s = ds ++ s' ∧ (∀ c ∈ ds, D c = true) ∧ Stop D s' := by
  induction s with
  | nil => exact ⟨[], [], rfl, (fun _ h => nomatch h), (fun _ h => nomatch h)⟩
  | cons c t ih =>
    cases e : D c with
    | false => exact ⟨[], c :: t, rfl, (fun _ h => nomatch h), (fun d hd => by cases Option.some.inj hd; exact e)⟩
    | true =>
      obtain ⟨ds, s', h1, h2, h3⟩ := ih
      refine ⟨c :: ds, s', by rw [h1]; rfl, fun d hd => ?_, h3⟩
      rcases List.mem_cons.1 hd with rfl | hd
      · exact e
      · exact h2 d hd

/-- A function that reads digits. -/
structure Reads (D : Chr → Bool) (val : Nat → List Chr → Nat) (read : List Chr → Nat → R (Nat × List Chr)) : Prop where
  nul : D 0#8 = false
  dot : D 46#8 = false
  app : ∀ acc a b, val acc (a ++ b) = val (val acc a) b
  nil : ∀ acc, val acc [] = acc
  step : ∀ c t acc, D c = true → read (c :: t) acc = read t (val acc [c])
  stop : ∀ c t acc, D c = false → read (c :: t) acc = .ok (acc, c :: t)

theorem reads_dec : Reads isDigit value readDigits where
  nul := rfl
  dot := rfl
  app := value_append
  nil := fun _ => rfl
  step := fun c t acc h => by rw [readDigits, h]; rfl
  stop := fun c t acc h => by rw [readDigits, h]; rfl

theorem reads_hex : Reads (fun c => (hexVal c).isSome) hexValue readHex where
  nul := rfl
  dot := rfl
  app := fun acc a b => by unfold hexValue; rw [List.foldl_append]
  nil := fun _ => rfl
  step := fun c t acc h => by
    obtain ⟨d, e⟩ := Option.isSome_iff_exists.1 h
    rw [readHex, hexDigit_eq, e]
    show _ = readHex t (16 * acc + (hexVal c).getD 0)
    rw [e]; rfl
  stop := fun c t acc h => by rw [readHex, hexDigit_eq, Option.isSome_eq_false_iff.1 h |> Option.isNone_iff_eq_none.1]; rfl

variable {D : Chr → Bool} {val : Nat → List Chr → Nat} {read : List Chr → Nat → R (Nat × List Chr)}

theorem Reads.run (h : Reads D val read) (ds s' rest : List Chr) (acc : Nat) (hd : ∀ c ∈ ds, D c = true) (hs : Stop D s') :
    read (ds ++ (s' ++ 0#8 :: rest)) acc = .ok (val acc ds, s' ++ 0#8 :: rest) := by
  induction ds generalizing acc with
  | nil =>
    rw [List.nil_append, h.nil]
    cases s' with
    | nil => exact h.stop _ _ _ h.nul
    | cons c t => exact h.stop _ _ _ (hs c rfl)
  | cons c ds ih =>
    rw [List.cons_append, h.step _ _ _ (hd c List.mem_cons_self), ih _ (fun x hx => hd x (List.mem_cons_of_mem _ hx)), ← h.app]
    rfl

theorem rd_head (s rest : List Chr) : Str.rd (s ++ 0#8 :: rest) 0 = .ok (s.head?.getD 0#8) := by cases s <;> rfl

theorem head_ne {s : List Chr} {c : Chr} (h : s.head? ≠ some c) (hc : c ≠ 0#8) : s.head?.getD 0#8 ≠ c := by
  cases s with
  | nil => exact hc.symm
  | cons a t => exact fun e => h (by rw [← e]; rfl)

theorem mant_app (h : Reads D val read) {mt ip fp s' rest : List Chr} (hm : IsMant mt ip fp) (hd : ∀ c ∈ ip ++ fp, D c = true) (h0 : ip ++ fp ≠ []) (hs : Stop D s')
    (hp : mt = ip → s'.head? ≠ some 46#8) : readMant read (mt ++ (s' ++ 0#8 :: rest)) = .ok (some (val 0 (ip ++ fp), fp.length, s' ++ 0#8 :: rest)) := by
  have hi : ∀ c ∈ ip, D c = true := fun c hc => hd c (List.mem_append_left _ hc)
  have hf : ∀ c ∈ fp, D c = true := fun c hc => hd c (List.mem_append_right _ hc)
  have hlen : ip.length + fp.length ≠ 0 := by
    rw [← List.length_append]; exact fun e => h0 (List.length_eq_zero_iff.1 e)
  unfold readMant
  rcases hm with rfl | ⟨rfl, rfl⟩
  · have e : (ip ++ 46#8 :: fp) ++ (s' ++ 0#8 :: rest) = ip ++ ((46#8 :: (fp ++ s')) ++ 0#8 :: rest) := by simp
    rw [e, h.run ip (46#8 :: (fp ++ s')) rest 0 hi (fun c hc => by cases Option.some.inj hc; exact h.dot), R.ok_bind]
    dsimp only
    rw [rd_head, R.ok_bind, List.head?_cons, Option.getD_some, if_pos rfl]
    have e2 : ((46#8 :: (fp ++ s')) ++ 0#8 :: rest).drop 1 = fp ++ (s' ++ 0#8 :: rest) := by simp
    rw [e2, h.run fp s' rest _ hf hs, R.ok_bind]
    dsimp only
    have l1 : (fp ++ (s' ++ 0#8 :: rest)).length - (s' ++ 0#8 :: rest).length = fp.length := by rw [List.length_append]; omega
    have l2 : (ip ++ ((46#8 :: (fp ++ s')) ++ 0#8 :: rest)).length - ((46#8 :: (fp ++ s')) ++ 0#8 :: rest).length = ip.length := by rw [List.length_append]; omega
    rw [l1, l2, if_neg hlen, h.app]
    rfl
  · rw [List.append_nil] at *
    rw [h.run mt s' rest 0 hi hs, R.ok_bind]
    dsimp only
    rw [rd_head, R.ok_bind, if_neg (head_ne (hp rfl) (by decide))]
    have l2 : (mt ++ (s' ++ 0#8 :: rest)).length - (s' ++ 0#8 :: rest).length = mt.length := by rw [List.length_append]; omega
    rw [l2, if_neg (by simpa using hlen)]
    rfl

theorem mant_split (h : Reads D val read) (s rest : List Chr) : readMant read (s ++ 0#8 :: rest) = .ok none ∨
    ∃ mt s' ip fp, s = mt ++ s' ∧ IsMant mt ip fp ∧ (∀ c ∈ ip ++ fp, D c = true) ∧ ip ++ fp ≠ [] ∧ readMant read (s ++ 0#8 :: rest) = .ok (some (val 0 (ip ++ fp), fp.length, s' ++ 0#8 :: rest)) := by
  obtain ⟨ip, s1, rfl, h1, h2⟩ := split_on D s
  by_cases hp : s1.head? = some 46#8
  · obtain ⟨t, rfl⟩ : ∃ t, s1 = 46#8 :: t := by
      cases s1 with
      | nil => cases hp
      | cons a t => cases Option.some.inj hp; exact ⟨t, rfl⟩
    obtain ⟨fp, s', rfl, h3, h4⟩ := split_on D t
    have hd : ∀ c ∈ ip ++ fp, D c = true := fun c hc => (List.mem_append.1 hc).elim (h1 c) (h3 c)
    by_cases h0 : ip ++ fp = []
    · left
      obtain ⟨rfl, rfl⟩ := List.append_eq_nil_iff.1 h0
      have hr := h.run [] s' rest 0 (fun _ h => nomatch h) h4
      rw [List.nil_append, h.nil] at hr
      unfold readMant
      simp only [List.nil_append, List.cons_append]
      rw [h.stop _ _ _ h.dot, R.ok_bind]
      dsimp only
      rw [Num.rd_cons, R.ok_bind, if_pos rfl]
      simp only [List.drop_succ_cons, List.drop_zero]
      rw [hr, R.ok_bind]
      dsimp only
      rw [if_pos (by omega)]
      rfl
    · refine .inr ⟨ip ++ 46#8 :: fp, s', ip, fp, by simp, .inl rfl, hd, h0, ?_⟩
      have := mant_app h (rest := rest) (.inl rfl) hd h0 h4 (fun e => absurd (congrArg List.length e) (by simp))
      rw [← this]; simp
  · by_cases h0 : ip = []
    · left
      subst h0
      have hr := h.run [] s1 rest 0 (fun _ h => nomatch h) h2
      rw [List.nil_append, h.nil] at hr
      unfold readMant
      rw [List.nil_append, hr, R.ok_bind]
      dsimp only
      rw [rd_head, R.ok_bind, if_neg (head_ne hp (by decide)), if_pos (by omega)]
      rfl
    · refine .inr ⟨ip, s1, ip, [], rfl, .inr ⟨rfl, rfl⟩, by simpa using h1, by simpa using h0, ?_⟩
      rw [List.append_assoc]
      exact mant_app h (rest := rest) (.inr ⟨rfl, rfl⟩) (by simpa using h1) (by simpa using h0) h2 (fun _ => hp)

/-! ### exponents -/

theorem exp_app {small capital c : Chr} {sg ds s' rest : List Chr} {neg : Bool} (hS : Small small) (hC : capital.toNat + 32 = small.toNat) (hc : c = small ∨ c = capital) (hsg : IsSign sg neg)
    (h0 : ds ≠ []) (hd : Digs ds) (hs : Stop isDigit s') :
    readExp small ((c :: (sg ++ ds)) ++ (s' ++ 0#8 :: rest)) = .ok (if neg then -(value 0 ds : Int) else value 0 ds, s' ++ 0#8 :: rest) := by
  have hrun := reads_dec.run ds s' rest 0 (fun c hc => (isDigit_iff c).2 (hd c hc)) hs
  obtain ⟨d, t, rfl⟩ : ∃ d t, ds = d :: t := by
    cases ds with
    | nil => exact absurd rfl h0
    | cons d t => exact ⟨d, t, rfl⟩
  have hdd : isDigit d = true := (isDigit_iff d).2 (hd d List.mem_cons_self)
  unfold readExp
  rw [List.cons_append, Num.rd_cons, R.ok_bind, if_pos ((lower_letter hS hC).2 hc)]
  rcases hsg with ⟨rfl, rfl⟩ | ⟨rfl, rfl⟩ | ⟨rfl, rfl⟩
  · have hr : Str.rd (c :: ([] ++ d :: t ++ (s' ++ 0#8 :: rest))) 1 = .ok d := rfl
    have n1 : d ≠ 45#8 := fun e => by rw [e] at hdd; exact absurd hdd (by decide)
    have n2 : d ≠ 43#8 := fun e => by rw [e] at hdd; exact absurd hdd (by decide)
    rw [hr, R.ok_bind]
    dsimp only
    rw [if_neg (not_or.2 ⟨n1, n2⟩)]
    have e1 : (c :: ([] ++ d :: t ++ (s' ++ 0#8 :: rest))).drop 1 = (d :: t) ++ (s' ++ 0#8 :: rest) := rfl
    rw [e1, hrun]
    rw [show Str.rd ((d :: t) ++ (s' ++ 0#8 :: rest)) 0 = .ok d from rfl, R.ok_bind, if_pos hdd, R.ok_bind]
    dsimp only
    rw [if_neg n1]
    rfl
  · have hr : Str.rd (c :: ([43#8] ++ d :: t ++ (s' ++ 0#8 :: rest))) 1 = .ok 43#8 := rfl
    rw [hr, R.ok_bind]
    dsimp only
    rw [if_pos (.inr rfl)]
    have e1 : (c :: ([43#8] ++ d :: t ++ (s' ++ 0#8 :: rest))).drop 2 = (d :: t) ++ (s' ++ 0#8 :: rest) := rfl
    rw [e1, hrun]
    rw [show Str.rd ((d :: t) ++ (s' ++ 0#8 :: rest)) 0 = .ok d from rfl, R.ok_bind, if_pos hdd, R.ok_bind]
    rfl
  · have hr : Str.rd (c :: ([45#8] ++ d :: t ++ (s' ++ 0#8 :: rest))) 1 = .ok 45#8 := rfl
    rw [hr, R.ok_bind]
    dsimp only
    rw [if_pos (.inl rfl)]
    have e1 : (c :: ([45#8] ++ d :: t ++ (s' ++ 0#8 :: rest))).drop 2 = (d :: t) ++ (s' ++ 0#8 :: rest) := rfl
    rw [e1, hrun]
    rw [show Str.rd ((d :: t) ++ (s' ++ 0#8 :: rest)) 0 = .ok d from rfl, R.ok_bind, if_pos hdd, R.ok_bind]
    rfl

theorem exp_all {small capital : Chr} {ex rest : List Chr} {x : Int} (hS : Small small) (hC : capital.toNat + 32 = small.toNat) (h : IsExp small capital ex x) :
    readExp small (ex ++ 0#8 :: rest) = .ok (x, 0#8 :: rest) := by
  rcases h with ⟨rfl, rfl⟩ | ⟨c, sg, ds, neg, rfl, hc, hsg, h0, hd, rfl⟩
  · unfold readExp
    rw [List.nil_append, Num.rd_cons, R.ok_bind, if_neg (fun e => by
      have : (0#8 : Chr).toNat = small.toNat := by rw [← e]; rfl
      unfold Small at hS
      have : (0#8 : Chr).toNat = 0 := rfl
      omega)]
    rfl
  · exact exp_app (s' := []) hS hC hc hsg h0 hd (fun _ h => nomatch h)

theorem exp_split {small capital : Chr} (hS : Small small) (hC : capital.toNat + 32 = small.toNat) (s rest : List Chr) :
    ∃ ex x s', s = ex ++ s' ∧ IsExp small capital ex x ∧ readExp small (s ++ 0#8 :: rest) = .ok (x, s' ++ 0#8 :: rest) := by
  have hz : lower 0#8 ≠ small := fun e => by
    have : (0#8 : Chr).toNat = small.toNat := by rw [← e]; rfl
    unfold Small at hS
    have : (0#8 : Chr).toNat = 0 := rfl
    omega
  have plain : readExp small (s ++ 0#8 :: rest) = .ok (0, s ++ 0#8 :: rest) → ∃ ex x s', s = ex ++ s' ∧ IsExp small capital ex x ∧ readExp small (s ++ 0#8 :: rest) = .ok (x, s' ++ 0#8 :: rest) :=
    fun h => ⟨[], 0, s, rfl, .inl ⟨rfl, rfl⟩, h⟩
  match s with
  | [] =>
    apply plain
    unfold readExp
    rw [List.nil_append, Num.rd_cons, R.ok_bind, if_neg hz]
    rfl
  | c :: t =>
    by_cases hc : lower c = small
    · -- the sign
      obtain ⟨sg, u, neg, hsg, hu, hplain⟩ : ∃ sg u neg, IsSign sg neg ∧ t = sg ++ u ∧
          (isDigit (u.head?.getD 0#8) = false → readExp small ((c :: t) ++ 0#8 :: rest) = .ok (0, (c :: t) ++ 0#8 :: rest)) := by
        have go : ∀ (d : Chr) (u r : List Chr), Str.rd ((c :: t) ++ 0#8 :: rest) 1 = .ok d → (if d = 45#8 ∨ d = 43#8 then ((c :: t) ++ 0#8 :: rest).drop 2 else ((c :: t) ++ 0#8 :: rest).drop 1) = u ++ 0#8 :: rest →
            isDigit (u.head?.getD 0#8) = false → readExp small ((c :: t) ++ 0#8 :: rest) = .ok (0, (c :: t) ++ 0#8 :: rest) := by
          intro d u r h1 h2 h3
          unfold readExp
          rw [show Str.rd ((c :: t) ++ 0#8 :: rest) 0 = .ok c from rfl, R.ok_bind, if_pos hc, h1, R.ok_bind]
          dsimp only
          rw [h2, rd_head, R.ok_bind, h3]
          rfl
        match t with
        | [] => exact ⟨[], [], false, .inl ⟨rfl, rfl⟩, rfl, go 0#8 [] [] rfl rfl⟩
        | d :: u =>
          by_cases h1 : d = 45#8
          · subst h1
            exact ⟨[45#8], u, true, .inr (.inr ⟨rfl, rfl⟩), rfl, go 45#8 u [] rfl (if_pos (.inl rfl))⟩
          · by_cases h2 : d = 43#8
            · subst h2
              exact ⟨[43#8], u, false, .inr (.inl ⟨rfl, rfl⟩), rfl, go 43#8 u [] rfl (if_pos (.inr rfl))⟩
            · exact ⟨[], d :: u, false, .inl ⟨rfl, rfl⟩, rfl, go d (d :: u) [] rfl (if_neg (not_or.2 ⟨h1, h2⟩))⟩
      cases hd : isDigit (u.head?.getD 0#8) with
      | false => exact plain (hplain hd)
      | true =>
        obtain ⟨ds, s', rfl, h3, h4⟩ := split_on isDigit u
        have h0 : ds ≠ [] := by
          rintro rfl
          rw [List.nil_append] at hd
          cases s' with
          | nil => exact absurd hd (by decide)
          | cons a t => rw [List.head?_cons, Option.getD_some, h4 a rfl] at hd; cases hd
        have hdd : Digs ds := fun c hc => (isDigit_iff c).1 (h3 c hc)
        have hcc := (lower_letter hS hC).1 hc
        refine ⟨c :: (sg ++ ds), _, s', by rw [hu]; simp, .inr ⟨c, sg, ds, neg, rfl, hcc, hsg, h0, hdd, rfl⟩, ?_⟩
        rw [← exp_app hS hC hcc hsg h0 hdd h4, hu]
        simp
    · apply plain
      unfold readExp
      rw [show Str.rd ((c :: t) ++ 0#8 :: rest) 0 = .ok c from rfl, R.ok_bind, if_neg hc]
      rfl

/-! ### numbers -/

theorem small_e : Small 101#8 := by unfold Small; decide
theorem small_p : Small 112#8 := by unfold Small; decide

theorem dec_all {l rest : List Chr} {q : ℚ} (h : IsDec l q) : readDecimal (l ++ 0#8 :: rest) = .ok (some (q, 0#8 :: rest)) := by
  obtain ⟨mt, ip, fp, ex, x, rfl, hm, hd, h0, hx, rfl⟩ := h
  have hh : ∀ c, ex.head? = some c → c = 101#8 ∨ c = 69#8 := by
    intro c hc
    rcases hx with ⟨rfl, _⟩ | ⟨a, _, _, _, rfl, ha, _⟩
    · cases hc
    · cases Option.some.inj hc; exact ha
  have hs : Stop isDigit ex := fun c hc => by rcases hh c hc with rfl | rfl <;> rfl
  have hp : ex.head? ≠ some 46#8 := fun e => by rcases hh _ e with e | e <;> exact absurd e (by decide)
  unfold readDecimal
  rw [List.append_assoc, mant_app reads_dec hm (fun c hc => (isDigit_iff c).2 (hd c hc)) h0 hs (fun _ => hp), R.ok_bind]
  dsimp only
  rw [exp_all small_e (by decide) hx, R.ok_bind]
  rfl

theorem dec_split (s rest : List Chr) : readDecimal (s ++ 0#8 :: rest) = .ok none ∨
    ∃ l s' q, s = l ++ s' ∧ IsDec l q ∧ readDecimal (s ++ 0#8 :: rest) = .ok (some (q, s' ++ 0#8 :: rest)) := by
  unfold readDecimal
  rcases mant_split reads_dec s rest with h | ⟨mt, s1, ip, fp, rfl, hm, hd, h0, h⟩
  · left; rw [h]; rfl
  · right
    obtain ⟨ex, x, s', rfl, hx, he⟩ := exp_split small_e (capital := 69#8) (by decide) s1 rest
    refine ⟨mt ++ ex, s', _, by simp, ⟨mt, ip, fp, ex, x, rfl, hm, fun c hc => (isDigit_iff c).1 (hd c hc), h0, hx, rfl⟩, ?_⟩
    rw [h, R.ok_bind]
    dsimp only
    rw [he, R.ok_bind]
    rfl

/-- A hexadecimal number behind `0x`. -/
def IsHexTail (l : List Chr) (q : ℚ) : Prop :=
  ∃ mt ip fp ex x, l = mt ++ ex ∧ IsMant mt ip fp ∧ (∀ d ∈ ip ++ fp, (hexVal d).isSome) ∧ ip ++ fp ≠ [] ∧ IsExp 112#8 80#8 ex x ∧ q = hexValue 0 (ip ++ fp) * 2 ^ (x - 4 * fp.length)

theorem hex_iff (l : List Chr) (q : ℚ) : IsHex l q ↔ ∃ c t, l = 48#8 :: c :: t ∧ (c = 120#8 ∨ c = 88#8) ∧ IsHexTail t q := by
  constructor
  · rintro ⟨c, mt, ip, fp, ex, x, h1, h2, h⟩
    exact ⟨c, _, h1, h2, mt, ip, fp, ex, x, rfl, h⟩
  · rintro ⟨c, t, h1, h2, mt, ip, fp, ex, x, rfl, h⟩
    exact ⟨c, mt, ip, fp, ex, x, h1, h2, h⟩

theorem hex_all {l rest : List Chr} {q : ℚ} (h : IsHexTail l q) : readHexNum (l ++ 0#8 :: rest) = .ok (some (q, 0#8 :: rest)) := by
  obtain ⟨mt, ip, fp, ex, x, rfl, hm, hd, h0, hx, rfl⟩ := h
  have hh : ∀ c, ex.head? = some c → c = 112#8 ∨ c = 80#8 := by
    intro c hc
    rcases hx with ⟨rfl, _⟩ | ⟨a, _, _, _, rfl, ha, _⟩
    · cases hc
    · cases Option.some.inj hc; exact ha
  have hs : Stop (fun c => (hexVal c).isSome) ex := fun c hc => by rcases hh c hc with rfl | rfl <;> rfl
  have hp : ex.head? ≠ some 46#8 := fun e => by rcases hh _ e with e | e <;> exact absurd e (by decide)
  unfold readHexNum
  rw [List.append_assoc, mant_app reads_hex hm hd h0 hs (fun _ => hp), R.ok_bind]
  dsimp only
  rw [exp_all small_p (by decide) hx, R.ok_bind]
  rfl

theorem hex_split (s rest : List Chr) : readHexNum (s ++ 0#8 :: rest) = .ok none ∨
    ∃ l s' q, s = l ++ s' ∧ IsHexTail l q ∧ readHexNum (s ++ 0#8 :: rest) = .ok (some (q, s' ++ 0#8 :: rest)) := by
  unfold readHexNum
  rcases mant_split reads_hex s rest with h | ⟨mt, s1, ip, fp, rfl, hm, hd, h0, h⟩
  · left; rw [h]; rfl
  · right
    obtain ⟨ex, x, s', rfl, hx, he⟩ := exp_split small_p (capital := 80#8) (by decide) s1 rest
    refine ⟨mt ++ ex, s', _, by simp, ⟨mt, ip, fp, ex, x, rfl, hm, hd, h0, hx, rfl⟩, ?_⟩
    rw [h, R.ok_bind]
    dsimp only
    rw [he, R.ok_bind]
    rfl

/-! ### words -/

theorem prefixed_app {p w r : List Chr} (h : p.map lower = w) : prefixed w (p ++ r) = some r := by
  induction p generalizing w with
  | nil => cases h; cases r <;> rfl
  | cons c t ih =>
    cases w with
    | nil => cases h
    | cons d u =>
      rw [List.map_cons, List.cons.injEq] at h
      rw [List.cons_append, prefixed, if_pos h.1, ih h.2]

theorem prefixed_some {w s rest r : List Chr} (hw : 0#8 ∉ w) (h : prefixed w (s ++ 0#8 :: rest) = some r) : ∃ p s', s = p ++ s' ∧ p.map lower = w ∧ r = s' ++ 0#8 :: rest := by
  induction w generalizing s with
  | nil =>
    refine ⟨[], s, rfl, rfl, ?_⟩
    cases s <;> exact (Option.some.inj h).symm
  | cons d u ih =>
    cases s with
    | nil =>
      rw [List.nil_append, prefixed] at h
      by_cases e : lower 0#8 = d
      · exact absurd (show 0#8 ∈ d :: u by rw [← e]; exact List.mem_cons_self) hw
      · rw [if_neg e] at h; cases h
    | cons c t =>
      rw [List.cons_append, prefixed] at h
      by_cases e : lower c = d
      · rw [if_pos e] at h
        obtain ⟨p, s', h1, h2, h3⟩ := ih (fun hm => hw (List.mem_cons_of_mem _ hm)) h
        exact ⟨c :: p, s', by rw [h1]; rfl, by rw [List.map_cons, e, h2], h3⟩
      · rw [if_neg e] at h; cases h

theorem prefixed_none {c d : Chr} {t u : List Chr} (h : lower c ≠ d) : prefixed (d :: u) (c :: t) = none := by rw [prefixed, if_neg h]

theorem prefixed_0x {s rest r : List Chr} (h : prefixed [48#8, 120#8] (s ++ 0#8 :: rest) = some r) : ∃ c s', s = 48#8 :: c :: s' ∧ (c = 120#8 ∨ c = 88#8) ∧ r = s' ++ 0#8 :: rest := by
  obtain ⟨p, s', h1, h2, h3⟩ := prefixed_some (by decide) h
  match p with
  | [] => cases h2
  | [_] => cases (List.cons.inj h2).2
  | _ :: _ :: _ :: _ => cases (List.cons.inj (List.cons.inj h2).2).2
  | [a, b] =>
    rw [List.map_cons, List.map_cons, List.map_nil] at h2
    have e1 := (List.cons.inj h2).1
    have e2 := (List.cons.inj (List.cons.inj h2).2).1
    exact ⟨b, s', by rw [h1, lower_zero.1 e1]; rfl, (lower_letter (by unfold Small; decide) (by decide)).1 e2, h3⟩

/-- The characters of a decimal number. -/
def DecChr (c : Chr) : Prop := IsDigit c ∨ c = 46#8 ∨ c = 101#8 ∨ c = 69#8 ∨ c = 43#8 ∨ c = 45#8

theorem dec_chars {l : List Chr} {q : ℚ} (h : IsDec l q) : (∀ c ∈ l, DecChr c) ∧ ∃ c t, l = c :: t ∧ (IsDigit c ∨ c = 46#8) := by
  obtain ⟨mt, ip, fp, ex, x, rfl, hm, hd, h0, hx, rfl⟩ := h
  have hi : ∀ c ∈ ip, IsDigit c := fun c hc => hd c (List.mem_append_left _ hc)
  have hf : ∀ c ∈ fp, IsDigit c := fun c hc => hd c (List.mem_append_right _ hc)
  have hmt : (∀ c ∈ mt, IsDigit c ∨ c = 46#8) ∧ mt ≠ [] := by
    rcases hm with rfl | ⟨rfl, rfl⟩
    · refine ⟨fun c hc => ?_, by simp⟩
      rcases List.mem_append.1 hc with hc | hc
      · exact .inl (hi c hc)
      · rcases List.mem_cons.1 hc with hc | hc
        · exact .inr hc
        · exact .inl (hf c hc)
    · exact ⟨fun c hc => .inl (hi c hc), by simpa using h0⟩
  refine ⟨fun c hc => ?_, ?_⟩
  · rcases List.mem_append.1 hc with hc | hc
    · rcases hmt.1 c hc with g | g
      · exact .inl g
      · exact .inr (.inl g)
    · rcases hx with ⟨rfl, _⟩ | ⟨a, sg, ds, neg, rfl, ha, hsg, _, hds, _⟩
      · cases hc
      · rcases List.mem_cons.1 hc with rfl | hc
        · rcases ha with e | e
          · exact .inr (.inr (.inl e))
          · exact .inr (.inr (.inr (.inl e)))
        · rcases List.mem_append.1 hc with hc | hc
          · rcases hsg with ⟨rfl, _⟩ | ⟨rfl, _⟩ | ⟨rfl, _⟩
            · cases hc
            · exact .inr (.inr (.inr (.inr (.inl (List.mem_singleton.1 hc)))))
            · exact .inr (.inr (.inr (.inr (.inr (List.mem_singleton.1 hc)))))
          · exact .inl (hds c hc)
  · cases mt with
    | nil => exact absurd rfl hmt.2
    | cons c t => exact ⟨c, t ++ ex, rfl, hmt.1 c List.mem_cons_self⟩

/-- What is read for what is denoted. -/
def rv : Value → Read
  | .num q => .num q
  | .inf => .inf
  | .nan => .nan

theorem number_dec {l rest : List Chr} {q : ℚ} (h : IsDec l q) : readNumber (l ++ 0#8 :: rest) = .ok (some (q, 0#8 :: rest)) := by
  unfold readNumber
  cases e : prefixed [48#8, 120#8] (l ++ 0#8 :: rest) with
  | none => exact dec_all h
  | some r =>
    obtain ⟨c, s', rfl, hc, _⟩ := prefixed_0x e
    have := (dec_chars h).1 c (by simp)
    unfold DecChr IsDigit at this
    rcases hc with rfl | rfl <;> exact absurd this (by decide)

theorem number_hex {l rest : List Chr} {q : ℚ} (h : IsHex l q) : readNumber (l ++ 0#8 :: rest) = .ok (some (q, 0#8 :: rest)) := by
  obtain ⟨c, t, rfl, hc, ht⟩ := (hex_iff l q).1 h
  unfold readNumber
  have : prefixed [48#8, 120#8] ((48#8 :: c :: t) ++ 0#8 :: rest) = some (t ++ 0#8 :: rest) := by
    have hl : [48#8, c].map lower = [48#8, 120#8] := by rcases hc with rfl | rfl <;> rfl
    exact prefixed_app (r := t ++ 0#8 :: rest) hl
  rw [this]
  dsimp only
  rw [hex_all ht]
  rfl

theorem number_split (s rest : List Chr) : readNumber (s ++ 0#8 :: rest) = .ok none ∨
    ∃ l s' q, s = l ++ s' ∧ (IsDec l q ∨ IsHex l q) ∧ readNumber (s ++ 0#8 :: rest) = .ok (some (q, s' ++ 0#8 :: rest)) := by
  have dec : readNumber (s ++ 0#8 :: rest) = readDecimal (s ++ 0#8 :: rest) → readNumber (s ++ 0#8 :: rest) = .ok none ∨
    ∃ l s' q, s = l ++ s' ∧ (IsDec l q ∨ IsHex l q) ∧ readNumber (s ++ 0#8 :: rest) = .ok (some (q, s' ++ 0#8 :: rest)) := by
    intro e
    rw [e]
    rcases dec_split s rest with h | ⟨l, s', q, h1, h2, h3⟩
    · exact .inl h
    · exact .inr ⟨l, s', q, h1, .inl h2, h3⟩
  cases e : prefixed [48#8, 120#8] (s ++ 0#8 :: rest) with
  | none => apply dec; unfold readNumber; rw [e]
  | some r =>
    obtain ⟨c, t, rfl, hc, rfl⟩ := prefixed_0x e
    rcases hex_split t rest with h | ⟨l, s', q, h1, h2, h3⟩
    · apply dec; unfold readNumber; rw [e]; dsimp only; rw [h]; rfl
    · refine .inr ⟨48#8 :: c :: l, s', q, by rw [h1]; rfl, .inr ((hex_iff _ _).2 ⟨c, l, rfl, hc, h2⟩), ?_⟩
      unfold readNumber
      rw [e]
      dsimp only
      rw [h3]
      rfl

theorem small_wInf : ∀ d ∈ wInf, Small d := by unfold Small; decide
theorem small_wInfinity : ∀ d ∈ wInfinity, Small d := by unfold Small; decide
theorem small_wNan : ∀ d ∈ wNan, Small d := by unfold Small; decide

theorem dropWhile_app {D : Chr → Bool} {a s : List Chr} (ha : ∀ c ∈ a, D c = true) (hs : Stop D s) : (a ++ s).dropWhile D = s := by
  induction a with
  | nil =>
    cases s with
    | nil => rfl
    | cons c t => rw [List.nil_append, List.dropWhile_cons_of_neg (by rw [hs c rfl]; decide)]
  | cons c t ih => rw [List.cons_append, List.dropWhile_cons_of_pos (ha c List.mem_cons_self), ih (fun x hx => ha x (List.mem_cons_of_mem _ hx))]

theorem afterNan_close {t r : List Chr} (h : t.dropWhile isNChar = 41#8 :: r) : afterNan (40#8 :: t) = r := by
  unfold afterNan
  dsimp only
  rw [if_pos rfl, h]
  dsimp only
  rw [if_pos rfl]

theorem afterNan_other {t r : List Chr} {d : Chr} (h : t.dropWhile isNChar = d :: r) (hd : d ≠ 41#8) : afterNan (40#8 :: t) = 40#8 :: t := by
  unfold afterNan
  dsimp only
  rw [if_pos rfl, h]
  dsimp only
  rw [if_neg hd]

theorem afterNan_plain {c : Chr} {t : List Chr} (h : c ≠ 40#8) : afterNan (c :: t) = c :: t := by
  unfold afterNan
  dsimp only
  rw [if_neg h]

theorem afterNan_split (s rest : List Chr) : ∃ a s', s = a ++ s' ∧ (a = [] ∨ ∃ b, a = 40#8 :: (b ++ [41#8]) ∧ ∀ c ∈ b, IsWordChr c) ∧ afterNan (s ++ 0#8 :: rest) = s' ++ 0#8 :: rest := by
  match s with
  | [] => exact ⟨[], [], rfl, .inl rfl, rfl⟩
  | c :: t =>
    by_cases hc : c = 40#8
    · subst hc
      obtain ⟨b, u, rfl, h1, h2⟩ := split_on isNChar t
      have hd : (((b ++ u) ++ 0#8 :: rest).dropWhile isNChar) = u ++ 0#8 :: rest := by
        rw [List.append_assoc]
        refine dropWhile_app h1 (fun c hc => ?_)
        cases u with
        | nil => cases Option.some.inj hc; rfl
        | cons d v => exact h2 c hc
      by_cases hu : u.head? = some 41#8
      · obtain ⟨v, rfl⟩ : ∃ v, u = 41#8 :: v := by
          cases u with
          | nil => cases hu
          | cons d v => cases Option.some.inj hu; exact ⟨v, rfl⟩
        refine ⟨40#8 :: (b ++ [41#8]), v, by simp, .inr ⟨b, rfl, fun c hc => (isNChar_iff c).1 (h1 c hc)⟩, ?_⟩
        exact afterNan_close hd
      · refine ⟨[], _, rfl, .inl rfl, ?_⟩
        cases u with
        | nil => exact afterNan_other hd (by decide)
        | cons d v => exact afterNan_other hd (fun e => hu (by rw [e]; rfl))
    · exact ⟨[], _, rfl, .inl rfl, afterNan_plain hc⟩

theorem afterNan_all {b rest : List Chr} (h : ∀ c ∈ b, IsWordChr c) : afterNan ((40#8 :: (b ++ [41#8])) ++ 0#8 :: rest) = 0#8 :: rest := by
  apply afterNan_close
  show ((b ++ [41#8]) ++ 0#8 :: rest).dropWhile isNChar = _
  rw [List.append_assoc, dropWhile_app (fun c hc => (isNChar_iff c).2 (h c hc)) (fun c hc => by cases Option.some.inj hc; rfl)]
  rfl

theorem body_split (s rest : List Chr) : readBody (s ++ 0#8 :: rest) = .ok none ∨
    ∃ l s' v, s = l ++ s' ∧ IsBody l v ∧ readBody (s ++ 0#8 :: rest) = .ok (some (rv v, s' ++ 0#8 :: rest)) := by
  unfold readBody
  cases e1 : prefixed [105#8, 110#8, 102#8, 105#8, 110#8, 105#8, 116#8, 121#8] (s ++ 0#8 :: rest) with
  | some r =>
    obtain ⟨p, s', h1, h2, rfl⟩ := prefixed_some (by decide) e1
    exact .inr ⟨p, s', .inf, h1, .inr ((sameWord_iff small_wInfinity).1 h2), rfl⟩
  | none =>
    dsimp only
    cases e2 : prefixed [105#8, 110#8, 102#8] (s ++ 0#8 :: rest) with
    | some r =>
      obtain ⟨p, s', h1, h2, rfl⟩ := prefixed_some (by decide) e2
      exact .inr ⟨p, s', .inf, h1, .inl ((sameWord_iff small_wInf).1 h2), rfl⟩
    | none =>
      dsimp only
      cases e3 : prefixed [110#8, 97#8, 110#8] (s ++ 0#8 :: rest) with
      | some r =>
        obtain ⟨p, s1, h1, h2, rfl⟩ := prefixed_some (by decide) e3
        have hw := (sameWord_iff small_wNan).1 h2
        obtain ⟨a, s', rfl, ha, he⟩ := afterNan_split s1 rest
        refine .inr ⟨p ++ a, s', .nan, by rw [h1, List.append_assoc], ?_, by dsimp only; rw [he]; rfl⟩
        rcases ha with rfl | ⟨b, rfl, hb⟩
        · rw [List.append_nil]; exact .inl hw
        · exact .inr ⟨p, b, rfl, hw, hb⟩
      | none =>
        dsimp only
        rcases number_split s rest with h | ⟨l, s', q, h1, h2, h3⟩
        · left; rw [h]; rfl
        · refine .inr ⟨l, s', .num q, h1, h2, ?_⟩
          rw [h3]; rfl

theorem num_head {l : List Chr} {q : ℚ} (h : IsDec l q ∨ IsHex l q) : ∃ c t, l = c :: t ∧ (IsDigit c ∨ c = 46#8) := by
  rcases h with h | h
  · exact (dec_chars h).2
  · obtain ⟨c, t, rfl, _⟩ := (hex_iff l q).1 h
    exact ⟨_, _, rfl, .inl (by unfold IsDigit; decide)⟩

theorem lower_num {c d : Chr} (hc : IsDigit c ∨ c = 46#8) (hd : Small d) : lower c ≠ d := by
  rw [Ne, lower_small hd]
  unfold Small at hd
  rintro (e | e)
  · subst e
    rcases hc with h | rfl
    · unfold IsDigit at h; omega
    · exact absurd hd (by decide)
  · rcases hc with h | rfl
    · unfold IsDigit at h; omega
    · have : (46#8 : Chr).toNat = 46 := rfl
      omega

theorem word_head {l w : List Chr} {d : Chr} (hl : l.map lower = d :: w) : ∃ c t, l = c :: t ∧ lower c = d := by
  cases l with
  | nil => cases hl
  | cons c t => exact ⟨c, t, rfl, (List.cons.inj hl).1⟩

theorem body_all {l rest : List Chr} {v : Value} (h : IsBody l v) : readBody (l ++ 0#8 :: rest) = .ok (some (rv v, 0#8 :: rest)) := by
  unfold readBody
  cases v with
  | num q =>
    obtain ⟨c, t, rfl, hc⟩ := num_head h
    have n : ∀ (d : Chr) (u : List Chr), Small d → prefixed (d :: u) ((c :: t) ++ 0#8 :: rest) = none := fun d u hd => prefixed_none (lower_num hc hd)
    rw [n _ _ (by unfold Small; decide)]
    dsimp only
    rw [n _ _ (by unfold Small; decide)]
    dsimp only
    rw [n _ _ (by unfold Small; decide)]
    dsimp only
    have : readNumber ((c :: t) ++ 0#8 :: rest) = .ok (some (q, 0#8 :: rest)) := h.elim number_dec number_hex
    rw [this]
    rfl
  | inf =>
    rcases h with h | h
    · have h := (sameWord_iff small_wInf).2 h
      cases e1 : prefixed [105#8, 110#8, 102#8, 105#8, 110#8, 105#8, 116#8, 121#8] (l ++ 0#8 :: rest) with
      | some r =>
        obtain ⟨p, s', h1, h2, _⟩ := prefixed_some (by decide) e1
        have a := congrArg List.length h
        have b := congrArg List.length h2
        rw [h1] at a
        simp [wInf] at a b
        omega
      | none =>
        dsimp only
        rw [show prefixed [105#8, 110#8, 102#8] (l ++ 0#8 :: rest) = some (0#8 :: rest) from prefixed_app h]
        rfl
    · have h := (sameWord_iff small_wInfinity).2 h
      rw [show prefixed [105#8, 110#8, 102#8, 105#8, 110#8, 105#8, 116#8, 121#8] (l ++ 0#8 :: rest) = some (0#8 :: rest) from prefixed_app h]
      rfl
  | nan =>
    have go : ∀ n r : List Chr, SameWord n wNan → afterNan r = 0#8 :: rest → l ++ 0#8 :: rest = n ++ r → readBody (l ++ 0#8 :: rest) = .ok (some (.nan, 0#8 :: rest)) := by
      intro n r hn hr e
      have hn := (sameWord_iff small_wNan).2 hn
      obtain ⟨c, t, rfl, hc⟩ := word_head hn
      have no : ∀ u : List Chr, prefixed (105#8 :: u) ((c :: t) ++ r) = none := fun u => prefixed_none (by rw [hc]; decide)
      unfold readBody
      rw [e, no]
      dsimp only
      rw [no]
      dsimp only
      rw [show prefixed [110#8, 97#8, 110#8] ((c :: t) ++ r) = some r from prefixed_app hn]
      dsimp only
      rw [hr]
      rfl
    have := (show readBody (l ++ 0#8 :: rest) = .ok (some (.nan, 0#8 :: rest)) by
      rcases h with h | ⟨n, a, rfl, hn, ha⟩
      · exact go l (0#8 :: rest) h rfl rfl
      · exact go n _ hn (afterNan_all ha) (by simp))
    unfold readBody at this
    exact this

/-- The first character is not white space or a sign. -/
theorem body_head {l : List Chr} {v : Value} (h : IsBody l v) : ∃ c t, l = c :: t ∧ isSpaceC c = false ∧ c ≠ 45#8 ∧ c ≠ 43#8 := by
  have word : ∀ {w l : List Chr} {d : Chr}, Small d → l.map lower = d :: w → ∃ c t, l = c :: t ∧ isSpaceC c = false ∧ c ≠ 45#8 ∧ c ≠ 43#8 := by
    intro w l d hd hl
    obtain ⟨c, t, rfl, hc⟩ := word_head hl
    have hc := (lower_small hd).1 hc
    unfold Small at hd
    have hge : 65 ≤ c.toNat := by rcases hc with rfl | hc <;> omega
    refine ⟨c, t, rfl, ?_, ?_, ?_⟩
    · cases e : isSpaceC c with
      | false => rfl
      | true =>
        rcases (isSpaceC_iff c).1 e with rfl | g
        · exact absurd hge (by decide)
        · omega
    · rintro rfl; exact absurd hge (by decide)
    · rintro rfl; exact absurd hge (by decide)
  cases v with
  | num q =>
    obtain ⟨c, t, rfl, hc⟩ := num_head h
    refine ⟨c, t, rfl, ?_, ?_, ?_⟩
    · rcases hc with hc | rfl
      · exact Num.digit_not_space hc
      · rfl
    · rintro rfl; unfold IsDigit at hc; exact absurd hc (by decide)
    · rintro rfl; unfold IsDigit at hc; exact absurd hc (by decide)
  | inf =>
    rcases h with h | h
    · exact word (by unfold Small; decide) ((sameWord_iff small_wInf).2 h)
    · exact word (by unfold Small; decide) ((sameWord_iff small_wInfinity).2 h)
  | nan =>
    rcases h with h | ⟨n, a, rfl, hn, ha⟩
    · exact word (by unfold Small; decide) ((sameWord_iff small_wNan).2 h)
    · obtain ⟨c, t, rfl, h⟩ := word (by unfold Small; decide) ((sameWord_iff small_wNan).2 hn)
      exact ⟨c, _, rfl, h⟩

/-! ### strtod -/

/-- The value stored and whether `errno` is set. -/
def outcome (F : Format) (under : ℚ → Bool) (neg : Bool) : Value → Fl × Bool
  | .num q => toFl F under neg q
  | .inf => (.inf neg, false)
  | .nan => (.nan neg, false)

/-- After the white space. -/
theorem strtod_sign (F : Format) (under : ℚ → Bool) {sg s rest : List Chr} {neg : Bool} (hsg : IsSign sg neg) (h : sg = [] → s.head? ≠ some 45#8 ∧ s.head? ≠ some 43#8) {mem : List Chr} (hm : skipSpace mem = .ok (sg ++ (s ++ 0#8 :: rest))) :
    strtod F under mem = (do
      match ← readBody (s ++ 0#8 :: rest) with
      | none => pure none
      | some (.inf, r) => pure (some (.inf neg, false, r))
      | some (.nan, r) => pure (some (.nan neg, false, r))
      | some (.num q, r) => pure (some ((toFl F under neg q).1, (toFl F under neg q).2, r))) := by
  unfold strtod
  rw [hm, R.ok_bind]
  rcases hsg with ⟨rfl, rfl⟩ | ⟨rfl, rfl⟩ | ⟨rfl, rfl⟩
  · obtain ⟨h1, h2⟩ := h rfl
    rw [List.nil_append, rd_head, R.ok_bind]
    dsimp only
    have e1 : (s.head?.getD 0#8 == 45#8) = false := by simpa using head_ne h1 (by decide)
    have e2 : (s.head?.getD 0#8 == 43#8) = false := by simpa using head_ne h2 (by decide)
    rw [e1, e2]
    rfl
  · rfl
  · rfl

theorem strtod_all (F : Format) (under : ℚ → Bool) {l rest : List Chr} {neg : Bool} {v : Value} (h : Denotes l neg v) :
    strtod F under (l ++ 0#8 :: rest) = .ok (some ((outcome F under neg v).1, (outcome F under neg v).2, 0#8 :: rest)) := by
  obtain ⟨ws, sg, m, rfl, hw, hsg, hb⟩ := h
  obtain ⟨c, t, hm, h1, h2, h3⟩ := body_head hb
  have hskip : skipSpace ((ws ++ (sg ++ m)) ++ 0#8 :: rest) = .ok (sg ++ (m ++ 0#8 :: rest)) := by
    have e : (ws ++ (sg ++ m)) ++ 0#8 :: rest = ws ++ (sg ++ (m ++ 0#8 :: rest)) := by simp
    rw [e]
    rcases hsg with ⟨rfl, _⟩ | ⟨rfl, _⟩ | ⟨rfl, _⟩
    · rw [hm]; exact Num.skipSpace_app ws c _ hw h1
    · exact Num.skipSpace_app ws 43#8 _ hw (by decide)
    · exact Num.skipSpace_app ws 45#8 _ hw (by decide)
  rw [strtod_sign F under hsg (fun _ => by rw [hm]; exact ⟨fun e => h2 (Option.some.inj e), fun e => h3 (Option.some.inj e)⟩) hskip, body_all hb, R.ok_bind]
  cases v <;> rfl

theorem strtod_split (F : Format) (under : ℚ → Bool) (s rest : List Chr) : strtod F under (s ++ 0#8 :: rest) = .ok none ∨
    ∃ l s' neg v, s = l ++ s' ∧ Denotes l neg v ∧ strtod F under (s ++ 0#8 :: rest) = .ok (some ((outcome F under neg v).1, (outcome F under neg v).2, s' ++ 0#8 :: rest)) := by
  obtain ⟨ws, s1, rfl, hw, hs⟩ := split_on isSpaceC s
  have hw' : ∀ c ∈ ws, IsSpace c := fun c hc => (isSpaceC_iff c).1 (hw c hc)
  obtain ⟨sg, s2, neg, hsg, rfl, hno⟩ : ∃ sg s2 neg, IsSign sg neg ∧ s1 = sg ++ s2 ∧ (sg = [] → s2.head? ≠ some 45#8 ∧ s2.head? ≠ some 43#8) := by
    by_cases h1 : s1.head? = some 45#8
    · cases s1 with
      | nil => cases h1
      | cons a t => cases Option.some.inj h1; exact ⟨[45#8], t, true, .inr (.inr ⟨rfl, rfl⟩), rfl, fun e => nomatch e⟩
    · by_cases h2 : s1.head? = some 43#8
      · cases s1 with
        | nil => cases h2
        | cons a t => cases Option.some.inj h2; exact ⟨[43#8], t, false, .inr (.inl ⟨rfl, rfl⟩), rfl, fun e => nomatch e⟩
      · exact ⟨[], s1, false, .inl ⟨rfl, rfl⟩, rfl, fun _ => ⟨h1, h2⟩⟩
  have hskip : skipSpace ((ws ++ (sg ++ s2)) ++ 0#8 :: rest) = .ok (sg ++ (s2 ++ 0#8 :: rest)) := by
    have e : (ws ++ (sg ++ s2)) ++ 0#8 :: rest = ws ++ ((sg ++ s2) ++ 0#8 :: rest) := by simp
    rw [e, ← List.append_assoc sg]
    generalize sg ++ s2 = u at hs
    cases u with
    | nil => exact Num.skipSpace_app ws 0#8 _ hw' (by decide)
    | cons a t => exact Num.skipSpace_app ws a _ hw' (hs a rfl)
  rw [strtod_sign F under hsg hno hskip]
  rcases body_split s2 rest with h | ⟨l, s', v, rfl, hb, h⟩
  · left; rw [h]; rfl
  · refine .inr ⟨ws ++ (sg ++ l), s', neg, v, by simp, ⟨ws, sg, l, rfl, hw', hsg, hb⟩, ?_⟩
    rw [h, R.ok_bind]
    cases v <;> rfl

/-- A text denotes at most one value. -/
theorem denotes_unique {l : List Chr} {neg neg' : Bool} {v v' : Value} (h : Denotes l neg v) (h' : Denotes l neg' v') : neg = neg' ∧ v = v' := by
  obtain ⟨ws, sg, m, rfl, hw, hsg, hb⟩ := h
  obtain ⟨ws', sg', m', e, hw', hsg', hb'⟩ := h'
  have skip : ∀ {ws sg m : List Chr} {neg : Bool} {v : Value}, (∀ c ∈ ws, IsSpace c) → IsSign sg neg → IsBody m v → skipSpace ((ws ++ (sg ++ m)) ++ [0#8]) = .ok (sg ++ (m ++ [0#8])) := by
    intro ws sg m neg v hw hsg hb
    obtain ⟨c, t, hm, h1, h2, h3⟩ := body_head hb
    have e : (ws ++ (sg ++ m)) ++ [0#8] = ws ++ (sg ++ (m ++ [0#8])) := by simp
    rw [e]
    rcases hsg with ⟨rfl, _⟩ | ⟨rfl, _⟩ | ⟨rfl, _⟩
    · rw [hm]; exact Num.skipSpace_app ws c _ hw h1
    · exact Num.skipSpace_app ws 43#8 _ hw (by decide)
    · exact Num.skipSpace_app ws 45#8 _ hw (by decide)
  have h1 := skip hw hsg hb
  rw [e, skip hw' hsg' hb'] at h1
  have h2 : sg' ++ (m' ++ [0#8]) = sg ++ (m ++ [0#8]) := Except.ok.inj h1
  obtain ⟨c, t, hm, _, n1, n2⟩ := body_head hb
  obtain ⟨c', t', hm', _, n1', n2'⟩ := body_head hb'
  have key : neg = neg' ∧ m ++ [0#8] = m' ++ [0#8] := by
    rcases hsg with ⟨rfl, rfl⟩ | ⟨rfl, rfl⟩ | ⟨rfl, rfl⟩ <;> rcases hsg' with ⟨rfl, rfl⟩ | ⟨rfl, rfl⟩ | ⟨rfl, rfl⟩
    · exact ⟨rfl, h2.symm⟩
    · rw [hm] at h2; exact absurd (List.cons.inj h2).1.symm n2
    · rw [hm] at h2; exact absurd (List.cons.inj h2).1.symm n1
    · rw [hm'] at h2; exact absurd (List.cons.inj h2).1 n2'
    · exact ⟨rfl, (List.cons.inj h2).2.symm⟩
    · exact absurd (List.cons.inj h2).1 (by decide)
    · rw [hm'] at h2; exact absurd (List.cons.inj h2).1 n1'
    · exact absurd (List.cons.inj h2).1 (by decide)
    · exact ⟨rfl, (List.cons.inj h2).2.symm⟩
  refine ⟨key.1, ?_⟩
  have b1 := body_all (rest := []) hb
  rw [key.2, body_all hb'] at b1
  have : rv v' = rv v := (Prod.mk.inj (Option.some.inj (Except.ok.inj b1))).1
  cases v <;> cases v' <;> first | rfl | cases this <;> rfl

/-- `from_string` for zero-terminated texts. -/
theorem fromCstr_cases (F : Format) (under : ℚ → Bool) (s rest : List Chr) (h0 : 0#8 ∉ s) :
    (∃ neg v, Denotes s neg v ∧ fromCstr F under (s ++ 0#8 :: rest) = .ok (!(outcome F under neg v).2, (outcome F under neg v).1)) ∨
    ((∀ neg v, ¬ Denotes s neg v) ∧ ∃ w, fromCstr F under (s ++ 0#8 :: rest) = .ok (false, w)) := by
  unfold fromCstr
  rcases strtod_split F under s rest with h | ⟨l, s', neg, v, rfl, hd, h⟩
  · right
    refine ⟨fun neg v hd => ?_, _, by rw [h]; rfl⟩
    rw [strtod_all F under hd] at h
    cases h
  · rw [h, R.ok_bind]
    dsimp only
    rw [rd_head, R.ok_bind]
    cases s' with
    | nil =>
      left
      rw [List.append_nil]
      exact ⟨neg, v, hd, rfl⟩
    | cons c t =>
      right
      have hc : c ≠ 0#8 := fun e => h0 (by rw [e]; simp)
      refine ⟨fun neg' v' hd' => ?_, (outcome F under neg v).1, ?_⟩
      · rw [strtod_all F under hd'] at h
        have := congrArg List.length (Prod.mk.inj (Prod.mk.inj (Option.some.inj (Except.ok.inj h))).2).2
        simp at this
        omega
      · rw [List.head?_cons, Option.getD_some, show (c == 0#8) = false by simpa using hc]
        rfl

end Verif.Flt
