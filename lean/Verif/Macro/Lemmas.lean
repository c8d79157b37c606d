import Verif.Macro.Model
/-! Facts about the parser. -/
namespace Verif.Macro

theorem parse_mono : ∀ (n : Nat) (m : Mode) (ts : List Tok) (x : Expr × List Tok), parse n m ts = some x → parse (n + 1) m ts = some x := by
  intro n
  induction n with
  | zero => intro m ts x h; simp [parse] at h
  | succ n ih =>
    intro m ts x h
    cases m with
    | unary =>
      rw [parse.eq_def] at h ⊢
      dsimp only at h ⊢
      split at h
      · split at h
        · rename_i hp
          split at h
          · rename_i he
            rw [if_pos hp, ih _ _ _ he]
            exact h
          · simp at h
        · simp at h
      · exact ih _ _ _ h
      · split at h
        · rename_i he
          rw [ih _ _ _ he]
          exact ih _ _ _ h
        · simp at h
      · simp at h
    | «postfix» f =>
      rw [parse.eq_def] at h ⊢
      dsimp only at h ⊢
      split at h
      · exact ih _ _ _ h
      · split at h
        · rename_i he
          rw [ih _ _ _ he]
          exact ih _ _ _ h
        · simp at h
      · exact h
    | level p =>
      rw [parse.eq_def] at h ⊢
      dsimp only at h ⊢
      split at h
      · rename_i he
        rw [ih _ _ _ he]
        exact ih _ _ _ h
      · simp at h
    | climb p a =>
      rw [parse.eq_def] at h ⊢
      dsimp only at h ⊢
      split at h
      · split at h
        · split at h
          · rename_i hq hp
            split at h
            · rename_i he
              rw [if_pos hp, ih _ _ _ he]
              exact ih _ _ _ h
            · simp at h
          · rename_i hq hp
            rw [if_neg hp]
            exact h
        · exact h
      · exact h
    | single =>
      rw [parse.eq_def] at h ⊢
      dsimp only at h ⊢
      split at h
      · rename_i he
        rw [ih _ _ _ he]
        dsimp only
        split at h
        · rename_i ha
          rw [ih _ _ _ ha]
          dsimp only
          split at h
          · rename_i hb
            rw [ih _ _ _ hb]
            exact h
          · simp at h
        · simp at h
      · rename_i he
        rw [ih _ _ _ he]
        dsimp only
        split at h
        · rename_i hb
          rw [ih _ _ _ hb]
          exact h
        · simp at h
      · rename_i c r1 h1 h2 he
        rw [ih _ _ _ he]
        cases r1 with
        | nil => exact h
        | cons t1 r1 =>
          cases t1
          case quest => exact absurd rfl (h1 _)
          case sym s1 =>
            cases s1
            case assign => exact absurd rfl (h2 _)
            all_goals exact h
          all_goals exact h
      · simp at h
    | full =>
      rw [parse.eq_def] at h ⊢
      dsimp only at h ⊢
      split at h
      · rename_i he
        rw [ih _ _ _ he]
        dsimp only
        split at h
        · rename_i hb
          rw [ih _ _ _ hb]
          exact h
        · simp at h
      · rename_i a r1 h1 he
        rw [ih _ _ _ he]
        cases r1 with
        | nil => exact h
        | cons t1 r1 =>
          cases t1
          case comma => exact absurd rfl (h1 _)
          all_goals exact h
      · simp at h

theorem parse_le {n k : Nat} (hk : n ≤ k) {m : Mode} {ts : List Tok} {x : Expr × List Tok} (h : parse n m ts = some x) : parse k m ts = some x := by
  induction hk with
  | refl => exact h
  | step _ ih => exact parse_mono _ _ _ _ ih

/-- The tokens can be read like this. -/
def P (m : Mode) (ts : List Tok) (e : Expr) (r : List Tok) : Prop := ∃ n, parse n m ts = some (e, r)

theorem P.unique {m : Mode} {ts : List Tok} {e e' : Expr} {r r' : List Tok} (h : P m ts e r) (h' : P m ts e' r') : e = e' ∧ r = r' := by
  obtain ⟨n, h⟩ := h
  obtain ⟨k, h'⟩ := h'
  have h1 := parse_le (Nat.le_max_left n k) h
  have h2 := parse_le (Nat.le_max_right n k) h'
  rw [h1] at h2
  simpa using h2

theorem P.both {m m' : Mode} {ts ts' : List Tok} {e e' : Expr} {r r' : List Tok} (h : P m ts e r) (h' : P m' ts' e' r') :
    ∃ n, parse n m ts = some (e, r) ∧ parse n m' ts' = some (e', r') := by
  obtain ⟨n, h⟩ := h
  obtain ⟨k, h'⟩ := h'
  exact ⟨max n k, parse_le (Nat.le_max_left n k) h, parse_le (Nat.le_max_right n k) h'⟩

theorem P.prefix {s : Sym} {ts r : List Tok} {e : Expr} (hs : s.prefix = true) (h : P .unary ts e r) : P .unary (.sym s :: ts) (.un s e) r := by
  obtain ⟨n, h⟩ := h
  exact ⟨n + 1, by simp [parse, hs, h]⟩

theorem P.name {a : Name} {ts r : List Tok} {e : Expr} (h : P (.postfix (.name a)) ts e r) : P .unary (.name a :: ts) e r := by
  obtain ⟨n, h⟩ := h
  exact ⟨n + 1, by simp [parse, h]⟩

theorem P.paren {ts r r' : List Tok} {e e' : Expr} (h : P .full ts e (.rp :: r)) (h' : P (.postfix (.paren e)) r e' r') : P .unary (.lp :: ts) e' r' := by
  obtain ⟨n, h, h'⟩ := h.both h'
  exact ⟨n + 1, by simp [parse, h, h']⟩

theorem P.call0 {f e : Expr} {ts r : List Tok} (h : P (.postfix (.call0 f)) ts e r) : P (.postfix f) (.lp :: .rp :: ts) e r := by
  obtain ⟨n, h⟩ := h
  exact ⟨n + 1, by simp [parse, h]⟩

/-- No expression starts with a closing parenthesis. -/
theorem parse_rp (n : Nat) (r : List Tok) : parse n .unary (.rp :: r) = none ∧ (∀ p, parse n (.level p) (.rp :: r) = none) ∧ parse n .single (.rp :: r) = none ∧ parse n .full (.rp :: r) = none := by
  induction n with
  | zero => simp [parse]
  | succ n ih => simp [parse, ih]

theorem P.call {f e e' : Expr} {ts r r' : List Tok} (h : P .full ts e (.rp :: r)) (h' : P (.postfix (.call f e)) r e' r') : P (.postfix f) (.lp :: ts) e' r' := by
  obtain ⟨n, h, h'⟩ := h.both h'
  refine ⟨n + 1, ?_⟩
  cases ts with
  | nil => simp [parse, h, h']
  | cons t ts =>
    cases t
    case rp => rw [(parse_rp n ts).2.2.2] at h; simp at h
    all_goals simp [parse, h, h']

theorem P.operand (f : Expr) {ts : List Tok} (h : ts.head? ≠ some .lp) : P (.postfix f) ts f ts := by
  refine ⟨1, ?_⟩
  cases ts with
  | nil => simp [parse]
  | cons t ts =>
    cases t
    case lp => exact absurd rfl h
    all_goals simp [parse]

theorem P.level {p : Nat} {ts r r' : List Tok} {e e' : Expr} (h : P .unary ts e r) (h' : P (.climb p e) r e' r') : P (.level p) ts e' r' := by
  obtain ⟨n, h, h'⟩ := h.both h'
  exact ⟨n + 1, by simp [parse, h, h']⟩

theorem P.binary {p q : Nat} {s : Sym} {a b e : Expr} {ts r r' : List Tok} (hs : s.prec = some q) (hp : p ≤ q) (h : P (.level (q + 1)) ts b r)
    (h' : P (.climb p (.bin s a b)) r e r') : P (.climb p a) (.sym s :: ts) e r' := by
  obtain ⟨n, h, h'⟩ := h.both h'
  exact ⟨n + 1, by simp [parse, hs, hp, h, h']⟩

/-- Does a token end operands of operators that bind at least this strongly? -/
def ends (p : Nat) : List Tok → Bool
  | .sym s :: _ =>
    match s.prec with
    | some q => decide (q < p)
    | none => true
  | _ => true

theorem P.noMore {p : Nat} (a : Expr) {ts : List Tok} (h : ends p ts = true) : P (.climb p a) ts a ts := by
  refine ⟨1, ?_⟩
  cases ts with
  | nil => simp [parse]
  | cons t ts =>
    cases t
    case sym s =>
      simp only [ends] at h
      cases hs : s.prec with
      | none => simp [parse, hs]
      | some q =>
        rw [hs] at h
        have : ¬ p ≤ q := by simpa using h
        simp [parse, hs, this]
    all_goals simp [parse]

theorem P.single {ts r : List Tok} {e : Expr} (h : P (.level 1) ts e r) (h1 : r.head? ≠ some .quest) (h2 : r.head? ≠ some (.sym .assign)) : P .single ts e r := by
  obtain ⟨n, h⟩ := h
  refine ⟨n + 1, ?_⟩
  cases r with
  | nil => simp [parse, h]
  | cons t r =>
    cases t
    case quest => exact absurd rfl h1
    case sym s =>
      cases s
      case assign => exact absurd rfl h2
      all_goals simp [parse, h]
    all_goals simp [parse, h]

theorem P.cond {ts r r' r'' : List Tok} {c a b : Expr} (hc : P (.level 1) ts c (.quest :: r)) (ha : P .full r a (.colon :: r')) (hb : P .single r' b r'') : P .single ts (.cond c a b) r'' := by
  obtain ⟨n, hc, ha⟩ := hc.both ha
  obtain ⟨k, hb⟩ := hb
  refine ⟨max n k + 1, ?_⟩
  simp [parse, parse_le (Nat.le_max_left n k) hc, parse_le (Nat.le_max_left n k) ha, parse_le (Nat.le_max_right n k) hb]

theorem P.full {ts r : List Tok} {e : Expr} (h : P .single ts e r) (h1 : r.head? ≠ some .comma) : P .full ts e r := by
  obtain ⟨n, h⟩ := h
  refine ⟨n + 1, ?_⟩
  cases r with
  | nil => simp [parse, h]
  | cons t r =>
    cases t
    case comma => exact absurd rfl h1
    all_goals simp [parse, h]

theorem P.seq {ts r r' : List Tok} {a b : Expr} (ha : P .single ts a (.comma :: r)) (hb : P .full r b r') : P .full ts (.seq a b) r' := by
  obtain ⟨n, ha, hb⟩ := ha.both hb
  exact ⟨n + 1, by simp [parse, ha, hb]⟩

/-! ### what follows an expression -/

theorem parse_nil (n : Nat) : parse n .unary [] = none ∧ (∀ p, parse n (.level p) [] = none) ∧ parse n .single [] = none ∧ parse n .full [] = none := by
  induction n with
  | zero => simp [parse]
  | succ n ih => simp [parse, ih]

theorem parse_nil_rest {n : Nat} {m : Mode} {e : Expr} {r : List Tok} (h : parse n m [] = some (e, r)) : r = [] := by
  have hn := parse_nil n
  cases m with
  | unary => simp [hn.1] at h
  | «postfix» f => cases n <;> simp [parse] at h; exact h.2
  | level p => simp [hn.2.1] at h
  | climb p a => cases n <;> simp [parse] at h; exact h.2
  | single => simp [hn.2.2.1] at h
  | full => simp [hn.2.2.2] at h

/-- The condition on what follows, for another mode. -/
theorem follow {r : List Tok} {t : Tok} {m m' : Mode} (h : r ≠ [] ∨ t = .rp ∨ (t = .comma ∧ m ≠ .full)) (hm : m' ≠ .full) :
    r ≠ [] ∨ t = .rp ∨ (t = .comma ∧ m' ≠ .full) := by
  rcases h with h | h | h
  · exact .inl h
  · exact .inr (.inl h)
  · exact .inr (.inr ⟨h.1, hm⟩)

theorem follow' {r : List Tok} {t : Tok} {m' : Mode} (h : r ≠ [] ∨ t = .rp ∨ t = .comma) (hm : m' ≠ .full) :
    r ≠ [] ∨ t = .rp ∨ (t = .comma ∧ m' ≠ .full) := by
  rcases h with h | h | h
  · exact .inl h
  · exact .inr (.inl h)
  · exact .inr (.inr ⟨h, hm⟩)

theorem followFull {r : List Tok} {t : Tok} {m' : Mode} (h : r ≠ [] ∨ t = .rp) :
    r ≠ [] ∨ t = .rp ∨ (t = .comma ∧ m' ≠ .full) := by
  rcases h with h | h
  · exact .inl h
  · exact .inr (.inl h)

/-- An expression that has been read to the end of the text is read in the same way if a closing parenthesis, or a comma, follows. -/
theorem parse_append : ∀ (n : Nat) (m : Mode) (ts r : List Tok) (e : Expr) (t : Tok) (s : List Tok), parse n m ts = some (e, r) →
    (r ≠ [] ∨ t = .rp ∨ (t = .comma ∧ m ≠ .full)) → parse n m (ts ++ t :: s) = some (e, r ++ t :: s) := by
  intro n
  induction n with
  | zero => intro m ts r e t s h; simp [parse] at h
  | succ n ih =>
    intro m ts r e t s h ht
    -- the part of the condition that does not depend on the mode
    have hts : ∀ {m' : Mode} {ts' : List Tok} {e' : Expr}, parse n m' ts' = some (e', r) → m' ≠ .full → m ≠ .full → (ts' ≠ [] ∨ t = .rp ∨ t = .comma) := by
      intro m' ts' e' h' _ hm
      rcases ht with ht | ht | ht
      · refine .inl fun h0 => ?_
        subst h0
        exact ht (parse_nil_rest h')
      · exact .inr (.inl ht)
      · exact .inr (.inr ht.1)
    cases m with
    | unary =>
      rw [parse.eq_def] at h ⊢
      dsimp only at h ⊢
      have hc : ∀ m', m' ≠ Mode.full → (r ≠ [] ∨ t = .rp ∨ (t = .comma ∧ m' ≠ .full)) := fun _ hm' => follow ht hm'
      cases ts with
      | nil => simp at h
      | cons t0 ts =>
        cases t0
        case sym s0 =>
          dsimp only [List.cons_append] at h ⊢
          split at h
          · rename_i hp
            split at h
            · rename_i e1 r1 he
              simp at h
              obtain ⟨rfl, rfl⟩ := h
              rw [if_pos hp, ih _ _ _ _ _ _ he (hc _ nofun)]
            · simp at h
          · simp at h
        case name a => exact ih _ _ _ _ _ _ h (hc _ nofun)
        case lp =>
          dsimp only [List.cons_append] at h ⊢
          split at h
          · rename_i e1 r1 he
            have := ih _ _ _ _ t s he (.inl (by simp))
            rw [this]
            exact ih _ _ _ _ _ _ h (hc _ nofun)
          · simp at h
        all_goals simp at h
    | «postfix» f =>
      rw [parse.eq_def] at h ⊢
      dsimp only at h ⊢
      have hc : ∀ m', m' ≠ Mode.full → (r ≠ [] ∨ t = .rp ∨ (t = .comma ∧ m' ≠ .full)) := fun _ hm' => follow ht hm'
      cases ts with
      | nil =>
        simp at h
        obtain ⟨rfl, rfl⟩ := h
        rcases ht with h | h | h
        · exact absurd rfl h
        · subst h; rfl
        · rw [h.1]; rfl
      | cons t0 ts =>
        cases t0
        case lp =>
          cases ts with
          | nil =>
            simp only [(parse_nil n).2.2.2] at h
            simp at h
          | cons t1 ts =>
            cases t1
            case rp => exact ih _ _ _ _ _ _ h (hc _ nofun)
            all_goals
              dsimp only [List.cons_append] at h ⊢
              split at h
              · rename_i e1 r1 he
                have := ih _ _ _ _ t s he (.inl (by simp))
                rw [List.cons_append] at this
                rw [this]
                exact ih _ _ _ _ _ _ h (hc _ nofun)
              · simp at h
        all_goals
          simp at h
          obtain ⟨rfl, rfl⟩ := h
          rfl
    | level p =>
      rw [parse.eq_def] at h ⊢
      dsimp only at h ⊢
      split at h
      · rename_i e1 r1 he
        have h1 : r1 ≠ [] ∨ t = .rp ∨ t = .comma := hts h nofun nofun
        rw [ih _ _ _ _ _ _ he (follow' h1 nofun)]
        exact ih _ _ _ _ _ _ h (follow ht nofun)
      · simp at h
    | climb p a =>
      rw [parse.eq_def] at h ⊢
      dsimp only at h ⊢
      cases ts with
      | nil =>
        simp at h
        obtain ⟨rfl, rfl⟩ := h
        rcases ht with h | h | h
        · exact absurd rfl h
        · subst h; rfl
        · rw [h.1]; rfl
      | cons t0 ts =>
        cases t0
        case sym s0 =>
          dsimp only [List.cons_append] at h ⊢
          split at h
          · rename_i q hq
            split at h
            · rename_i hp
              rw [if_pos hp]
              split at h
              · rename_i b r1 he
                have h1 : r1 ≠ [] ∨ t = .rp ∨ t = .comma := hts h nofun nofun
                rw [ih _ _ _ _ _ _ he (follow' h1 nofun)]
                exact ih _ _ _ _ _ _ h (follow ht nofun)
              · simp at h
            · rename_i hp
              rw [if_neg hp]
              simp at h
              obtain ⟨rfl, rfl⟩ := h
              rfl
          · simp at h
            obtain ⟨rfl, rfl⟩ := h
            rfl
        all_goals
          simp at h
          obtain ⟨rfl, rfl⟩ := h
          rfl
    | single =>
      rw [parse.eq_def] at h ⊢
      dsimp only at h ⊢
      have hc : ∀ m', m' ≠ Mode.full → (r ≠ [] ∨ t = .rp ∨ (t = .comma ∧ m' ≠ .full)) := fun _ hm' => follow ht hm'
      split at h
      · rename_i c r1 he
        rw [ih _ _ _ _ _ _ he (.inl (by simp))]
        dsimp only [List.cons_append]
        split at h
        · rename_i a r2 ha
          rw [ih _ _ _ _ _ _ ha (.inl (by simp))]
          dsimp only [List.cons_append]
          split at h
          · rename_i b r3 hb
            simp at h
            obtain ⟨rfl, rfl⟩ := h
            rw [ih _ _ _ _ _ _ hb (hc _ nofun)]
          · simp at h
        · simp at h
      · rename_i c r1 he
        rw [ih _ _ _ _ _ _ he (.inl (by simp))]
        dsimp only [List.cons_append]
        split at h
        · rename_i b r3 hb
          simp at h
          obtain ⟨rfl, rfl⟩ := h
          rw [ih _ _ _ _ _ _ hb (hc _ nofun)]
        · simp at h
      · rename_i c r1 h1 h2 he
        simp at h
        obtain ⟨rfl, rfl⟩ := h
        rw [ih _ _ _ _ _ _ he (hc _ nofun)]
        cases r1 with
        | nil =>
          rcases ht with h | h | h
          · exact absurd rfl h
          · subst h; rfl
          · rw [h.1]; rfl
        | cons t1 r1 =>
          cases t1
          case quest => exact absurd rfl (h1 _)
          case sym s1 =>
            cases s1
            case assign => exact absurd rfl (h2 _)
            all_goals rfl
          all_goals rfl
      · simp at h
    | full =>
      rw [parse.eq_def] at h ⊢
      dsimp only at h ⊢
      have hc : r ≠ [] ∨ t = .rp := by
        rcases ht with h | h | h
        · exact .inl h
        · exact .inr h
        · exact absurd rfl h.2
      split at h
      · rename_i a r1 he
        rw [ih _ _ _ _ _ _ he (.inl (by simp))]
        dsimp only [List.cons_append]
        split at h
        · rename_i b r3 hb
          simp at h
          obtain ⟨rfl, rfl⟩ := h
          rw [ih _ _ _ _ _ _ hb (followFull hc)]
        · simp at h
      · rename_i a r1 h1 he
        simp at h
        obtain ⟨rfl, rfl⟩ := h
        rw [ih _ _ _ _ _ _ he (followFull hc)]
        cases r1 with
        | nil =>
          rcases hc with h | h
          · exact absurd rfl h
          · subst h; rfl
        | cons t1 r1 =>
          cases t1
          case comma => exact absurd rfl (h1 _)
          all_goals rfl
      · simp at h

end Verif.Macro
