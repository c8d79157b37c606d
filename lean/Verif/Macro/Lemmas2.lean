import Verif.Macro.Lemmas
import Verif.Macro.Spec
/-! Negations in front of a text, arguments of macros, and the parts that the macros add. -/
namespace Verif.Macro

/-! ### `!` in front -/

theorem operand_shape : ∀ (n : Nat) (ts r : List Tok) (e : Expr), (parse n .unary ts = some (e, r) → e.isOperand = true) ∧
    (∀ f, f.isOperand = true → parse n (.postfix f) ts = some (e, r) → e.isOperand = true) := by
  intro n
  induction n with
  | zero => intro ts r e; simp [parse]
  | succ n ih =>
    intro ts r e
    constructor
    · intro h
      rw [parse.eq_def] at h
      dsimp only at h
      split at h
      · split at h
        · split at h
          · simp at h; rw [← h.1]; rfl
          · simp at h
        · simp at h
      · exact (ih _ _ _).2 _ rfl h
      · split at h
        · exact (ih _ _ _).2 _ rfl h
        · simp at h
      · simp at h
    · intro f hf h
      rw [parse.eq_def] at h
      dsimp only at h
      split at h
      · exact (ih _ _ _).2 _ rfl h
      · split at h
        · exact (ih _ _ _).2 _ rfl h
        · simp at h
      · simp at h; rw [← h.1]; exact hf

theorem notInFront_operand {e : Expr} (h : e.isOperand = true) : e.notInFront = .un .not e := by
  cases e <;> first | rfl | simp [Expr.isOperand] at h

theorem climb_not : ∀ (n p : Nat) (a e : Expr) (ts r : List Tok), parse n (.climb p a) ts = some (e, r) → parse n (.climb p a.notInFront) ts = some (e.notInFront, r) := by
  intro n
  induction n with
  | zero => intro p a e ts r h; simp [parse] at h
  | succ n ih =>
    intro p a e ts r h
    rw [parse.eq_def] at h ⊢
    dsimp only at h ⊢
    split at h
    · split at h
      · split at h
        · rename_i hp
          split at h
          · rename_i he
            rw [if_pos hp]
            exact ih _ _ _ _ _ h
          · simp at h
        · rename_i hp
          rw [if_neg hp]
          simp at h
          rw [h.1, h.2]
      · simp at h
        rw [h.1, h.2]
    · simp at h
      rw [h.1, h.2]

theorem P.notLevel {p : Nat} {ts r : List Tok} {e : Expr} (h : P (.level p) ts e r) : P (.level p) (.sym .not :: ts) e.notInFront r := by
  obtain ⟨n, h⟩ := h
  cases n with
  | zero => simp [parse] at h
  | succ n =>
    rw [parse.eq_def] at h
    dsimp only at h
    split at h
    · rename_i e1 r1 he
      refine P.level (P.prefix rfl ⟨n, he⟩) ⟨n, ?_⟩
      rw [← notInFront_operand ((operand_shape n _ _ _).1 he)]
      exact climb_not _ _ _ _ _ _ h
    · simp at h

/-- `!` in front of a text negates the first operand only. -/
theorem P.notSingle {ts r : List Tok} {e : Expr} (h : P .single ts e r) : P .single (.sym .not :: ts) e.notInFront r := by
  obtain ⟨n, h⟩ := h
  cases n with
  | zero => simp [parse] at h
  | succ n =>
    rw [parse.eq_def] at h
    dsimp only at h
    split at h
    · rename_i c r1 he
      split at h
      · rename_i a r2 ha
        split at h
        · rename_i b r3 hb
          simp at h
          rw [← h.1, ← h.2]
          exact P.cond (P.notLevel ⟨n, he⟩) ⟨n, ha⟩ ⟨n, hb⟩
        · simp at h
      · simp at h
    · rename_i c r1 he
      split at h
      · rename_i b r3 hb
        simp at h
        rw [← h.1, ← h.2]
        obtain ⟨k, hk, hk'⟩ := P.both (P.notLevel ⟨n, he⟩) ⟨n, hb⟩
        exact ⟨k + 1, by simp [parse, hk, hk', Expr.notInFront]⟩
      · simp at h
    · rename_i c r1 h1 h2 he
      simp at h
      rw [← h.1, ← h.2]
      refine P.single (P.notLevel ⟨n, he⟩) ?_ ?_
      · intro h
        cases r1 with
        | nil => simp at h
        | cons t r1 =>
          simp at h
          subst h
          exact h1 _ rfl
      · intro h
        cases r1 with
        | nil => simp at h
        | cons t r1 =>
          simp at h
          subst h
          exact h2 _ rfl
    · simp at h

/-! ### arguments -/

theorem splitArgs_other {d : Nat} {cur ts : List Tok} {t : Tok} (h1 : t ≠ .comma ∨ d ≠ 0) (h2 : t ≠ .lp) (h3 : t ≠ .rp) :
    splitArgs d cur (t :: ts) = splitArgs d (cur ++ [t]) ts := by
  cases t <;> cases d <;> simp_all [splitArgs]

theorem splitArgs_lp {d : Nat} {cur ts : List Tok} : splitArgs d cur (.lp :: ts) = splitArgs (d + 1) (cur ++ [.lp]) ts := by
  cases d <;> simp [splitArgs]

theorem splitArgs_rp {d : Nat} {cur ts : List Tok} : splitArgs (d + 1) cur (.rp :: ts) = splitArgs d (cur ++ [.rp]) ts := by
  simp [splitArgs]

/-- Tokens that the preprocessor adds to the current argument, all of them. -/
def Plain (b : Bool) (pre : List Tok) : Prop := ∀ d cur s, (b = true ∨ d ≠ 0) → splitArgs d cur (pre ++ s) = splitArgs d (cur ++ pre) s

theorem Plain.nil {b : Bool} : Plain b [] := fun d cur s _ => by simp

theorem Plain.weaken {b : Bool} {l : List Tok} (h : Plain b l) : Plain false l := fun d cur s hd => h d cur s (by simp at hd; exact .inr hd)

theorem Plain.append {b : Bool} {l k : List Tok} (h : Plain b l) (h' : Plain b k) : Plain b (l ++ k) := fun d cur s hd => by
  rw [List.append_assoc, h d cur _ hd, h' d _ s hd, List.append_assoc]

theorem Plain.tok {b : Bool} {t : Tok} (h1 : t ≠ .comma ∨ b = false) (h2 : t ≠ .lp) (h3 : t ≠ .rp) : Plain b [t] := fun d cur s hd => by
  refine splitArgs_other ?_ h2 h3
  rcases h1 with h | h
  · exact .inl h
  · subst h; simp at hd; exact .inr hd

theorem Plain.parens {b : Bool} {l : List Tok} (h : Plain false l) : Plain b (.lp :: (l ++ [.rp])) := fun d cur s _ => by
  rw [List.cons_append, splitArgs_lp, List.append_assoc, h _ _ _ (.inr (by simp)), List.singleton_append, splitArgs_rp]
  simp

theorem Plain.of {b b' : Bool} {l : List Tok} (h : Plain b l) (hb : b' = true → b = true) : Plain b' l := fun d cur s hd => h d cur s (by
  rcases hd with hd | hd
  · exact .inl (hb hd)
  · exact .inr hd)

theorem commaFree_operand {e : Expr} (h : e.isOperand = true) : e.commaFree = true := by
  cases e <;> first | rfl | simp [Expr.isOperand] at h

theorem commaFree_climb : ∀ (n p : Nat) (a e : Expr) (ts r : List Tok), parse n (.climb p a) ts = some (e, r) → e.commaFree = true → a.commaFree = true := by
  intro n
  induction n with
  | zero => intro p a e ts r h; simp [parse] at h
  | succ n ih =>
    intro p a e ts r h he
    rw [parse.eq_def] at h
    dsimp only at h
    split at h
    · split at h
      · split at h
        · split at h
          · have := ih _ _ _ _ _ h he
            simp [Expr.commaFree] at this
            exact this.1
          · simp at h
        · simp at h
          rw [h.1]; exact he
      · simp at h
        rw [h.1]; exact he
    · simp at h
      rw [h.1]; exact he

theorem parse_plain : ∀ (n : Nat) (m : Mode) (ts r : List Tok) (e : Expr), parse n m ts = some (e, r) → ∃ pre, ts = pre ++ r ∧ Plain e.commaFree pre := by
  intro n
  induction n with
  | zero => intro m ts r e h; simp [parse] at h
  | succ n ih =>
    intro m ts r e h
    cases m with
    | unary =>
      rw [parse.eq_def] at h
      dsimp only at h
      split at h
      · rename_i s r1
        split at h
        · split at h
          · rename_i he
            simp at h
            obtain ⟨pre, hp, hq⟩ := ih _ _ _ _ he
            refine ⟨[.sym s] ++ pre, by rw [hp, h.2]; rfl, ?_⟩
            exact Plain.append (Plain.tok (.inl nofun) nofun nofun) (hq.of fun _ => commaFree_operand ((operand_shape _ _ _ _).1 he))
          · simp at h
        · simp at h
      · rename_i a r1
        obtain ⟨pre, hp, hq⟩ := ih _ _ _ _ h
        exact ⟨[.name a] ++ pre, by rw [hp]; rfl, Plain.append (Plain.tok (.inl nofun) nofun nofun) hq⟩
      · split at h
        · rename_i he
          obtain ⟨pre, hp, hq⟩ := ih _ _ _ _ he
          obtain ⟨pre', hp', hq'⟩ := ih _ _ _ _ h
          refine ⟨(.lp :: (pre ++ [.rp])) ++ pre', by rw [hp, hp']; simp, ?_⟩
          exact Plain.append (Plain.parens hq.weaken) hq'
        · simp at h
      · simp at h
    | «postfix» f =>
      rw [parse.eq_def] at h
      dsimp only at h
      split at h
      · obtain ⟨pre', hp', hq'⟩ := ih _ _ _ _ h
        refine ⟨(.lp :: ([] ++ [.rp])) ++ pre', by rw [hp']; simp, ?_⟩
        exact Plain.append (Plain.parens (Plain.nil (b := false))) hq'
      · split at h
        · rename_i he
          obtain ⟨pre, hp, hq⟩ := ih _ _ _ _ he
          obtain ⟨pre', hp', hq'⟩ := ih _ _ _ _ h
          refine ⟨(.lp :: (pre ++ [.rp])) ++ pre', by rw [hp, hp']; simp, ?_⟩
          exact Plain.append (Plain.parens hq.weaken) hq'
        · simp at h
      · simp at h
        exact ⟨[], by rw [h.2]; rfl, Plain.nil⟩
    | level p =>
      rw [parse.eq_def] at h
      dsimp only at h
      split at h
      · rename_i he
        obtain ⟨pre, hp, hq⟩ := ih _ _ _ _ he
        obtain ⟨pre', hp', hq'⟩ := ih _ _ _ _ h
        exact ⟨pre ++ pre', by rw [hp, hp']; simp, Plain.append (hq.of fun _ => commaFree_operand ((operand_shape _ _ _ _).1 he)) hq'⟩
      · simp at h
    | climb p a =>
      rw [parse.eq_def] at h
      dsimp only at h
      split at h
      · rename_i s r1
        split at h
        · split at h
          · split at h
            · rename_i he
              obtain ⟨pre, hp, hq⟩ := ih _ _ _ _ he
              obtain ⟨pre', hp', hq'⟩ := ih _ _ _ _ h
              refine ⟨[.sym s] ++ (pre ++ pre'), by rw [hp, hp']; simp, ?_⟩
              refine Plain.append (Plain.tok (.inl nofun) nofun nofun) (Plain.append (hq.of fun hc => ?_) hq')
              have := commaFree_climb _ _ _ _ _ _ h hc
              simp [Expr.commaFree] at this
              exact this.2
            · simp at h
          · simp at h
            exact ⟨[], by rw [← h.2]; rfl, Plain.nil⟩
        · simp at h
          exact ⟨[], by rw [← h.2]; rfl, Plain.nil⟩
      · simp at h
        exact ⟨[], by rw [h.2]; rfl, Plain.nil⟩
    | single =>
      rw [parse.eq_def] at h
      dsimp only at h
      split at h
      · rename_i he
        split at h
        · rename_i ha
          split at h
          · rename_i hb
            simp at h
            obtain ⟨p1, hp1, hq1⟩ := ih _ _ _ _ he
            obtain ⟨p2, hp2, hq2⟩ := ih _ _ _ _ ha
            obtain ⟨p3, hp3, hq3⟩ := ih _ _ _ _ hb
            refine ⟨p1 ++ ([.quest] ++ (p2 ++ ([.colon] ++ p3))), by rw [hp1, hp2, hp3, h.2]; simp, ?_⟩
            rw [← h.1]
            simp only [Expr.commaFree]
            refine Plain.append (hq1.of ?_) (Plain.append (Plain.tok (.inl nofun) nofun nofun)
              (Plain.append (hq2.of ?_) (Plain.append (Plain.tok (.inl nofun) nofun nofun) (hq3.of ?_)))) <;> simp +contextual
          · simp at h
        · simp at h
      · rename_i he
        split at h
        · rename_i hb
          simp at h
          obtain ⟨p1, hp1, hq1⟩ := ih _ _ _ _ he
          obtain ⟨p3, hp3, hq3⟩ := ih _ _ _ _ hb
          refine ⟨p1 ++ ([.sym .assign] ++ p3), by rw [hp1, hp3, h.2]; simp, ?_⟩
          rw [← h.1]
          simp only [Expr.commaFree]
          refine Plain.append (hq1.of ?_) (Plain.append (Plain.tok (.inl nofun) nofun nofun) (hq3.of ?_)) <;> simp +contextual
        · simp at h
      · rename_i he
        simp at h
        obtain ⟨p1, hp1, hq1⟩ := ih _ _ _ _ he
        exact ⟨p1, by rw [hp1, h.2], by rw [← h.1]; exact hq1⟩
      · simp at h
    | full =>
      rw [parse.eq_def] at h
      dsimp only at h
      split at h
      · rename_i he
        split at h
        · rename_i hb
          simp at h
          obtain ⟨p1, hp1, hq1⟩ := ih _ _ _ _ he
          obtain ⟨p3, hp3, hq3⟩ := ih _ _ _ _ hb
          refine ⟨p1 ++ ([.comma] ++ p3), by rw [hp1, hp3, h.2]; simp, ?_⟩
          rw [← h.1]
          exact Plain.append hq1.weaken (Plain.append (Plain.tok (.inr rfl) nofun nofun) hq3.weaken)
        · simp at h
      · rename_i he
        simp at h
        obtain ⟨p1, hp1, hq1⟩ := ih _ _ _ _ he
        exact ⟨p1, by rw [hp1, h.2], by rw [← h.1]; exact hq1⟩
      · simp at h

theorem climb_not_seq : ∀ (n p : Nat) (a e : Expr) (ts r : List Tok), parse n (.climb p a) ts = some (e, r) → (∀ x y, a ≠ .seq x y) → ∀ x y, e ≠ .seq x y := by
  intro n
  induction n with
  | zero => intro p a e ts r h; simp [parse] at h
  | succ n ih =>
    intro p a e ts r h ha
    rw [parse.eq_def] at h
    dsimp only at h
    split at h
    · split at h
      · split at h
        · split at h
          · exact ih _ _ _ _ _ h nofun
          · simp at h
        · simp at h
          rw [← h.1]; exact ha
      · simp at h
        rw [← h.1]; exact ha
    · simp at h
      rw [← h.1]; exact ha

/-- One argument has no comma operator. -/
theorem single_not_seq (n : Nat) (ts r : List Tok) (a b : Expr) (h : parse n .single ts = some (.seq a b, r)) : False := by
  cases n with
  | zero => simp [parse] at h
  | succ n =>
    rw [parse.eq_def] at h
    dsimp only at h
    split at h
    · split at h
      · split at h <;> simp at h
      · simp at h
    · split at h <;> simp at h
    · rename_i c r1 h1 h2 he
      simp at h
      cases n with
      | zero => simp [parse] at he
      | succ n =>
        rw [parse.eq_def] at he
        dsimp only at he
        split at he
        · rename_i hu
          refine climb_not_seq _ _ _ _ _ _ he ?_ a b h.1
          intro x y hx
          have := (operand_shape _ _ _ _).1 hu
          rw [hx] at this
          simp [Expr.isOperand] at this
        · simp at he
    · simp at h

/-! ### the parts that the macros add -/

theorem Arg.before {x s : List Tok} {e : Expr} {t : Tok} (h : Arg x e) (ht : t = .rp ∨ t = .comma) : P .single (x ++ t :: s) e (t :: s) := by
  obtain ⟨n, h⟩ := h
  refine ⟨n, ?_⟩
  have := parse_append n _ _ _ _ t s h (.inr (by
    rcases ht with h | h
    · exact .inl h
    · exact .inr ⟨h, nofun⟩))
  simpa using this

theorem Arg.beforeRp {x s : List Tok} {e : Expr} (h : Arg x e) : P .full (x ++ .rp :: s) e (.rp :: s) := P.full (h.before (.inl rfl)) (by simp)

/-- An operand alone. -/
theorem P.levelOperand {p : Nat} {ts r : List Tok} {e : Expr} (h : P .unary ts e r) (hr : ends p r = true) : P (.level p) ts e r := P.level h (P.noMore _ hr)

/-- What ends an expression whatever came before. -/
def closes : List Tok → Bool
  | [] => true
  | .rp :: _ => true
  | .comma :: _ => true
  | .colon :: _ => true
  | _ => false

theorem closes_ends {r : List Tok} (h : closes r = true) (p : Nat) : ends p r = true ∧ r.head? ≠ some .quest ∧ r.head? ≠ some (.sym .assign) ∧ r.head? ≠ some .lp := by
  cases r with
  | nil => simp [ends]
  | cons t r => cases t <;> simp [closes] at h <;> simp [ends]

theorem P.singleOperand {ts r : List Tok} {e : Expr} (h : P .unary ts e r) (hr : closes r = true) : P .single ts e r :=
  P.single (P.levelOperand h (closes_ends hr 1).1) (closes_ends hr 1).2.1 (closes_ends hr 1).2.2.1

/-- `(x)` as operand. -/
theorem Arg.inParens {x s : List Tok} {e : Expr} (h : Arg x e) (hs : s.head? ≠ some .lp) : P .unary (.lp :: (x ++ .rp :: s)) (.paren e) s :=
  P.paren h.beforeRp (P.operand _ hs)

theorem P.void0 {s : List Tok} (hs : s.head? ≠ some .lp) : P .unary (void0 ++ s) (.call (.name .void_) (.name (.num 0))) s := by
  refine P.name (P.call (P.full (P.singleOperand (P.name (P.operand _ (by simp))) rfl) (by simp)) (P.operand _ hs))

theorem P.literal {a : Name} {s : List Tok} (hs : closes s = true) : P .single (.name a :: s) (.name a) s :=
  P.singleOperand (P.name (P.operand _ (closes_ends hs 1).2.2.2)) hs

/-- `__builtin_expect((x), v)`. -/
theorem Arg.expect {x s : List Tok} {e : Expr} {v : Int} (h : Arg x e) (hs : s.head? ≠ some .lp) :
    P .unary ([.name .expect, .lp, .lp] ++ (x ++ [.rp, .comma, .name (.num v), .rp]) ++ s) (.call (.name .expect) (.seq (.paren e) (.name (.num v)))) s := by
  simp only [List.cons_append, List.nil_append, List.append_assoc]
  refine P.name (P.call (P.seq (P.singleOperand (h.inParens (by simp)) rfl) (P.full (P.literal rfl) (by simp))) (P.operand _ hs))

end Verif.Macro
