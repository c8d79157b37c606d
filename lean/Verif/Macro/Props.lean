import Verif.Macro.Lemmas2
/-!
# C116: the assertion macros work with every expression

Whatever expression a user writes as condition, the assertion macros parse as intended with every compiler: they fail exactly if the condition is false, evaluate it once, and evaluate the message only in the case of a
failure; switched off they evaluate nothing.  `CC_ASSUME` with gcc and `CC_LIKELY` with msvc lack parentheses.
-/
namespace Verif.Macro

/-- What a text means is unique. -/
theorem C116_deterministic (env : Env) (ts : List Tok) (v w : Ev) (hv : Does env ts v) (hw : Does env ts w) : v = w := by
  obtain ⟨n, e, h, rfl⟩ := hv
  obtain ⟨k, e', h', rfl⟩ := hw
  rw [(P.unique ⟨n, h⟩ ⟨k, h'⟩).1]

/-- A condition without comma operator outside of parentheses is one argument for the preprocessor, also in front of further arguments. -/
theorem C116_one_argument (x : List Tok) (e : Expr) (h : Arg x e) (hc : e.commaFree = true) :
    splitArgs 0 [] x = [x] ∧ ∀ rest, splitArgs 0 [] (x ++ .comma :: rest) = x :: splitArgs 0 [] rest := by
  obtain ⟨n, h⟩ := h
  obtain ⟨pre, hp, hq⟩ := parse_plain _ _ _ _ _ h
  rw [List.append_nil] at hp
  subst hp
  constructor
  · have := hq 0 [] [] (.inl hc)
    simpa [splitArgs] using this
  · intro rest
    rw [hq 0 [] _ (.inl hc)]
    simp [splitArgs]

/-- `a ? b, c : d` is an expression but not one argument. -/
theorem C116_comma_in_conditional : ∃ x e, Arg x e ∧ splitArgs 0 [] x ≠ [x] :=
  ⟨[.name (.user 0), .quest, .name (.user 1), .comma, .name (.user 2), .colon, .name (.user 3)], .cond (.name (.user 0)) (.seq (.name (.user 1)) (.name (.user 2))) (.name (.user 3)),
    ⟨10, by decide +kernel⟩, by decide +kernel⟩

example : splitArgs 0 [] [.name (.user 0), .lp, .name (.user 1), .comma, .name (.user 2), .rp, .comma, .name .text] =
    [[.name (.user 0), .lp, .name (.user 1), .comma, .name (.user 2), .rp], [.name .text]] := by decide +kernel

/-! ### assertions -/

theorem bind_assoc (x : Ev) (f g : Int → Ev) : (x.bind f).bind g = x.bind fun v => (f v).bind g := by
  cases x with
  | mk t o => cases o with
    | error e => rfl
    | ok v =>
      simp only [Ev.bind]
      split <;> simp_all

theorem pure_bind (v : Int) (f : Int → Ev) : (Ev.pure v).bind f = f v := by simp [Ev.bind, Ev.pure]

theorem bind_pure (x : Ev) : x.bind Ev.pure = x := by
  cases x with
  | mk t o => cases o <;> simp [Ev.bind, Ev.pure]

theorem unlikely_does {c : Compiler} {x : List Tok} {e : Expr} (h : Arg x e) (r : List Tok) :
    ∃ u, P (.level 1) (unlikely c ([.sym .not, .lp] ++ (x ++ [.rp])) ++ .quest :: r) u (.quest :: r) ∧ ∀ env, eval env u = (eval env e).bind fun v => .pure (unop .not v) := by
  have hn : Arg ([.sym .not, .lp] ++ (x ++ [.rp])) (.un .not (.paren e)) := by
    have : P .single ([.sym .not, .lp] ++ (x ++ [.rp])) (.un .not (.paren e)) [] :=
      P.singleOperand (P.prefix rfl (h.inParens (s := []) (by simp))) rfl
    exact this
  have hx : ∀ v, ∃ u, P (.level 1) ([.name .expect, .lp, .lp] ++ (([.sym .not, .lp] ++ (x ++ [.rp])) ++ [.rp, .comma, .name (.num v), .rp]) ++ .quest :: r) u (.quest :: r) ∧
      ∀ env, eval env u = (eval env e).bind fun v => .pure (unop .not v) := by
    intro v
    refine ⟨_, P.levelOperand (hn.expect (by simp)) rfl, fun env => ?_⟩
    simp [eval, evalCall, evalName, pure_bind, bind_pure, bind_assoc]
  cases c with
  | msvc =>
    refine ⟨.un .not (.paren e), ?_, fun env => rfl⟩
    have : unlikely .msvc ([.sym .not, .lp] ++ (x ++ [.rp])) ++ .quest :: r = .sym .not :: .lp :: (x ++ .rp :: .quest :: r) := by simp [unlikely]
    rw [this]
    exact P.levelOperand (P.prefix rfl (h.inParens (by simp))) rfl
  | clang => exact hx 0
  | gcc => exact hx 0

theorem debugBreak_does (s : List Tok) (hs : closes s = true) : ∃ u, P .single (debugBreak ++ s) u s ∧ ∀ env, ∃ v, eval env u = .pure v := by
  have h : P .unary (debugBreak ++ s) (.paren (.cond (.call0 (.name .debugger)) (.un .castVoid (.call (.name .raise) (.name (.num 5)))) (.call (.name .void_) (.name (.num 0))))) s := by
    simp only [debugBreak, List.cons_append, List.nil_append, List.append_assoc]
    refine P.paren (P.full (P.cond (P.levelOperand (P.name (P.call0 (P.operand _ (by simp)))) rfl) (P.full (P.singleOperand (P.prefix rfl (P.name (P.call (P.full (P.literal rfl) (by simp)) (P.operand _ (by simp))))) rfl) (by simp))
      (P.singleOperand (P.void0 (by simp)) rfl)) (by simp)) (P.operand _ (closes_ends hs 1).2.2.2)
  refine ⟨_, P.singleOperand h hs, fun env => ⟨0, ?_⟩⟩
  simp [eval, evalCall0, evalCall, evalName, pure_bind, unop]

theorem executeAssert_does (c : Compiler) (x m s : List Tok) (e em : Expr) (h : Arg x e) (hm : Arg m em) (hs : s.head? ≠ some .lp) :
    ∃ u, P .unary (executeAssert c x m ++ s) (.paren u) s ∧ ∀ env, eval env u = checked (eval env e) (eval env em) := by
  simp only [executeAssert, List.append_assoc, List.cons_append, List.nil_append]
  obtain ⟨u, hu, hu'⟩ := unlikely_does (c := c) h ([.lp, .name .assertionFailed, .lp, .name .text, .comma, .name .text, .comma, .name .text, .comma] ++
      (m ++ ([.comma, .name (.num 44), .rp, .comma] ++ (debugBreak ++ ([.comma, .name .performAbort, .lp, .rp, .rp, .colon] ++ (void0 ++ ([.rp] ++ s)))))))
  simp only [List.append_assoc, List.cons_append, List.nil_append] at hu
  obtain ⟨d, hd, hd'⟩ := debugBreak_does (.comma :: .name .performAbort :: .lp :: .rp :: .rp :: .colon :: (void0 ++ .rp :: s)) rfl
  refine ⟨_, P.paren (P.full (P.cond hu (P.full (P.singleOperand (P.paren (P.seq (P.singleOperand (P.name (P.call (P.seq (P.literal rfl) (P.seq (P.literal rfl) (P.seq (P.literal rfl)
    (P.seq (hm.before (.inr rfl)) (P.full (P.literal rfl) (by simp)))))) (P.operand _ (by simp)))) rfl) (P.seq hd (P.full (P.singleOperand (P.name (P.call0 (P.operand _ (by simp)))) rfl) (by simp)))) (P.operand _ (by simp))) rfl) (by simp))
    (P.singleOperand (P.void0 (by simp)) rfl)) (by simp)) (P.operand _ hs), fun env => ?_⟩
  obtain ⟨v, hv⟩ := hd' env
  simp only [eval, hu', hv, bind_assoc, pure_bind, checked]
  congr 1
  funext w
  by_cases hw : w = 0 <;> simp [hw, unop, ofBool, evalName, evalCall, evalCall0, pure_bind, bind_assoc]

theorem does_of_unary {ts : List Tok} {u : Expr} (h : P .unary ts u []) (env : Env) : Does env ts (eval env u) := by
  obtain ⟨n, h⟩ := P.full (P.singleOperand h rfl) (by simp)
  exact ⟨n, u, h, rfl⟩

theorem executeAssert_ok (c : Compiler) (x m : List Tok) (e em : Expr) (h : Arg x e) (hm : Arg m em) (env : Env) :
    Does env (executeAssert c x m) (checked (eval env e) (eval env em)) := by
  obtain ⟨u, hu, hu'⟩ := executeAssert_does c x m [] e em h hm (by simp)
  rw [List.append_nil] at hu
  have := does_of_unary hu env
  rw [← hu' env]
  exact this

theorem unused_ok (x : List Tok) (e : Expr) (h : Arg x e) (env : Env) : Does env (unused x) nothing := by
  have : P .unary (unused x) (.un .castVoid (.paren (.call (.name .sizeof_) (.paren e)))) [] := by
    simp only [unused, List.append_assoc, List.cons_append, List.nil_append]
    refine P.prefix rfl (P.paren (P.full (P.singleOperand (P.name (P.call (P.full (P.singleOperand (h.inParens (by simp)) rfl) (by simp)) (P.operand _ (by simp)))) rfl) (by simp)) (P.operand _ (by simp)))
  have := does_of_unary this env
  simpa [eval, pure_bind, unop, nothing] using this

theorem null_arg : Arg [.name .nullptr] (.name .nullptr) := ⟨10, by decide +kernel⟩

/-- `CC_RUNTIME_ASSERT_MSG`, in every configuration and with every compiler: the condition is evaluated once; if it is false the message is evaluated and the assertion fails. -/
theorem C116_runtime_assert (g : Config) (x m : List Tok) (e em : Expr) (h : Arg x e) (hm : Arg m em) (env : Env) :
    Does env (runtimeAssertMsg g x m) (checked (eval env e) (eval env em)) ∧ Does env (runtimeAssert g x) (checked (eval env e) nothing) :=
  ⟨executeAssert_ok _ _ _ _ _ h hm env, executeAssert_ok _ _ _ _ _ h null_arg env⟩

/-- `CC_ASSERT` and `CC_ASSERT_MSG`: the same if assertions are enabled; otherwise nothing is evaluated. -/
theorem C116_assert (g : Config) (x m : List Tok) (e em : Expr) (h : Arg x e) (hm : Arg m em) (env : Env) :
    Does env (assertMsg g x m) (if g.assertions then checked (eval env e) (eval env em) else nothing) ∧
    Does env (assert_ g x) (if g.assertions then checked (eval env e) nothing else nothing) := by
  unfold assertMsg assert_
  cases g.assertions
  · exact ⟨unused_ok _ _ h env, unused_ok _ _ h env⟩
  · exact ⟨executeAssert_ok _ _ _ _ _ h hm env, executeAssert_ok _ _ _ _ _ h null_arg env⟩

/-- An assertion that does not fail evaluates the names of its condition, in their order, and nothing else. -/
theorem C116_checked (c m : Ev) (v : Int) (hc : c.out = .ok v) :
    (v ≠ 0 → (checked c m).out = .ok 0 ∧ (checked c m).trace = c.trace) ∧
    (v = 0 → ∀ w, m.out = .ok w → (checked c m).out = .error .assert ∧ (checked c m).trace = c.trace ++ m.trace) := by
  obtain ⟨t, o⟩ := c
  obtain ⟨tm, om⟩ := m
  dsimp only at hc
  subst hc
  constructor
  · intro hv
    simp [checked, Ev.bind, hv, Ev.pure]
  · intro hv w hw
    dsimp only at hw
    subst hw
    simp [checked, Ev.bind, hv]

/-- The text `(x) && "text"` is one argument. -/
theorem and_text_arg {x : List Tok} {e : Expr} (h : Arg x e) : ∃ u, Arg ([.lp] ++ (x ++ [.rp, .sym .and, .name .text])) u ∧
    ∀ env, eval env u = (eval env e).bind fun v => .pure (ofBool (decide (v ≠ 0))) := by
  have : P .single ([.lp] ++ (x ++ [.rp, .sym .and, .name .text])) (.bin .and (.paren e) (.name .text)) [] :=
    P.single (P.level (h.inParens (by simp)) (P.binary (q := 2) rfl (by decide) (P.levelOperand (P.name (P.operand _ (by simp))) rfl) (P.noMore _ rfl))) (by simp) (by simp)
  refine ⟨_, this, fun env => ?_⟩
  simp only [eval, evalName]
  congr 1
  funext v
  by_cases hv : v = 0 <;> simp [hv, ofBool, pure_bind]

theorem Does.to {env : Env} {ts : List Tok} {v w : Ev} (h : Does env ts v) (hv : v = w) : Does env ts w := hv ▸ h

/-- An assertion whose condition is a check of a value. -/
theorem checked_as (c : Ev) (f : Int → Int) (g : Int → Ev) (h : ∀ v, g v = if f v = 0 then ⟨[], .error .assert⟩ else nothing) :
    checked (c.bind fun v => .pure (f v)) nothing = c.bind g := by
  simp only [checked, bind_assoc, pure_bind]
  congr 1
  funext v
  rw [h v]
  rfl

/-- `CC_CONTRACT`. -/
theorem C116_contract (g : Config) (x : List Tok) (e : Expr) (h : Arg x e) (env : Env) :
    Does env (contract g x) (if g.contracts && g.assertions then checked (eval env e) nothing else nothing) := by
  obtain ⟨u, hu, hu'⟩ := and_text_arg h
  unfold contract
  cases g.contracts
  · exact unused_ok _ _ hu env
  · refine ((C116_assert g _ _ _ _ hu null_arg env).2).to ?_
    rw [hu' env, Bool.true_and]
    congr 1
    refine (checked_as _ _ _ fun v => rfl).trans ?_
    unfold checked
    congr 1
    funext v
    by_cases hv : v = 0 <;> simp [hv, ofBool, nothing, pure_bind]

/-- Comparing a pointer with `nullptr` in an assertion. -/
theorem null_text_arg {x : List Tok} {e : Expr} {s : Sym} (hs : s = .eq ∨ s = .ne) (h : Arg x e) :
    ∃ u, Arg ([.lp] ++ (x ++ [.rp, .sym s, .name .nullptr, .sym .and, .name .text])) u ∧ ∀ env, eval env u = (eval env e).bind fun v => .pure (binop s v 0) := by
  have hp : s.prec = some 3 := by rcases hs with h | h <;> subst h <;> rfl
  have : P .single ([.lp] ++ (x ++ [.rp, .sym s, .name .nullptr, .sym .and, .name .text])) (.bin .and (.bin s (.paren e) (.name .nullptr)) (.name .text)) [] :=
    P.single (P.level (h.inParens (by simp)) (P.binary hp (by decide) (P.levelOperand (P.name (P.operand _ (by simp))) rfl)
      (P.binary (q := 2) rfl (by decide) (P.levelOperand (P.name (P.operand _ (by simp))) rfl) (P.noMore _ rfl)))) (by simp) (by simp)
  refine ⟨_, this, fun env => ?_⟩
  rcases hs with h | h
  all_goals
    subst h
    simp only [eval, evalName, bind_assoc, pure_bind]
    congr 1
    funext v
    by_cases hv : v = 0 <;> simp [hv, binop, ofBool]

/-- `CC_ASSERT_IS_NULL` and `CC_ASSERT_NOT_NULL`: the pointer is evaluated once. -/
theorem C116_null (g : Config) (x : List Tok) (e : Expr) (h : Arg x e) (env : Env) :
    Does env (assertIsNull g x) (if g.nulls && g.assertions then (eval env e).bind (fun p => if p = 0 then nothing else ⟨[], .error .assert⟩) else nothing) ∧
    Does env (assertNotNull g x) (if g.nulls && g.assertions then (eval env e).bind (fun p => if p = 0 then ⟨[], .error .assert⟩ else nothing) else nothing) := by
  obtain ⟨u, hu, hu'⟩ := null_text_arg (.inl rfl) h
  obtain ⟨w, hw, hw'⟩ := null_text_arg (.inr rfl) h
  unfold assertIsNull assertNotNull
  cases g.nulls
  · exact ⟨unused_ok _ _ hu env, unused_ok _ _ hw env⟩
  · constructor
    · refine ((C116_assert g _ _ _ _ hu null_arg env).2).to ?_
      rw [hu' env, Bool.true_and]
      congr 1
      refine checked_as _ _ _ fun v => ?_
      by_cases hv : v = 0 <;> simp [hv, binop, ofBool]
    · refine ((C116_assert g _ _ _ _ hw null_arg env).2).to ?_
      rw [hw' env, Bool.true_and]
      congr 1
      refine checked_as _ _ _ fun v => ?_
      by_cases hv : v = 0 <;> simp [hv, binop, ofBool]

/-! ### bounds -/

/-- `(lb) <= (var) && (var) < (ub)`. -/
theorem bounds_level {v l u : List Tok} {ev el eu : Expr} (hv : Arg v ev) (hl : Arg l el) (hu : Arg u eu) {s : List Tok} {e' : Expr} {r : List Tok} (hs : s.head? ≠ some .lp) (hs4 : ends 3 s = true)
    (h : P (.climb 1 (.bin .and (.bin .lessEq (.paren el) (.paren ev)) (.bin .less (.paren ev) (.paren eu)))) s e' r) : P (.level 1) (boundsText v l u ++ s) e' r := by
  have hs5 : ends 5 s = true := by
    cases s with
    | nil => rfl
    | cons t s =>
      cases t <;> first | rfl | skip
      rename_i y
      cases y <;> first | rfl | simp [ends, Sym.prec] at hs4
  simp only [boundsText, List.append_assoc, List.cons_append, List.nil_append]
  refine P.level (hl.inParens (by simp)) (P.binary (q := 4) rfl (by decide) (P.levelOperand (hv.inParens (by simp)) rfl) ?_)
  refine P.binary (q := 2) rfl (by decide) (P.level (hv.inParens (by simp)) (P.binary (q := 4) rfl (by decide) (P.levelOperand (hu.inParens hs) hs5) (P.noMore _ hs4))) h

/-- `CC_ASSERT_IN_BOUNDS(var, lb, ub)` with any three expressions: it fails exactly if the value is not in the bounds; the variable is evaluated again for the upper bound, and switched off nothing is evaluated. -/
theorem C116_in_bounds (g : Config) (v l u : List Tok) (ev el eu : Expr) (hv : Arg v ev) (hl : Arg l el) (hu : Arg u eu) (env : Env) (x y z : Int)
    (hx : (eval env ev).out = .ok x) (hy : (eval env el).out = .ok y) (hz : (eval env eu).out = .ok z) :
    Does env (assertInBounds g v l u) (if g.bounds && g.assertions then
      ⟨(eval env el).trace ++ ((eval env ev).trace ++ (if y ≤ x then (eval env ev).trace ++ (eval env eu).trace else [])), if y ≤ x ∧ x < z then .ok 0 else .error .assert⟩ else nothing) := by
  unfold assertInBounds
  cases g.bounds
  · have : Arg (boundsText v l u) _ := P.single (by
      have := bounds_level hv hl hu (s := []) (by simp) rfl (P.noMore _ rfl)
      simpa using this) (by simp) (by simp)
    exact unused_ok _ _ this env
  · have : Arg (boundsText v l u ++ [.sym .and, .name .text]) _ := P.single (bounds_level hv hl hu (by simp) rfl
      (P.binary (q := 2) rfl (by decide) (P.levelOperand (P.name (P.operand _ (by simp))) rfl) (P.noMore _ rfl))) (by simp) (by simp)
    refine ((C116_assert g _ _ _ _ this null_arg env).2).to ?_
    rw [Bool.true_and]
    congr 1
    cases hV : eval env ev with
    | mk tv ov =>
    cases hL : eval env el with
    | mk tl ol =>
    cases hU : eval env eu with
    | mk tu ou =>
    rw [hV] at hx; rw [hL] at hy; rw [hU] at hz
    dsimp only at hx hy hz
    subst hx hy hz
    by_cases h1 : y ≤ x
    · by_cases h2 : x < z
      · simp [eval, hV, hL, hU, checked, Ev.bind, Ev.pure, binop, ofBool, h1, h2, evalName]
      · simp [eval, hV, hL, hU, checked, Ev.bind, Ev.pure, binop, ofBool, h1, h2, nothing]
    · simp [eval, hV, hL, hU, checked, Ev.bind, Ev.pure, binop, ofBool, h1, nothing]

/-! ### assumptions and hints -/

/-- `CC_ASSUME(x)` with gcc: undefined if the text of the condition with `!` in front of it is true, in which `!` belongs to the first operand. -/
theorem C116_assume_gcc (x : List Tok) (e : Expr) (h : Arg x e) (env : Env) :
    Does env (assume .gcc x) ((eval env e.notInFront).bind fun v => if v ≠ 0 then ⟨[], .error .ub⟩ else .pure 0) := by
  have hn : Arg (.sym .not :: x) e.notInFront := P.notSingle h
  have : P .unary (assume .gcc x) (.paren (.cond (.paren e.notInFront) (.call0 (.name .unreachable)) (.call (.name .void_) (.name (.num 0))))) [] := by
    simp only [assume, List.append_assoc, List.cons_append, List.nil_append]
    refine P.paren (P.full (P.cond (P.levelOperand (hn.inParens (by simp)) rfl) (P.full (P.singleOperand (P.name (P.call0 (P.operand _ (by simp)))) rfl) (by simp))
      (P.singleOperand (P.void0 (by simp)) rfl)) (by simp)) (P.operand _ (by simp))
  refine (does_of_unary this env).to ?_
  simp [eval, evalCall0, evalCall, evalName, pure_bind]

/-- `CC_ASSUME`: undefined exactly if the condition is false, with msvc and clang, and with gcc if the condition has no operators but prefix operators outside of parentheses. The full statement has no condition on the compiler and the expression. -/
theorem C116_assume_partial (c : Compiler) (x : List Tok) (e : Expr) (h : Arg x e) (hc : c ≠ .gcc ∨ e.isOperand = true) (env : Env) :
    Does env (assume c x) (assumed (eval env e)) := by
  have hnc : Does env ([.name .assume, .lp] ++ (x ++ [.rp])) (assumed (eval env e)) := by
    have : P .unary ([.name .assume, .lp] ++ (x ++ [.rp])) (.call (.name .assume) e) [] := P.name (P.call h.beforeRp (P.operand _ (by simp)))
    refine (does_of_unary this env).to ?_
    have hq : ∀ a b, e ≠ .seq a b := by
      intro a b he
      subst he
      obtain ⟨n, h⟩ := h
      exact single_not_seq n _ _ _ _ h
    unfold assumed
    cases e
    case seq a b => exact absurd rfl (hq a b)
    all_goals rfl
  cases c with
  | msvc => exact hnc
  | clang => exact hnc
  | gcc =>
    have he : e.isOperand = true := by simpa using hc
    refine (C116_assume_gcc x e h env).to ?_
    rw [notInFront_operand he]
    simp only [eval, bind_assoc, pure_bind, assumed]
    congr 1
    funext v
    by_cases hv : v = 0 <;> simp [hv, unop, ofBool]

/-- With gcc `CC_ASSUME(a < b)` is undefined behaviour for `a = 1` and `b = 2`, with the other compilers it is not. -/
theorem C116_assume_fails : ∃ (env : Env) (x : List Tok) (e : Expr), Arg x e ∧ (∃ v, (eval env e).out = .ok v ∧ v ≠ 0) ∧
    Does env (assume .clang x) (assumed (eval env e)) ∧ (assumed (eval env e)).out = .ok 0 ∧ ∃ v, Does env (assume .gcc x) v ∧ v.out = .error .ub := by
  have h : Arg [.name (.user 0), .sym .less, .name (.user 1)] (.bin .less (.name (.user 0)) (.name (.user 1))) := ⟨10, by decide +kernel⟩
  refine ⟨fun n => .ok (n + 1), _, _, h, ⟨1, rfl, by decide⟩, C116_assume_partial .clang _ _ h (.inl nofun) _, rfl, _, C116_assume_gcc _ _ h _, rfl⟩

/-- `CC_LIKELY(x)` and `CC_UNLIKELY(x)` in parentheses, and `CC_CONDITION_LIKELY(x)` and `CC_CONDITION_UNLIKELY(x)`, mean `x` with every compiler. -/
theorem C116_likely (c : Compiler) (x : List Tok) (e : Expr) (h : Arg x e) (env : Env) :
    Does env (.lp :: (likely c x ++ [.rp])) (eval env e) ∧ Does env (.lp :: (unlikely c x ++ [.rp])) (eval env e) ∧
    Does env (conditionLikely c x) (eval env e) ∧ Does env (conditionUnlikely c x) (eval env e) := by
  have h0 : Does env (.lp :: (x ++ [.rp])) (eval env e) := does_of_unary (h.inParens (s := []) (by simp)) env
  have h1 : ∀ v, Does env (.lp :: (([.name .expect, .lp, .lp] ++ (x ++ [.rp, .comma, .name (.num v), .rp])) ++ [.rp])) (eval env e) := by
    intro v
    have : P .unary (.lp :: (([.name .expect, .lp, .lp] ++ (x ++ [.rp, .comma, .name (.num v), .rp])) ++ [.rp])) (.paren (.call (.name .expect) (.seq (.paren e) (.name (.num v))))) [] :=
      P.paren (P.full (P.singleOperand (h.expect (s := [.rp]) (by simp)) rfl) (by simp)) (P.operand _ (by simp))
    refine (does_of_unary this env).to ?_
    simp [eval, evalCall, evalName, pure_bind, bind_pure]
  cases c with
  | msvc => exact ⟨h0, h0, h0, h0⟩
  | clang =>
    refine ⟨h1 1, h1 0, ?_, ?_⟩
    · have := h1 1
      simpa [conditionLikely] using this
    · have := h1 0
      simpa [conditionUnlikely] using this
  | gcc =>
    refine ⟨h1 1, h1 0, ?_, ?_⟩
    · have := h1 1
      simpa [conditionLikely] using this
    · have := h1 0
      simpa [conditionUnlikely] using this

/-- With clang and gcc `CC_LIKELY(x)` is an operand: `!CC_LIKELY(x)` is the negation of `x`. -/
theorem C116_likely_operand_partial (c : Compiler) (hc : c ≠ .msvc) (x : List Tok) (e : Expr) (h : Arg x e) (env : Env) :
    Does env (.sym .not :: likely c x) ((eval env e).bind fun v => .pure (unop .not v)) := by
  have h1 : Does env (.sym .not :: ([.name .expect, .lp, .lp] ++ (x ++ [.rp, .comma, .name (.num 1), .rp]))) ((eval env e).bind fun v => .pure (unop .not v)) := by
    have h2 := h.expect (s := []) (v := 1) (by simp)
    rw [List.append_nil] at h2
    refine (does_of_unary (P.prefix rfl h2) env).to ?_
    simp [eval, evalCall, evalName, pure_bind, bind_pure]
  cases c with
  | msvc => exact absurd rfl hc
  | clang => exact h1
  | gcc => exact h1

/-- With msvc it is not: `!CC_LIKELY(a == b)` is false for `a = 2`, `b = 1`. -/
theorem C116_likely_fails : ∃ (env : Env) (x : List Tok) (e : Expr), Arg x e ∧ (eval env e).out = .ok 0 ∧ (∃ v, Does env (.sym .not :: likely .clang x) v ∧ v.out = .ok 1) ∧
    ∃ v, Does env (.sym .not :: likely .msvc x) v ∧ v.out = .ok 0 := by
  have h : Arg [.name (.user 1), .sym .eq, .name (.user 0)] (.bin .eq (.name (.user 1)) (.name (.user 0))) := ⟨10, by decide +kernel⟩
  refine ⟨fun n => .ok (n + 1), _, _, h, rfl, ⟨_, C116_likely_operand_partial .clang nofun _ _ h _, rfl⟩, _, ⟨10, .bin .eq (.un .not (.name (.user 1))) (.name (.user 0)), by decide +kernel, rfl⟩, rfl⟩

/-- Concrete: `CC_ASSERT(a = b ? c : d)` with gcc, all checks on, and `a || b && !c` as a contract. -/
example : Arg [.name (.user 0), .sym .assign, .name (.user 1), .quest, .name (.user 2), .colon, .name (.user 3)] (.assign (.name (.user 0)) (.cond (.name (.user 1)) (.name (.user 2)) (.name (.user 3)))) ∧
    Arg [.name (.user 0), .sym .or, .name (.user 1), .sym .and, .sym .not, .name (.user 2)] (.bin .or (.name (.user 0)) (.bin .and (.name (.user 1)) (.un .not (.name (.user 2))))) :=
  ⟨⟨10, by decide +kernel⟩, ⟨10, by decide +kernel⟩⟩

/-- Concrete: `CC_ASSERT_IN_BOUNDS(i, a + 1, n)` for `i = 5`, `a = 4`, `n = 5` fails after evaluating `a`, `i`, `i`, `n`. -/
example : ∃ v, Does (fun n => .ok (if n = 1 then 4 else 5)) (assertInBounds ⟨.msvc, true, true, true, true⟩ [.name (.user 0)] [.name (.user 1), .sym .plus, .name (.num 1)] [.name (.user 2)]) v ∧
    v.trace = [1, 0, 0, 2] ∧ v.out = .error .assert :=
  ⟨_, C116_in_bounds ⟨.msvc, true, true, true, true⟩ _ _ _ (.name (.user 0)) (.bin .plus (.name (.user 1)) (.name (.num 1))) (.name (.user 2)) ⟨10, by decide +kernel⟩ ⟨10, by decide +kernel⟩ ⟨10, by decide +kernel⟩ _ 5 5 5 rfl rfl rfl,
    rfl, rfl⟩

end Verif.Macro
