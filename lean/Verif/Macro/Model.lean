import Verif.Common
/-!
# The assertion macros as text

Model of the macros of `/repo/src/clean-core/assert.hh`, `assertf.hh` and `macros.hh` that take expressions: a macro replaces tokens by tokens, and the compiler then parses the result.

The tokens are names and literals, operators, parentheses, commas and those of `?:`; the expressions are those of C++ that can be made of them: calls, prefix operators, binary operators,
`?:`, `=` and the comma operator.  Casts to `void` are a prefix operator.  Subscripts, members, templates, lambdas and the other casts are not modelled.
Values are integers, a pointer is its address and a text literal some address that is not 0.  What a user's names stand for does not change while an expression is evaluated; every evaluation of one is recorded, so
that the effect of a macro on how often and in which order they are evaluated can be seen.
-/
namespace Verif.Macro

/-- Operators. -/
inductive Sym where
  | not | minus | star | plus | less | lessEq | eq | ne | and | or | assign
  /-- `(void)` -/
  | castVoid
deriving DecidableEq, Repr

/-- Names and literals. -/
inductive Name where
  /-- a name of the user: a variable or a function -/
  | user (n : Nat)
  | num (v : Int)
  /-- a string literal, `CC_PRETTY_FUNC`, `__FILE__` or the text of a condition -/
  | text
  | nullptr
  | sizeof_
  /-- `void`, in `void(0)` -/
  | void_
  /-- `__builtin_expect` -/
  | expect
  /-- `__builtin_unreachable` -/
  | unreachable
  /-- `__assume` of msvc, `__builtin_assume` of clang -/
  | assume
  /-- `::cc::detail::assertion_failed` -/
  | assertionFailed
  /-- `::cc::detail::perform_abort` -/
  | performAbort
  /-- `::cc::detail::is_debugger_connected` -/
  | debugger
  /-- `::raise`, `__debugbreak` -/
  | raise
deriving DecidableEq, Repr

/-- Tokens. -/
inductive Tok where
  | name (n : Name)
  | sym (s : Sym)
  | lp | rp | comma | quest | colon
deriving DecidableEq, Repr

/-- Is it a prefix operator? -/
def Sym.prefix : Sym → Bool
  | .not => true
  | .minus => true
  | .star => true
  | .plus => true
  | .castVoid => true
  | _ => false

/-- How strongly a binary operator binds. -/
def Sym.prec : Sym → Option Nat
  | .star => some 6
  | .plus => some 5
  | .minus => some 5
  | .less => some 4
  | .lessEq => some 4
  | .eq => some 3
  | .ne => some 3
  | .and => some 2
  | .or => some 1
  | _ => none

/-- Expressions, with their parentheses. -/
inductive Expr where
  | name (n : Name)
  | paren (e : Expr)
  | call0 (f : Expr)
  /-- a call; several arguments are a `seq` -/
  | call (f : Expr) (args : Expr)
  | un (s : Sym) (e : Expr)
  | bin (s : Sym) (a b : Expr)
  | cond (c a b : Expr)
  | assign (a b : Expr)
  | seq (a b : Expr)
deriving DecidableEq, Repr

/-- What the parser reads. -/
inductive Mode where
  /-- operands with prefix operators -/
  | unary
  /-- the calls behind an operand -/
  | postfix (e : Expr)
  /-- operands and binary operators that bind at least this strongly -/
  | level (p : Nat)
  /-- the same when the first operand has been read -/
  | climb (p : Nat) (e : Expr)
  /-- an expression without comma operator: `?:` and `=` too -/
  | single
  /-- an expression -/
  | full
deriving DecidableEq, Repr

/-- The C++ grammar of expressions, as a parser: the expression read and the tokens behind it. The first argument bounds the depth. -/
def parse : Nat → Mode → List Tok → Option (Expr × List Tok)
  | 0, _, _ => none
  | n + 1, .unary, ts =>
    match ts with
    | .sym s :: r =>
      if s.prefix then
        match parse n .unary r with
        | some (e, r) => some (.un s e, r)
        | none => none
      else none
    | .name a :: r => parse n (.postfix (.name a)) r
    | .lp :: r =>
      match parse n .full r with
      | some (e, .rp :: r) => parse n (.postfix (.paren e)) r
      | _ => none
    | _ => none
  | n + 1, .postfix f, ts =>
    match ts with
    | .lp :: .rp :: r => parse n (.postfix (.call0 f)) r
    | .lp :: r =>
      match parse n .full r with
      | some (e, .rp :: r) => parse n (.postfix (.call f e)) r
      | _ => none
    | ts => some (f, ts)
  | n + 1, .level p, ts =>
    match parse n .unary ts with
    | some (e, r) => parse n (.climb p e) r
    | none => none
  | n + 1, .climb p a, ts =>
    match ts with
    | .sym s :: r =>
      match s.prec with
      | some q =>
        if p ≤ q then
          match parse n (.level (q + 1)) r with
          | some (b, r) => parse n (.climb p (.bin s a b)) r
          | none => none
        else some (a, ts)
      | none => some (a, ts)
    | ts => some (a, ts)
  | n + 1, .single, ts =>
    match parse n (.level 1) ts with
    | some (c, .quest :: r) =>
      match parse n .full r with
      | some (a, .colon :: r) =>
        match parse n .single r with
        | some (b, r) => some (.cond c a b, r)
        | none => none
      | _ => none
    | some (c, .sym .assign :: r) =>
      match parse n .single r with
      | some (b, r) => some (.assign c b, r)
      | none => none
    | some (c, r) => some (c, r)
    | none => none
  | n + 1, .full, ts =>
    match parse n .single ts with
    | some (a, .comma :: r) =>
      match parse n .full r with
      | some (b, r) => some (.seq a b, r)
      | none => none
    | some (a, r) => some (a, r)
    | none => none

/-- The values of the user's names and functions. -/
abbrev Env := Nat → R Int

/-- An evaluation: the user's names in the order in which they are evaluated, and the result. -/
structure Ev where
  trace : List Nat
  out : R Int

/-- One after the other. -/
def Ev.bind (x : Ev) (f : Int → Ev) : Ev :=
  match x.out with
  | .ok v => ⟨x.trace ++ (f v).trace, (f v).out⟩
  | .error e => ⟨x.trace, .error e⟩

/-- No evaluation of a user's name. -/
def Ev.pure (v : Int) : Ev := ⟨[], .ok v⟩

/-- `bool` as number. -/
def ofBool (b : Bool) : Int := if b then 1 else 0

/-- Binary operators other than `&&` and `||`. -/
def binop : Sym → Int → Int → Int
  | .star, a, b => a * b
  | .plus, a, b => a + b
  | .minus, a, b => a - b
  | .less, a, b => ofBool (decide (a < b))
  | .lessEq, a, b => ofBool (decide (a ≤ b))
  | .eq, a, b => ofBool (decide (a = b))
  | .ne, a, b => ofBool (decide (a ≠ b))
  | _, a, _ => a

/-- Prefix operators. Dereferencing is the identity: variables behind pointers have the same value as the pointer. -/
def unop : Sym → Int → Int
  | .not, a => ofBool (decide (a = 0))
  | .minus, a => -a
  | .castVoid, _ => 0
  | _, a => a

/-- A name as operand. -/
def evalName (env : Env) : Name → Ev
  | .user n => ⟨[n], env n⟩
  | .num v => .pure v
  | .text => .pure 1
  | _ => .pure 0

/-- A call of a function without arguments: `perform_abort()` ends the program with a failed assertion, `__builtin_unreachable()` is undefined. -/
def evalCall0 (env : Env) : Expr → Ev
  | .name (.user n) => ⟨[n], env n⟩
  | .name .unreachable => ⟨[], .error .ub⟩
  | .name .performAbort => ⟨[], .error .assert⟩
  | _ => .pure 1

/-- What a call with arguments does after their evaluation, `v` being the value of the last and `w` that of the first one. -/
def evalCall (env : Env) (f : Expr) (v w : Int) : Ev :=
  match f with
  | .name (.user n) => ⟨[n], env n⟩
  | .name .expect => .pure w
  | .name .assume => if v = 0 then ⟨[], .error .ub⟩ else .pure 0
  | _ => .pure 0

/-- The evaluation of an expression; the second number is the value of the first of the arguments if it is a list of them.
`sizeof(e)` does not evaluate `e`; nor does an assumption of msvc or clang, but what it assumes is about its value, so that it is treated as an evaluation here.
Assignments store into variables that the model does not have: the value is that of the right side. -/
def eval (env : Env) : Expr → Ev
  | .name n => evalName env n
  | .paren e => eval env e
  | .call0 f => evalCall0 env f
  | .call f args =>
    if f = .name .sizeof_ then .pure 8
    else
      match args with
      | .seq a b => (eval env a).bind fun w => (eval env b).bind fun v => evalCall env f v w
      | e => (eval env e).bind fun v => evalCall env f v v
  | .un s e => (eval env e).bind fun v => .pure (unop s v)
  | .bin .and a b => (eval env a).bind fun v => if v = 0 then .pure 0 else (eval env b).bind fun w => .pure (ofBool (decide (w ≠ 0)))
  | .bin .or a b => (eval env a).bind fun v => if v ≠ 0 then .pure 1 else (eval env b).bind fun w => .pure (ofBool (decide (w ≠ 0)))
  | .bin s a b => (eval env a).bind fun v => (eval env b).bind fun w => .pure (binop s v w)
  | .cond c a b => (eval env c).bind fun v => if v ≠ 0 then eval env a else eval env b
  | .assign a b => (eval env b).bind fun v => (eval env a).bind fun _ => .pure v
  | .seq a b => (eval env a).bind fun _ => eval env b

/-! ### The macros -/

/-- The compilers (macros.hh 6-16). -/
inductive Compiler where
  | msvc | clang | gcc
deriving DecidableEq, Repr

/-- A way to compile the library: compiler, and the checks that are switched on (assert.hh 9-11). -/
structure Config where
  compiler : Compiler
  assertions : Bool
  bounds : Bool
  nulls : Bool
  contracts : Bool
deriving DecidableEq, Repr

/-- The arguments of a macro: the tokens between the commas that are in no parentheses. `d` is the number of open parentheses. -/
def splitArgs : Nat → List Tok → List Tok → List (List Tok)
  | _, cur, [] => [cur]
  | 0, cur, .comma :: ts => cur :: splitArgs 0 [] ts
  | d, cur, .lp :: ts => splitArgs (d + 1) (cur ++ [.lp]) ts
  | d, cur, .rp :: ts => splitArgs (d - 1) (cur ++ [.rp]) ts
  | d, cur, t :: ts => splitArgs d (cur ++ [t]) ts

/-- `CC_LIKELY(x)` (macros.hh 125, 148). -/
def likely (c : Compiler) (x : List Tok) : List Tok :=
  match c with
  | .msvc => x
  | _ => [.name .expect, .lp, .lp] ++ (x ++ [.rp, .comma, .name (.num 1), .rp])

/-- `CC_UNLIKELY(x)` (macros.hh 126, 149). -/
def unlikely (c : Compiler) (x : List Tok) : List Tok :=
  match c with
  | .msvc => x
  | _ => [.name .expect, .lp, .lp] ++ (x ++ [.rp, .comma, .name (.num 0), .rp])

/-- `CC_CONDITION_LIKELY(x)` (macros.hh 130, 152) without the attribute. -/
def conditionLikely (c : Compiler) (x : List Tok) : List Tok :=
  match c with
  | .msvc => .lp :: (x ++ [.rp])
  | _ => [.lp, .name .expect, .lp, .lp] ++ (x ++ [.rp, .comma, .name (.num 1), .rp, .rp])

/-- `CC_CONDITION_UNLIKELY(x)` (macros.hh 131, 153). -/
def conditionUnlikely (c : Compiler) (x : List Tok) : List Tok :=
  match c with
  | .msvc => .lp :: (x ++ [.rp])
  | _ => [.lp, .name .expect, .lp, .lp] ++ (x ++ [.rp, .comma, .name (.num 0), .rp, .rp])

/-- `void(0)`. -/
def void0 : List Tok := [.name .void_, .lp, .name (.num 0), .rp]

/-- `CC_ASSUME(x)` (macros.hh 137, 160, 162). -/
def assume (c : Compiler) (x : List Tok) : List Tok :=
  match c with
  | .msvc => [.name .assume, .lp] ++ (x ++ [.rp])
  | .clang => [.name .assume, .lp] ++ (x ++ [.rp])
  | .gcc => [.lp, .lp, .sym .not] ++ (x ++ ([.rp, .quest, .name .unreachable, .lp, .rp, .colon] ++ (void0 ++ [.rp])))

/-- `CC_UNUSED(expr)` (macros.hh 198). -/
def unused (x : List Tok) : List Tok := [.sym .castVoid, .lp, .name .sizeof_, .lp, .lp] ++ (x ++ [.rp, .rp, .rp])

/-- `CC_DEBUG_BREAK()` (assert.hh 19, 32). -/
def debugBreak : List Tok := [.lp, .name .debugger, .lp, .rp, .quest, .sym .castVoid, .name .raise, .lp, .name (.num 5), .rp, .colon] ++ (void0 ++ [.rp])

/-- `CC_DETAIL_EXECUTE_ASSERT(condition, msg)` (assert.hh 43-46). The braces of the only argument of `assertion_failed` are left out. -/
def executeAssert (c : Compiler) (condition msg : List Tok) : List Tok :=
  [.lp] ++ (unlikely c ([.sym .not, .lp] ++ (condition ++ [.rp])) ++
    ([.quest, .lp, .name .assertionFailed, .lp, .name .text, .comma, .name .text, .comma, .name .text, .comma] ++
      (msg ++ ([.comma, .name (.num 44), .rp, .comma] ++ (debugBreak ++ ([.comma, .name .performAbort, .lp, .rp, .rp, .colon] ++ (void0 ++ [.rp])))))))

/-- `CC_RUNTIME_ASSERT(condition)` (assert.hh 48). -/
def runtimeAssert (g : Config) (condition : List Tok) : List Tok := executeAssert g.compiler condition [.name .nullptr]

/-- `CC_RUNTIME_ASSERT_MSG(condition, msg)` (assert.hh 49). -/
def runtimeAssertMsg (g : Config) (condition msg : List Tok) : List Tok := executeAssert g.compiler condition msg

/-- `CC_ASSERT(condition)` (assert.hh 51-57). -/
def assert_ (g : Config) (condition : List Tok) : List Tok :=
  if g.assertions then executeAssert g.compiler condition [.name .nullptr] else unused condition

/-- `CC_ASSERT_MSG(condition, msg)` (assert.hh 51-57) and, with a call of `format` as message, `CC_ASSERTF` (assertf.hh 8). -/
def assertMsg (g : Config) (condition msg : List Tok) : List Tok :=
  if g.assertions then executeAssert g.compiler condition msg else unused condition

/-- `(lb) <= (var) && (var) < (ub)` (assert.hh 60, 62). -/
def boundsText (var lb ub : List Tok) : List Tok :=
  [.lp] ++ (lb ++ ([.rp, .sym .lessEq, .lp] ++ (var ++ ([.rp, .sym .and, .lp] ++ (var ++ ([.rp, .sym .less, .lp] ++ (ub ++ [.rp])))))))

/-- `CC_ASSERT_IN_BOUNDS(var, lb, ub)` (assert.hh 59-63). -/
def assertInBounds (g : Config) (var lb ub : List Tok) : List Tok :=
  if g.bounds then assert_ g (boundsText var lb ub ++ [.sym .and, .name .text]) else unused (boundsText var lb ub)

/-- `CC_ASSERT_IS_NULL(p)` (assert.hh 65-71). -/
def assertIsNull (g : Config) (p : List Tok) : List Tok :=
  if g.nulls then assert_ g ([.lp] ++ (p ++ [.rp, .sym .eq, .name .nullptr, .sym .and, .name .text]))
  else unused ([.lp] ++ (p ++ [.rp, .sym .eq, .name .nullptr, .sym .and, .name .text]))

/-- `CC_ASSERT_NOT_NULL(p)` (assert.hh 65-71). -/
def assertNotNull (g : Config) (p : List Tok) : List Tok :=
  if g.nulls then assert_ g ([.lp] ++ (p ++ [.rp, .sym .ne, .name .nullptr, .sym .and, .name .text]))
  else unused ([.lp] ++ (p ++ [.rp, .sym .ne, .name .nullptr, .sym .and, .name .text]))

/-- `CC_CONTRACT(condition)` (assert.hh 73-77). -/
def contract (g : Config) (condition : List Tok) : List Tok :=
  if g.contracts then assert_ g ([.lp] ++ (condition ++ [.rp, .sym .and, .name .text]))
  else unused ([.lp] ++ (condition ++ [.rp, .sym .and, .name .text]))

end Verif.Macro
