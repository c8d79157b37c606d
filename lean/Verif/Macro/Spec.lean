import Verif.Macro.Model
/-! What the macros are expected to do, said with the meaning of the expressions that they are given. -/
namespace Verif.Macro

/-- The tokens are one argument of a macro: an expression without comma operator outside of parentheses. -/
def Arg (ts : List Tok) (e : Expr) : Prop := ∃ n, parse n .single ts = some (e, [])

/-- A program that contains these tokens as an expression compiles, and evaluating it does this. -/
def Does (env : Env) (ts : List Tok) (v : Ev) : Prop := ∃ n e, parse n .full ts = some (e, []) ∧ eval env e = v

/-- An assertion: evaluate the condition; if it is false evaluate the message and fail. -/
def checked (condition msg : Ev) : Ev := condition.bind fun v => if v = 0 then msg.bind fun _ => ⟨[], .error .assert⟩ else .pure 0

/-- Nothing. -/
def nothing : Ev := .pure 0

/-- An assumption: undefined if it is false. -/
def assumed (condition : Ev) : Ev := condition.bind fun v => if v = 0 then ⟨[], .error .ub⟩ else .pure 0

/-- No operator but prefix operators and calls outside of parentheses. -/
def Expr.isOperand : Expr → Bool
  | .name _ => true
  | .paren _ => true
  | .call0 _ => true
  | .call .. => true
  | .un .. => true
  | _ => false

/-- No comma operator outside of parentheses. -/
def Expr.commaFree : Expr → Bool
  | .bin _ a b => a.commaFree && b.commaFree
  | .cond c a b => c.commaFree && (a.commaFree && b.commaFree)
  | .assign a b => a.commaFree && b.commaFree
  | .seq .. => false
  | _ => true

/-- The expression with `!` in front of its text. -/
def Expr.notInFront : Expr → Expr
  | .bin s a b => .bin s a.notInFront b
  | .cond c a b => .cond c.notInFront a b
  | .assign a b => .assign a.notInFront b
  | .seq a b => .seq a.notInFront b
  | e => .un .not e

end Verif.Macro
