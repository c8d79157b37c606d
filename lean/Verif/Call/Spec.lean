import Verif.Call.Model

/-!
What a program with callable types sees: a reference stands for a callable, a unique function for a callable of its own. Calling it is calling that callable. No pointers, invokers or heap
here.
-/
namespace Verif.Call.Spec
variable {T S Γ B : Type}

/-- What a `function_ref` stands for. -/
inductive Target where
  | nothing
  | fun_ (f : Nat)
  /-- the object at this place, of this type -/
  | obj (k : Kind) (i : Nat)
deriving DecidableEq

/-- The program's own objects; what the references stand for; the callables of the unique functions. -/
structure St (T S Γ : Type) where
  prog : Prog T S Γ
  refs : Nat → Option Target
  rrefs : Nat → Option (Option Nat)
  ufs : Nat → Option (Option (Nat × S))

def St.init (g : Γ) : St T S Γ := { prog := { objs := fun _ => none, rngs := fun _ => none, g := g }, refs := fun _ => none, rrefs := fun _ => none, ufs := fun _ => none }

/-- Call an object of the program directly with a span. -/
def direct (e : Env T S Γ B) (p : Prog T S Γ) (c : Nat) (s : S) (i : Nat) (a : List T) : B × Prog T S Γ :=
  ((e.call c s p.g a).1, { (p.put i (some (.plain c (e.call c s p.g a).2.1))) with g := (e.call c s p.g a).2.2 })

/-- State of an object and of the program after the object is called directly with each of the values, in order. -/
def folded (e : Env T S Γ B) (c : Nat) (s : S) (g : Γ) (a : List T) : S × Γ := a.foldl (fun x v => e.call1 c x.1 x.2 v) (s, g)

/-- Call what a reference stands for: `none` if that is not alive. A stream made from a callable for single values gets each value; from one for spans, the span. -/
def callTarget (e : Env T S Γ B) (p : Prog T S Γ) (t : Target) (a : List T) : Option (B × Prog T S Γ) :=
  match t with
  | .nothing => none
  | .fun_ f => some ((e.func f p.g a).1, { p with g := (e.func f p.g a).2 })
  | .obj k i =>
    match p.objs i with
    | none => none
    | some o => if o.kind ≠ k then none else
      match o with
      | .plain c s => some (direct e p c s i a)
      | .each t =>
        match p.objs t with
        | some (.plain c s) => some (e.void, { (p.put t (some (.plain c (folded e c s p.g a).1))) with g := (folded e c s p.g a).2 })
        | _ => none
      | .whole t =>
        match p.objs t with
        | some (.plain c s) => some (e.void, (direct e p c s t a).2)
        | _ => none

/-- Call it for each value. -/
def callEach (e : Env T S Γ B) (p : Prog T S Γ) (t : Target) (l : List T) : Option (Prog T S Γ) := l.foldlM (fun p v => (callTarget e p t [v]).map Prod.snd) p

/-- One call; `none` if the program may not make it. -/
def step [DecidableEq S] (e : Env T S Γ B) (σ : St T S Γ) : Op T S → Option (St T S Γ × Obs B)
  | .obj i o => some ({ σ with prog := σ.prog.put i o }, .none)
  | .rng i l => some ({ σ with prog := { σ.prog with rngs := upd σ.prog.rngs i l } }, .none)
  | .refNew r => some ({ σ with refs := upd σ.refs r (some .nothing) }, .none)
  | .ref r (.fun_ (some f)) => some ({ σ with refs := upd σ.refs r (some (.fun_ f)) }, .none)
  | .ref _ (.fun_ none) => none
  | .ref r (.obj i) => do
    let o ← σ.prog.objs i
    some ({ σ with refs := upd σ.refs r (some (.obj o.kind i)) }, .none)
  | .refCopy r q => do
    let t ← σ.refs q
    some ({ σ with refs := upd σ.refs r (some t) }, .none)
  | .call r a => do
    let t ← σ.refs r
    let x ← callTarget e σ.prog t a
    some ({ σ with prog := x.2 }, .res x.1)
  | .put r v => do
    let t ← σ.refs r
    let x ← callTarget e σ.prog t [v]
    some ({ σ with prog := x.2 }, .none)
  | .puts r vs => do
    let t ← σ.refs r
    let x ← callTarget e σ.prog t vs
    some ({ σ with prog := x.2 }, .none)
  /- see `C82_default_stream_dangles` -/
  | .streamNew .. => none
  | .rrefNew r => some ({ σ with rrefs := upd σ.rrefs r (some none) }, .none)
  | .rref r i => some ({ σ with rrefs := upd σ.rrefs r (some (some i)) }, .none)
  | .forEach r f => do
    let x ← σ.rrefs r
    let t ← σ.refs f
    match x with
    | none => some (σ, .none)
    | some i => do
      let l ← σ.prog.rngs i
      let p ← callEach e σ.prog t l
      some ({ σ with prog := p }, .none)
  | .ufNew u => if σ.ufs u = none then some ({ σ with ufs := upd σ.ufs u (some none) }, .none) else none
  | .uf u i lvalue _ =>
    if σ.ufs u = none then
      match σ.prog.objs i with
      | some (.plain c s) =>
        if lvalue then
          /- see `C82_lvalue_is_moved` -/
          if e.left c s = s then some ({ σ with ufs := upd σ.ufs u (some (some (c, s))) }, .none) else none
        else some ({ σ with prog := σ.prog.put i (some (.plain c (e.left c s))), ufs := upd σ.ufs u (some (some (c, s))) }, .none)
      | _ => none
    else none
  | .ufMove u v => if σ.ufs u = none then do
      let x ← σ.ufs v
      some ({ σ with ufs := upd (upd σ.ufs u (some x)) v (some none) }, .none)
    else none
  | .ufAssign u v => do
    let _ ← σ.ufs u
    let x ← σ.ufs v
    some ({ σ with ufs := upd (upd σ.ufs u (some x)) v (some none) }, .none)
  | .ufDrop u => do
    let _ ← σ.ufs u
    some ({ σ with ufs := upd σ.ufs u none }, .none)
  | .ufCall u a =>
    match σ.ufs u with
    | some (some (c, s)) =>
      let x := e.call c s σ.prog.g a
      some ({ σ with prog := { σ.prog with g := x.2.2 }, ufs := upd σ.ufs u (some (some (c, x.2.1))) }, .res x.1)
    | _ => none
  | .ufValid u => do
    let x ← σ.ufs u
    some (σ, .bool x.isSome)

/-- A history. -/
def run [DecidableEq S] (e : Env T S Γ B) (σ : St T S Γ) : List (Op T S) → Option (St T S Γ × List (Obs B))
  | [] => some (σ, [])
  | op :: ops => do
    let x ← step e σ op
    let y ← run e x.1 ops
    some (y.1, x.2 :: y.2)

end Verif.Call.Spec
