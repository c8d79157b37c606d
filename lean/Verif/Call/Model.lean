import Verif.Mem.Model

/-!
Model of the callable types: `cc::function_ref` (/repo/src/clean-core/function_ref.hh), `cc::stream_ref`, `cc::string_stream_ref` and `cc::make_stream_ref`
(/repo/src/clean-core/stream_ref.hh), `cc::range_ref` (/repo/src/clean-core/range_ref.hh) and `cc::unique_function` (/repo/src/clean-core/unique_function.hh).

All functions take a span of `T` (values are spans with one element) and return a `B`, so that one model covers `function_ref<B(span<T const>)>` and the streams; there are no
further arguments. The program has callable objects with a class and a state, functions, ranges, and a global state `Γ` that calls may change. Calls do not touch the references
themselves. `with_custom_invoker` and the conversions of results and elements (`is_convertible`, dereferencing in `range_ref`) are part of the callable here.
-/
namespace Verif.Call
open Mem

variable {T S Γ B : Type}

/-- The program: what calls do. -/
structure Env (T S Γ B : Type) where
  /-- `operator()(span<T const>)` (or `operator<<`) of a class of callables -/
  call : Nat → S → Γ → List T → B × S × Γ
  /-- `operator()(T const&)` (or `operator<<`) of a class, result not used -/
  call1 : Nat → S → Γ → T → S × Γ
  /-- functions -/
  func : Nat → Γ → List T → B × Γ
  /-- what remains of an object that was moved from -/
  left : Nat → S → S
  /-- no result -/
  void : B

/-- A callable object: of some class, or one of the lambdas of `make_stream_ref` that capture a stream by reference. -/
inductive Obj (S : Type) where
  | plain (c : Nat) (s : S)
  /-- calls the stream for each element (stream_ref.hh:119-123, 128-132) -/
  | each (t : Nat)
  /-- calls the stream with the span (stream_ref.hh:116-117, 125-126) -/
  | whole (t : Nat)
deriving DecidableEq

/-- The type of an object. -/
inductive Kind where
  | plain (c : Nat)
  | each
  | whole
deriving DecidableEq, Repr

def Obj.kind : Obj S → Kind
  | .plain c _ => .plain c
  | .each _ => .each
  | .whole _ => .whole

/-- What belongs to the program itself: the callable objects (by address, `none` if not alive), the ranges and the global state. -/
structure Prog (T S Γ : Type) where
  objs : Nat → Option (Obj S)
  rngs : Nat → Option (List T)
  g : Γ

/-- Store an object. -/
def Prog.put (p : Prog T S Γ) (i : Nat) (o : Option (Obj S)) : Prog T S Γ := { p with objs := fun j => if j = i then o else p.objs j }

/-- The loop of the lambdas (stream_ref.hh:121-122, 130-131) over the stream at address `t`. -/
def eachLoop (e : Env T S Γ B) (t : Nat) (p : Prog T S Γ) : List T → R (Prog T S Γ)
  | [] => .ok p
  | v :: vs =>
    match p.objs t with
    | some (.plain c s) =>
      let (s, g) := e.call1 c s p.g v
      eachLoop e t { (p.put t (some (.plain c s))) with g := g } vs
    | _ => .error .ub

/-- Call the object of class `k` at address `i`; it is undefined if there is no such object. -/
def callObj (e : Env T S Γ B) (p : Prog T S Γ) (k : Kind) (i : Nat) (a : List T) : R (B × Prog T S Γ) :=
  match p.objs i with
  | none => .error .ub
  | some o => if o.kind ≠ k then .error .ub else
    match o with
    | .plain c s =>
      let (b, s, g) := e.call c s p.g a
      .ok (b, { (p.put i (some (.plain c s))) with g := g })
    | .each t => do
      let p ← eachLoop e t p a
      .ok (e.void, p)
    | .whole t =>
      match p.objs t with
      | some (.plain c s) =>
        let (_, s, g) := e.call c s p.g a
        .ok (e.void, { (p.put t (some (.plain c s))) with g := g })
      | _ => .error .ub

/-! ### function_ref -/

/-- The union `storage` (function_ref.hh:103-109); a pointer written as `obj_const` is read as `obj` (function_ref.hh:49-51), which has the same representation. -/
inductive Data where
  | null
  | obj (i : Nat)
  | fun_ (f : Nat)
deriving DecidableEq, Repr

/-- What `_fun` does (function_ref.hh:38, 43-45, 50-52): calls the function, or casts to this class and calls. -/
inductive Invoker where
  | fun_
  | obj (k : Kind)
deriving DecidableEq, Repr

/-- The members (function_ref.hh:111-112). -/
structure FRef where
  data : Data
  fn : Option Invoker
deriving DecidableEq, Repr

/-- The default constructor (function_ref.hh:97). -/
def FRef.new : FRef := { data := .null, fn := none }

/-- What a reference is made from: a function pointer, or an object. -/
inductive Callee where
  | fun_ (f : Option Nat)
  | obj (i : Nat)
deriving DecidableEq, Repr

/-- The constructor (function_ref.hh:30-58). -/
def FRef.of (p : Prog T S Γ) : Callee → R FRef
  | .fun_ f => do
    ccAssert f.isSome
    match f with
    | some f => .ok { data := .fun_ f, fn := some .fun_ }
    | none => .error .assert
  | .obj i =>
    match p.objs i with
    | some o => .ok { data := .obj i, fn := some (.obj o.kind) }
    | none => .error .ub

/-- `operator()` (function_ref.hh:24-28). -/
def FRef.invoke (e : Env T S Γ B) (p : Prog T S Γ) (r : FRef) (a : List T) : R (B × Prog T S Γ) := do
  ccAssert r.fn.isSome
  match r.fn, r.data with
  | some .fun_, .fun_ f =>
    let (b, g) := e.func f p.g a
    .ok (b, { p with g := g })
  | some (.obj k), .obj i => callObj e p k i a
  | _, _ => .error .ub

/-- The default constructor of `stream_ref` (stream_ref.hh:33-36): a lambda, of class `c` and at the unused address `i`, that is gone at the end of the constructor. -/
def streamNew (p : Prog T S Γ) (i c : Nat) (s : S) : R FRef := FRef.of (p.put i (some (.plain c s))) (.obj i)

/-- `stream_ref::operator<<` for a value and for a span (stream_ref.hh:51-60; also string_stream_ref, 86-95). -/
def streamPut (e : Env T S Γ B) (p : Prog T S Γ) (r : FRef) (v : T) : R (Prog T S Γ) := do
  let (_, p) ← r.invoke e p [v]
  .ok p
def streamPuts (e : Env T S Γ B) (p : Prog T S Γ) (r : FRef) (vs : List T) : R (Prog T S Γ) := do
  let (_, p) ← r.invoke e p vs
  .ok p

/-! ### range_ref -/

/-- The loop of `_for_each` (range_ref.hh:79-105, 115-125). -/
def forLoop (e : Env T S Γ B) (f : FRef) (p : Prog T S Γ) : List T → R (Prog T S Γ)
  | [] => .ok p
  | v :: vs => do
    let (_, p) ← f.invoke e p [v]
    forLoop e f p vs

/-- `range_ref::for_each` (range_ref.hh:129) on a reference to the range at address `r`, or on an empty one (range_ref.hh:59-62). -/
def forEach (e : Env T S Γ B) (p : Prog T S Γ) (r : Option Nat) (f : FRef) : R (Prog T S Γ) :=
  match r with
  | none => .ok p
  | some i =>
    match p.rngs i with
    | some l => forLoop e f p l
    | none => .error .ub

/-! ### unique_function -/

/-- The callable on the heap: its allocator, class and state. -/
abbrev Ctx (S : Type) := Nat × Nat × S

/-- The members (unique_function.hh:74-77): `_func` and `_deleter` are for class `cls`. -/
structure UF where
  cls : Nat
  alloc : Nat
  ctx : Ptr
deriving DecidableEq, Repr

/-- The default constructor and the one from `nullptr` (unique_function.hh:30-31, 74-77). -/
def UF.new : UF := { cls := 0, alloc := 0, ctx := none }

/-- The constructor from a callable (unique_function.hh:33-45). `cc::forward<CallableT>` makes an rvalue of every argument. -/
def UF.of (e : Env T S Γ B) (h : Heap (Ctx S)) (p : Prog T S Γ) (i : Nat) (al : Nat) : R (Heap (Ctx S) × Prog T S Γ × UF) :=
  match p.objs i with
  | some (.plain c s) =>
    .ok ({ (h.set h.next [.live (al, c, s)]) with next := h.next + 1 }, p.put i (some (.plain c (e.left c s))), { cls := c, alloc := al, ctx := some h.next })
  | _ => .error .ub

/-- `operator()` (unique_function.hh:47-51). -/
def UF.invoke (e : Env T S Γ B) (h : Heap (Ctx S)) (g : Γ) (u : UF) (a : List T) : R (B × Heap (Ctx S) × Γ) := do
  ccAssert u.ctx.isSome
  let (al, c, s) ← Mem.read h u.ctx 0
  if c ≠ u.cls then .error .ub else
  let (b, s, g) := e.call c s g a
  let h ← put h u.ctx 0 (.live (al, c, s))
  .ok (b, h, g)

/-- `_destroy` (unique_function.hh:79-85): `delete_t` of this class with this allocator, which must be the ones it came from. -/
def UF.destroy (h : Heap (Ctx S)) (u : UF) : R (Heap (Ctx S)) :=
  if u.ctx.isSome then do
    let (al, c, _) ← Mem.read h u.ctx 0
    if al ≠ u.alloc ∨ c ≠ u.cls then .error .ub else
    let h ← Mem.destroy h u.ctx 0
    free false h u.ctx
  else .ok h

/-! ### a program with such variables -/

/-- The program's own objects, the references and the unique functions. -/
structure World (T S Γ : Type) where
  prog : Prog T S Γ
  refs : Nat → Option FRef
  rrefs : Nat → Option (Option Nat)
  heap : Heap (Ctx S)
  ufs : Nat → Option UF

def World.init (g : Γ) : World T S Γ := { prog := { objs := fun _ => none, rngs := fun _ => none, g := g }, refs := fun _ => none, rrefs := fun _ => none, heap := .init, ufs := fun _ => none }

/-- A living variable. -/
def look {X : Type} (v : Nat → Option X) (i : Nat) : R X :=
  match v i with
  | some x => .ok x
  | none => .error .ub

def upd {X : Type} (v : Nat → Option X) (i : Nat) (x : Option X) : Nat → Option X := fun j => if j = i then x else v j

/-- The calls. -/
inductive Op (T S : Type) where
  /-- create or end objects and ranges of the program -/
  | obj (i : Nat) (o : Option (Obj S))
  | rng (i : Nat) (l : Option (List T))
  | refNew (r : Nat)
  | ref (r : Nat) (c : Callee)
  | refCopy (r q : Nat)
  | call (r : Nat) (a : List T)
  | put (r : Nat) (v : T)
  | puts (r : Nat) (vs : List T)
  /-- `stream_ref()` whose lambda has class `c` and is at address `i` during the constructor -/
  | streamNew (r i c : Nat) (s : S)
  | rrefNew (r : Nat)
  | rref (r i : Nat)
  | forEach (r f : Nat)
  | ufNew (u : Nat)
  /-- from object `i`, given as lvalue or as rvalue, with an allocator -/
  | uf (u i : Nat) (lvalue : Bool) (al : Nat)
  | ufMove (u v : Nat)
  | ufAssign (u v : Nat)
  | ufDrop (u : Nat)
  | ufCall (u : Nat) (a : List T)
  | ufValid (u : Nat)

/-- What a call returns. -/
inductive Obs (B : Type) where
  | none
  | res (b : B)
  | bool (b : Bool)
deriving DecidableEq, Repr

/-- The move constructor (unique_function.hh:58-61) and the rest of move assignment (unique_function.hh:66-70). -/
def ufMoveFrom (w : World T S Γ) (h : Heap (Ctx S)) (u v : Nat) : R (World T S Γ) := do
  let x ← look w.ufs v
  let w := { w with heap := h, ufs := upd w.ufs u (some x) }
  let y ← look w.ufs v
  .ok { w with ufs := upd w.ufs v (some { y with ctx := none }) }

/-- Run one call. -/
def step (e : Env T S Γ B) (w : World T S Γ) : Op T S → R (World T S Γ × Obs B)
  | .obj i o => .ok ({ w with prog := w.prog.put i o }, .none)
  | .rng i l => .ok ({ w with prog := { w.prog with rngs := upd w.prog.rngs i l } }, .none)
  | .refNew r => .ok ({ w with refs := upd w.refs r (some FRef.new) }, .none)
  | .ref r c => do
    let f ← FRef.of w.prog c
    .ok ({ w with refs := upd w.refs r (some f) }, .none)
  | .refCopy r q => do
    let f ← look w.refs q
    .ok ({ w with refs := upd w.refs r (some f) }, .none)
  | .call r a => do
    let f ← look w.refs r
    let (b, p) ← f.invoke e w.prog a
    .ok ({ w with prog := p }, .res b)
  | .put r v => do
    let f ← look w.refs r
    let p ← streamPut e w.prog f v
    .ok ({ w with prog := p }, .none)
  | .puts r vs => do
    let f ← look w.refs r
    let p ← streamPuts e w.prog f vs
    .ok ({ w with prog := p }, .none)
  | .streamNew r i c s => do
    let f ← streamNew w.prog i c s
    .ok ({ w with refs := upd w.refs r (some f) }, .none)
  | .rrefNew r => .ok ({ w with rrefs := upd w.rrefs r (some none) }, .none)
  | .rref r i => .ok ({ w with rrefs := upd w.rrefs r (some (some i)) }, .none)
  | .forEach r f => do
    let x ← look w.rrefs r
    let f ← look w.refs f
    let p ← forEach e w.prog x f
    .ok ({ w with prog := p }, .none)
  | .ufNew u => .ok ({ w with ufs := upd w.ufs u (some UF.new) }, .none)
  | .uf u i _ al => do
    let (h, p, x) ← UF.of e w.heap w.prog i al
    .ok ({ w with prog := p, heap := h, ufs := upd w.ufs u (some x) }, .none)
  | .ufMove u v => do
    let w ← ufMoveFrom w w.heap u v
    .ok (w, .none)
  | .ufAssign u v => do
    let x ← look w.ufs u
    let h ← x.destroy w.heap
    let w ← ufMoveFrom w h u v
    .ok (w, .none)
  | .ufDrop u => do
    let x ← look w.ufs u
    let h ← x.destroy w.heap
    .ok ({ w with heap := h, ufs := upd w.ufs u none }, .none)
  | .ufCall u a => do
    let x ← look w.ufs u
    let (b, h, g) ← x.invoke e w.heap w.prog.g a
    .ok ({ w with heap := h, prog := { w.prog with g := g } }, .res b)
  | .ufValid u => do
    let x ← look w.ufs u
    .ok (w, .bool x.ctx.isSome)

/-- Run a history. -/
def run (e : Env T S Γ B) (w : World T S Γ) : List (Op T S) → R (World T S Γ × List (Obs B))
  | [] => .ok (w, [])
  | op :: ops => do
    let (w, o) ← step e w op
    let (w, os) ← run e w ops
    .ok (w, o :: os)

end Verif.Call
