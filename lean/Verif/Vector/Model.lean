import Verif.Mem.Model

/-
Model of /repo/src/clean-core/detail/vector_base.hh and vector.hh. The members of vector_ex.hh are the same, line by line, for an element and an index type given
by its traits; only its constructor with a size runs the loop of element constructors for trivial types too, which gives the same elements.

Sizes and capacities are natural numbers: the doubling of a capacity that is backed by memory cannot overflow `size_t`. Sums of
a caller-provided index and count (`remove_range`) are computed modulo 2^64.
The allocator is the one of Verif/Mem/Model.lean (`alloc_vector` runs the same code with `cc::allocator`).
-/
namespace Verif.Vector
open Verif.Mem

/-- What the code has to know about the element type: trivially copyable (and hence trivially destructible), `sizeof(T) > 512`, the
value of `T()` and `operator==`. -/
structure Ty (α : Type) where
  triv : Bool
  big : Bool
  dflt : α
  eqv : α → α → Bool

/-- The members of `vector_base` (vector_base.hh:488-490). -/
structure Vec where
  data : Ptr
  size : Nat
  cap : Nat
deriving DecidableEq, Repr

/-- A default constructed vector. -/
def Vec.empty : Vec := { data := none, size := 0, cap := 0 }

/-- Arithmetic of `size_t`. -/
def w64 (n : Nat) : Nat := n % 2 ^ 64

/-- A constructor argument: a value, or a reference to an object in some block. -/
inductive Arg (α : Type) where
  | val (a : α)
  | ref (p : Ptr) (i : Nat)

variable {α : Type}

/-- The value a constructor sees when it runs. -/
def evalArg (h : Heap α) : Arg α → R α
  | .val a => .ok a
  | .ref p i => read h p i

/-- `emplace_back` / `push_back` (vector_base.hh:112-156). -/
def emplaceBack (T : Ty α) (h : Heap α) (v : Vec) (arg : Arg α) : R (Heap α × Vec) :=
  if v.size = v.cap then
    let newCap := if v.cap = 0 then 1 else v.cap * 2
    if T.triv && !T.big then do
      let tmp ← evalArg h arg
      let (d, h) ← realloc h v.data newCap
      let h ← construct T.triv h d v.size tmp
      .ok (h, { data := d, size := v.size + 1, cap := newCap })
    else do
      let (d, h) := alloc h newCap
      let a ← evalArg h arg
      let h ← construct T.triv h d v.size a
      let h ← moveConstructRange T.triv h v.data v.size d
      let h ← destroyReverse T.triv h v.data v.size
      let h ← free T.triv h v.data
      .ok (h, { data := d, size := v.size + 1, cap := newCap })
  else do
    let a ← evalArg h arg
    let h ← construct T.triv h v.data v.size a
    .ok (h, { v with size := v.size + 1 })

/-- `emplace_back_stable` (vector_base.hh:159-164). -/
def emplaceBackStable (T : Ty α) (h : Heap α) (v : Vec) (arg : Arg α) : R (Heap α × Vec) := do
  ccAssert (v.size < v.cap)
  let a ← evalArg h arg
  let h ← construct T.triv h v.data v.size a
  .ok (h, { v with size := v.size + 1 })

/-- `reserve` (vector_base.hh:241-271). -/
def reserve (T : Ty α) (h : Heap α) (v : Vec) (size : Nat) : R (Heap α × Vec) := do
  ccAssert (size ≤ 2 ^ 48)
  if size ≤ v.cap then .ok (h, v)
  else
    let newCap := if v.cap * 2 < size then size else v.cap * 2
    if T.triv then do
      let (d, h) ← realloc h v.data newCap
      .ok (h, { v with data := d, cap := newCap })
    else do
      let (d, h) := alloc h newCap
      let h ← moveConstructRange T.triv h v.data v.size d
      let h ← destroyReverse T.triv h v.data v.size
      let h ← free T.triv h v.data
      .ok (h, { v with data := d, cap := newCap })

/-- `push_back_range_n` (vector_base.hh:465-473). -/
def pushBackRangeN (T : Ty α) (h : Heap α) (v : Vec) (src : Src α) (num : Nat) : R (Heap α × Vec) :=
  if num = 0 then .ok (h, v)
  else do
    let (h, v) ← reserve T h v (v.size + num)
    let h ← copyConstructRange T.triv h src num v.data v.size
    .ok (h, { v with size := v.size + num })

/-- `for (auto&& v : range) this->push_back(v)` (vector_base.hh:189-190). -/
def pushEach (T : Ty α) (h : Heap α) (v : Vec) : List α → R (Heap α × Vec)
  | [] => .ok (h, v)
  | a :: as => do
    let (h, v) ← emplaceBack T h v (.val a)
    pushEach T h v as

/-- `push_back_range` (vector_base.hh:167-192) for a range outside the vector; contiguous or not, sized or not. -/
def pushBackRange (T : Ty α) (contiguous sized : Bool) (h : Heap α) (v : Vec) (l : List α) : R (Heap α × Vec) :=
  if contiguous then
    if l.length = 0 then .ok (h, v) else pushBackRangeN T h v (.ext l) l.length
  else do
    let (h, v) ← if sized then reserve T h v (v.size + l.length) else .ok (h, v)
    pushEach T h v l

/-- `insert_range_at` (vector_base.hh:203-217); `insert_at` (198) is the case of one value. -/
def insertRangeAt (T : Ty α) (h : Heap α) (v : Vec) (index : Nat) (l : List α) : R (Heap α × Vec) := do
  ccAssert (index ≤ v.size)
  if l.length = 0 then .ok (h, v)
  else
    let (h, v) ← reserve T h v (v.size + l.length)
    let h ← relocateRange T.triv h v.data (index + l.length) index (v.size - index)
    let h ← copyConstructRange T.triv h (.ext l) l.length v.data index
    .ok (h, { v with size := v.size + l.length })

/-- `pop_back` (vector_base.hh:221-226). -/
def popBack (h : Heap α) (v : Vec) : R (Heap α × Vec) := do
  ccAssert (v.size > 0)
  let h ← destroy h v.data (v.size - 1)
  .ok (h, { v with size := v.size - 1 })

/-- `get_and_pop_back` (vector_base.hh:231-237). -/
def getAndPopBack (T : Ty α) (h : Heap α) (v : Vec) : R (α × Heap α × Vec) := do
  ccAssert (v.size > 0)
  let (a, h) ← take T.triv h v.data (v.size - 1)
  let h ← destroy h v.data (v.size - 1)
  .ok (a, h, { v with size := v.size - 1 })

/-- `resize` (vector_base.hh:273-292), with `T()` or the given default value. -/
def resize (T : Ty α) (h : Heap α) (v : Vec) (newSize : Nat) (a : α) : R (Heap α × Vec) := do
  let (h, v) ← if newSize > v.cap then reserve T h v newSize else .ok (h, v)
  let h ← fillLoop T.triv h v.data a v.size (newSize - v.size)
  let h ← destroyReverse T.triv h v.data v.size newSize
  .ok (h, { v with size := newSize })

/-- `clear` (vector_base.hh:296-300). -/
def clear (T : Ty α) (h : Heap α) (v : Vec) : R (Heap α × Vec) := do
  let h ← destroyReverse T.triv h v.data v.size
  .ok (h, { v with size := 0 })

/-- `shrink_to_fit` (vector_base.hh:303-323). -/
def shrinkToFit (T : Ty α) (h : Heap α) (v : Vec) : R (Heap α × Vec) :=
  if v.size ≠ v.cap then
    if T.triv then do
      let (d, h) ← realloc h v.data v.size
      .ok (h, { v with data := d, cap := v.size })
    else do
      let (d, h) := alloc h v.size
      let h ← moveConstructRange T.triv h v.data v.size d
      let h ← free T.triv h v.data
      .ok (h, { v with data := d, cap := v.size })
  else .ok (h, v)

/-- The loop of `remove_all` (vector_base.hh:331-337): `k` elements from `i` on. -/
def removeLoop (T : Ty α) (pred : α → Bool) (h : Heap α) (p : Ptr) (idx i : Nat) : Nat → R (Heap α × Nat)
  | 0 => .ok (h, idx)
  | k + 1 => do
    let a ← read h p i
    if !pred a then do
      let h ← if idx ≠ i then Mem.moveAssign T.triv h p idx p i else .ok h
      removeLoop T pred h p (idx + 1) (i + 1) k
    else removeLoop T pred h p idx (i + 1) k

/-- `remove_all` (vector_base.hh:327-342). -/
def removeAll (T : Ty α) (pred : α → Bool) (h : Heap α) (v : Vec) : R (Nat × Heap α × Vec) := do
  let (h, idx) ← removeLoop T pred h v.data 0 0 v.size
  let h ← destroyReverse T.triv h v.data v.size idx
  .ok (v.size - idx, h, { v with size := idx })

/-- The shifting loop of `remove_at` (vector_base.hh:407-408): `k` elements from index `i` on. -/
def shiftLoop (T : Ty α) (h : Heap α) (p : Ptr) (i : Nat) : Nat → R (Heap α)
  | 0 => .ok h
  | k + 1 => do
    let h ← Mem.moveAssign T.triv h p (i - 1) p i
    shiftLoop T h p (i + 1) k

/-- `remove_at` (vector_base.hh:404-411). -/
def removeAt (T : Ty α) (h : Heap α) (v : Vec) (idx : Nat) : R (Heap α × Vec) := do
  ccAssert (idx < v.size)
  let h ← shiftLoop T h v.data (idx + 1) (v.size - (idx + 1))
  let h ← destroy h v.data (v.size - 1)
  .ok (h, { v with size := v.size - 1 })

/-- `cc::swap(p[i], p[j])` (utility.hh:10-15). -/
def swapElems (T : Ty α) (h : Heap α) (p : Ptr) (i j : Nat) : R (Heap α) := do
  let (tmp, h) ← take T.triv h p i
  let h ← Mem.moveAssign T.triv h p i p j
  assign h p j tmp

/-- `remove_at_unordered` (vector_base.hh:414-419); `back()` has the contract `!empty()` (89-93). -/
def removeAtUnordered (T : Ty α) (h : Heap α) (v : Vec) (idx : Nat) : R (Heap α × Vec) := do
  ccAssert (idx < v.size)
  ccAssert (v.size > 0)
  let h ← swapElems T h v.data idx (v.size - 1)
  popBack h v

/-- The search loop of `remove_first` and `remove_first_unordered`. -/
def findLoop (pred : α → Bool) (h : Heap α) (p : Ptr) (i : Nat) : Nat → R (Option Nat)
  | 0 => .ok none
  | k + 1 => do
    let a ← read h p i
    if pred a then .ok (some i) else findLoop pred h p (i + 1) k

/-- `remove_first` (vector_base.hh:347-356). -/
def removeFirst (T : Ty α) (pred : α → Bool) (h : Heap α) (v : Vec) : R (Bool × Heap α × Vec) := do
  match ← findLoop pred h v.data 0 v.size with
  | some i => do
    let (h, v) ← removeAt T h v i
    .ok (true, h, v)
  | none => .ok (false, h, v)

/-- `remove_first_unordered` (vector_base.hh:361-370). -/
def removeFirstUnordered (T : Ty α) (pred : α → Bool) (h : Heap α) (v : Vec) : R (Bool × Heap α × Vec) := do
  match ← findLoop pred h v.data 0 v.size with
  | some i => do
    let (h, v) ← removeAtUnordered T h v i
    .ok (true, h, v)
  | none => .ok (false, h, v)

/-- `remove_value` (vector_base.hh:383-386); the value is a parameter of its own, not a reference. -/
def removeValue (T : Ty α) (h : Heap α) (v : Vec) (a : α) : R (Nat × Heap α × Vec) :=
  removeAll T (fun x => T.eqv x a) h v

/-- The loop of `remove_range` (vector_base.hh:398-399): `k` elements from index `i` on. -/
def rangeLoop (T : Ty α) (h : Heap α) (p : Ptr) (cnt i : Nat) : Nat → R (Heap α)
  | 0 => .ok h
  | k + 1 => do
    let h ← Mem.moveAssign T.triv h p i p (w64 (i + cnt))
    rangeLoop T h p cnt (i + 1) k

/-- `remove_range` (vector_base.hh:391-402). The sum and the differences are those of `size_t`. -/
def removeRange (T : Ty α) (h : Heap α) (v : Vec) (idx cnt : Nat) : R (Heap α × Vec) :=
  if cnt = 0 then .ok (h, v)
  else do
    ccAssert (idx < v.size)
    ccAssert (w64 (idx + cnt) ≤ v.size)
    let newSize := w64 (v.size + (2 ^ 64 - cnt))
    let h ← rangeLoop T h v.data cnt idx (newSize - idx)
    let h ← destroyReverse T.triv h v.data v.size newSize
    .ok (h, { v with size := newSize })

/-- `operator[]` (vector_base.hh:95-104), reading. -/
def at_ (h : Heap α) (v : Vec) (i : Nat) : R α := do
  ccAssert (i < v.size)
  read h v.data i

/-- `v[i] = a` through `operator[]` (vector_base.hh:95-99). -/
def setAt (h : Heap α) (v : Vec) (i : Nat) (a : α) : R (Heap α) := do
  ccAssert (i < v.size)
  assign h v.data i a

/-- `front` (vector_base.hh:79-83). -/
def front (h : Heap α) (v : Vec) : R α := do
  ccAssert (v.size > 0)
  read h v.data 0

/-- `back` (vector_base.hh:89-93). -/
def back (h : Heap α) (v : Vec) : R α := do
  ccAssert (v.size > 0)
  read h v.data (v.size - 1)

/-- `contains` (vector_base.hh:429-435). -/
def containsLoop (T : Ty α) (h : Heap α) (p : Ptr) (a : α) (i : Nat) : Nat → R Bool
  | 0 => .ok false
  | k + 1 => do
    let x ← read h p i
    if T.eqv x a then .ok true else containsLoop T h p a (i + 1) k

/-- `operator==` (vector_base.hh:437-445). -/
def eqLoop (T : Ty α) (h : Heap α) (p q : Ptr) (i : Nat) : Nat → R Bool
  | 0 => .ok true
  | k + 1 => do
    let x ← read h p i
    let y ← read h q i
    if !T.eqv x y then .ok false else eqLoop T h p q (i + 1) k

/-- `operator==` (vector_base.hh:437-445, 457). -/
def eq (T : Ty α) (h : Heap α) (v w : Vec) : R Bool :=
  if v.size ≠ w.size then .ok false else eqLoop T h v.data w.data 0 v.size

/-! ### vector.hh -/

/-- `explicit vector(size_t size)` (vector.hh:18-21). -/
def mkSized (T : Ty α) (h : Heap α) (n : Nat) : R (Heap α × Vec) := do
  let (d, h) := alloc h n
  let h ← fillLoop T.triv h d T.dflt 0 n
  .ok (h, { data := d, size := n, cap := n })

/-- `vector::filled` (vector.hh:38-43). -/
def mkFilled (T : Ty α) (h : Heap α) (n : Nat) (a : α) : R (Heap α × Vec) := resize T h Vec.empty n a

/-- `vector::reserved` (vector.hh:46-51). -/
def mkReserved (T : Ty α) (h : Heap α) (n : Nat) : R (Heap α × Vec) := reserve T h Vec.empty n

/-- `explicit vector(T const* begin, size_t num_elements)` (vector.hh:53-58); also the constructors from span and initializer_list. -/
def mkRange (T : Ty α) (h : Heap α) (src : Src α) (num : Nat) : R (Heap α × Vec) := do
  let (h, v) ← reserve T h Vec.empty num
  let h ← copyConstructRange T.triv h src num v.data 0
  .ok (h, { v with size := num })

/-- Copy constructor (vector.hh:70). -/
def mkCopy (T : Ty α) (h : Heap α) (rhs : Vec) : R (Heap α × Vec) := mkRange T h (.mem rhs.data 0) rhs.size

/-- Destructor (vector.hh:81-85). -/
def dtor (T : Ty α) (h : Heap α) (v : Vec) : R (Heap α) := do
  let h ← destroyReverse T.triv h v.data v.size
  free T.triv h v.data

/-- Copy assignment (vector.hh:86-102) from another vector object. -/
def copyAssignOther (T : Ty α) (h : Heap α) (v rhs : Vec) : R (Heap α × Vec) := do
  let h ← destroyReverse T.triv h v.data v.size
  let (h, v) ← if v.cap < rhs.size then do
      let h ← free T.triv h v.data
      let (d, h) := alloc h rhs.size
      (.ok (h, { v with data := d, cap := rhs.size }) : R (Heap α × Vec))
    else .ok (h, v)
  let h ← copyConstructRange T.triv h (.mem rhs.data 0) rhs.size v.data 0
  .ok (h, { v with size := rhs.size })

/-! ### a program with several vectors -/

/-- The heap and the vector variables of a program. -/
structure World (α : Type) where
  heap : Heap α
  vecs : Nat → Vec

/-- Nothing allocated, all vectors default constructed. -/
def World.init : World α := { heap := Heap.init, vecs := fun _ => Vec.empty }

/-- Store a vector variable. -/
def World.put (w : World α) (h : Heap α) (i : Nat) (v : Vec) : World α :=
  { heap := h, vecs := fun j => if j = i then v else w.vecs j }

/-- A pushed argument: a value or (a reference to) an element of one of the vectors. -/
inductive PushArg (α : Type) where
  | val (a : α)
  | elem (j k : Nat)

/-- Right hand side of `v = vector(...)`. -/
inductive Ctor (α : Type) where
  | sized (n : Nat)
  | filled (n : Nat) (a : α)
  | reserved (n : Nat)
  | range (l : List α)
  | copyOf (j : Nat)

/-- The calls a program can make. -/
inductive Op (α : Type) where
  | pushBack (i : Nat) (a : PushArg α)
  | pushRange (i : Nat) (contiguous sized : Bool) (l : List α)
  | insertRange (i idx : Nat) (l : List α)
  | popBack (i : Nat)
  | getAndPopBack (i : Nat)
  | reserve (i n : Nat)
  | resize (i n : Nat)
  | resizeWith (i n : Nat) (a : α)
  | clear (i : Nat)
  | shrinkToFit (i : Nat)
  | removeAll (i : Nat) (pred : α → Bool)
  | removeFirst (i : Nat) (pred : α → Bool)
  | removeFirstUnordered (i : Nat) (pred : α → Bool)
  | removeValue (i : Nat) (a : α)
  | removeRange (i idx cnt : Nat)
  | removeAt (i idx : Nat)
  | removeAtUnordered (i idx : Nat)
  | get (i k : Nat)
  | set (i k : Nat) (a : α)
  | front (i : Nat)
  | back (i : Nat)
  | size (i : Nat)
  | contains (i : Nat) (a : α)
  | eq (i j : Nat)
  | copyAssign (i j : Nat)
  | moveAssign (i j : Nat)
  | assignNew (i : Nat) (c : Ctor α)

/-- What a call returns. -/
inductive Obs (α : Type) where
  | none
  | elem (a : α)
  | nat (n : Nat)
  | bool (b : Bool)
deriving DecidableEq, Repr

/-- Move assignment (vector.hh:103-114); `i = j` is self-assignment. -/
def moveAssign (T : Ty α) (w : World α) (i j : Nat) : R (World α) := do
  let h ← dtor T w.heap (w.vecs i)
  let w := w.put h i (w.vecs j)
  .ok (w.put h j Vec.empty)

/-- Construct a temporary. -/
def construct (T : Ty α) (w : World α) : Ctor α → R (Heap α × Vec)
  | .sized n => mkSized T w.heap n
  | .filled n a => mkFilled T w.heap n a
  | .reserved n => mkReserved T w.heap n
  | .range l => mkRange T w.heap (.ext l) l.length
  | .copyOf j => mkCopy T w.heap (w.vecs j)

/-- `vecs[i] = vector(...)`: construct a temporary, move assign it, destroy the (now empty) temporary. -/
def assignNew (T : Ty α) (w : World α) (i : Nat) (c : Ctor α) : R (World α) := do
  let (h, t) ← construct T w c
  let h ← dtor T h (w.vecs i)
  let h ← dtor T h Vec.empty
  .ok (w.put h i t)

/-- Wrap a call on vector `i` without a result. -/
def World.call (w : World α) (i : Nat) (f : Heap α → Vec → R (Heap α × Vec)) : R (World α × Obs α) := do
  let (h, v) ← f w.heap (w.vecs i)
  .ok (w.put h i v, .none)

/-- Wrap a call on vector `i` with a result. -/
def World.callObs {β : Type} (w : World α) (i : Nat) (f : Heap α → Vec → R (β × Heap α × Vec)) (g : β → Obs α) :
    R (World α × Obs α) := do
  let (b, h, v) ← f w.heap (w.vecs i)
  .ok (w.put h i v, g b)

/-- Evaluate `vecs[j][k]` as a reference (with the contract of `operator[]`). -/
def pushArg (w : World α) : PushArg α → R (Arg α)
  | .val a => .ok (.val a)
  | .elem j k => do
    ccAssert (k < (w.vecs j).size)
    .ok (.ref (w.vecs j).data k)

/-- Run one call. -/
def step (T : Ty α) (w : World α) : Op α → R (World α × Obs α)
  | .pushBack i a => do
    let arg ← pushArg w a
    w.call i (fun h v => emplaceBack T h v arg)
  | .pushRange i c s l => w.call i (fun h v => pushBackRange T c s h v l)
  | .insertRange i idx l => w.call i (fun h v => insertRangeAt T h v idx l)
  | .popBack i => w.call i popBack
  | .getAndPopBack i => w.callObs i (getAndPopBack T) .elem
  | .reserve i n => w.call i (fun h v => reserve T h v n)
  | .resize i n => w.call i (fun h v => resize T h v n T.dflt)
  | .resizeWith i n a => w.call i (fun h v => resize T h v n a)
  | .clear i => w.call i (clear T)
  | .shrinkToFit i => w.call i (shrinkToFit T)
  | .removeAll i p => w.callObs i (removeAll T p) .nat
  | .removeFirst i p => w.callObs i (removeFirst T p) .bool
  | .removeFirstUnordered i p => w.callObs i (removeFirstUnordered T p) .bool
  | .removeValue i a => w.callObs i (fun h v => removeValue T h v a) .nat
  | .removeRange i idx cnt => w.call i (fun h v => removeRange T h v idx cnt)
  | .removeAt i idx => w.call i (fun h v => removeAt T h v idx)
  | .removeAtUnordered i idx => w.call i (fun h v => removeAtUnordered T h v idx)
  | .get i k => do
    let a ← at_ w.heap (w.vecs i) k
    .ok (w, .elem a)
  | .set i k a => w.call i (fun h v => do
    let h ← setAt h v k a
    .ok (h, v))
  | .front i => do
    let a ← front w.heap (w.vecs i)
    .ok (w, .elem a)
  | .back i => do
    let a ← back w.heap (w.vecs i)
    .ok (w, .elem a)
  | .size i => .ok (w, .nat (w.vecs i).size)
  | .contains i a => do
    let b ← containsLoop T w.heap (w.vecs i).data a 0 (w.vecs i).size
    .ok (w, .bool b)
  | .eq i j => do
    let b ← eq T w.heap (w.vecs i) (w.vecs j)
    .ok (w, .bool b)
  | .copyAssign i j =>
    if i = j then .ok (w, .none)
    else w.call i (fun h v => copyAssignOther T h v (w.vecs j))
  | .moveAssign i j => do
    let w ← moveAssign T w i j
    .ok (w, .none)
  | .assignNew i c => do
    let w ← assignNew T w i c
    .ok (w, .none)

/-- Run a history. -/
def run (T : Ty α) (w : World α) : List (Op α) → R (World α × List (Obs α))
  | [] => .ok (w, [])
  | op :: ops => do
    let (w, o) ← step T w op
    let (w, os) ← run T w ops
    .ok (w, o :: os)

/-- The end of the program: destroy vectors `n-1`, ..., `0`. -/
def destroyUpto (T : Ty α) (w : World α) : Nat → R (World α)
  | 0 => .ok w
  | n + 1 => do
    let h ← dtor T w.heap (w.vecs n)
    destroyUpto T (w.put h n Vec.empty) n

end Verif.Vector
