import Verif.Common
/-!
# `cc::string_view`

Model of `/repo/src/clean-core/string_view.hh` and `/repo/src/clean-core/char_predicates.hh`.
A `char` is a byte (signed, as on x86).  A view is a pointer into an array of characters and a
size; reading outside the array is undefined.  Sizes are natural numbers; sums that the caller
controls are taken modulo `2^64`.  The other sums in this class are of positions inside
existing objects and cannot wrap around.
-/
namespace Verif.StrView

abbrev Chr := BitVec 8

/-- `_data`, `_size` (string_view.hh 360-361); `mem` is the array `_data` points into and `off` the position. -/
structure View where
  mem : List Chr
  off : Nat
  size : Nat
deriving DecidableEq, Repr

/-- `_data[i]`: undefined outside the array. -/
def View.rd (v : View) (i : Nat) : R Chr :=
  match v.mem[v.off + i]? with
  | some c => .ok c
  | none => .error .ub

/-! ### char_predicates.hh -/

/-- `a <= b` on (signed) `char`s. -/
def chLe (a b : Chr) : Bool := decide (a.toInt ≤ b.toInt)

/-- `is_space` (char_predicates.hh 8). -/
def isSpace (c : Chr) : Bool :=
  c == 0x20#8 || c == 0x0C#8 || c == 0x09#8 || c == 0x0A#8 || c == 0x0D#8 || c == 0x0B#8

/-- `is_upper` (char_predicates.hh 14). -/
def isUpper (c : Chr) : Bool := chLe 0x41#8 c && chLe c 0x5A#8

/-- `is_lower` (char_predicates.hh 13). -/
def isLower (c : Chr) : Bool := chLe 0x61#8 c && chLe c 0x7A#8

/-- `to_lower` (char_predicates.hh 23). -/
def toLower (c : Chr) : Chr := if isUpper c then 0x61#8 + (c - 0x41#8) else c

/-- `to_upper` (char_predicates.hh 24). -/
def toUpper (c : Chr) : Chr := if isLower c then 0x41#8 + (c - 0x61#8) else c

/-- `is_equal_fun` (char_predicates.hh 26-29). -/
def isEqual (c d : Chr) : Bool := c == d

/-! ### Access and subviews -/

/-- `string_view(char const*)` (string_view.hh 48-55) for a pointer to position `off`: the loop
reads until it finds a zero. `n` bounds the positions left in the array. -/
def cstrLoop (mem : List Chr) (off : Nat) : Nat → Nat → R View
  | 0, _ => .error .ub
  | n + 1, k => do
    let c ← (View.mk mem off 0).rd k
    if c = 0#8 then pure ⟨mem, off, k⟩ else cstrLoop mem off n (k + 1)

def ofCstr (mem : List Chr) (off : Nat) : R View := cstrLoop mem off (mem.length + 1) 0

/-- `front` (string_view.hh 79-83). -/
def View.front (v : View) : R Chr := do
  ccAssert (decide (v.size > 0))
  v.rd 0

/-- `back` (string_view.hh 84-88). -/
def View.back (v : View) : R Chr := do
  ccAssert (decide (v.size > 0))
  v.rd (v.size - 1)

/-- `operator[]` (string_view.hh 90-94). -/
def View.at (v : View) (idx : Nat) : R Chr := do
  ccAssert (decide (idx < v.size))
  v.rd idx

/-- `subview(offset, size)` (string_view.hh 98-103); `size_t` addition wraps around. -/
def View.subview (v : View) (offset size : Nat) : R View := do
  ccAssert (decide (offset ≤ v.size))
  ccAssert (decide ((offset + size) % 2 ^ 64 ≤ v.size))
  pure ⟨v.mem, v.off + offset, size⟩

/-- `subview_clamped` (string_view.hh 104-107). -/
def View.subviewClamped (v : View) (offset size : Nat) : View :=
  ⟨v.mem, v.off + offset,
    if offset > v.size then 0 else if (offset + size) % 2 ^ 64 > v.size then v.size - offset else size⟩

/-- `subview(offset)` (string_view.hh 108-112). -/
def View.subviewFrom (v : View) (offset : Nat) : R View := do
  ccAssert (decide (offset ≤ v.size))
  pure ⟨v.mem, v.off + offset, v.size - offset⟩

/-- `first` (string_view.hh 308). -/
def View.first (v : View) (n : Nat) : View := ⟨v.mem, v.off, if n < v.size then n else v.size⟩

/-- `last` (string_view.hh 309). -/
def View.last (v : View) (n : Nat) : View := if n ≤ v.size then ⟨v.mem, v.off + v.size - n, n⟩ else v

/-! ### Comparison -/

/-- The loop of `equals` (string_view.hh 316-318). -/
def equalsLoop (cmp : Chr → Chr → Bool) (a b : View) : Nat → Nat → R Bool
  | 0, _ => pure true
  | n + 1, i => do
    let x ← a.rd i
    let y ← b.rd i
    if !cmp x y then pure false else equalsLoop cmp a b n (i + 1)

/-- `equals` (string_view.hh 312-320). -/
def View.equals (cmp : Chr → Chr → Bool) (a b : View) : R Bool :=
  if a.size ≠ b.size then pure false else equalsLoop cmp a b a.size 0

/-- `equals_case_insensitive_t` (string_view.hh 30-33). -/
def cmpIgnoreCase (a b : Chr) : Bool := a == b || toLower a == toLower b

/-- `equals_ignore_case` (string_view.hh 321). -/
def View.equalsIgnoreCase (a b : View) : R Bool := a.equals cmpIgnoreCase b

/-- `operator==` (string_view.hh 493-501). -/
def View.eq (a b : View) : R Bool :=
  if a.size ≠ b.size then pure false else equalsLoop (fun x y => x == y) a b a.size 0

/-- The loop of `operator!=` (string_view.hh 506-508). -/
def neLoop (a b : View) : Nat → Nat → R Bool
  | 0, _ => pure false
  | n + 1, i => do
    let x ← a.rd i
    let y ← b.rd i
    if x ≠ y then pure true else neLoop a b n (i + 1)

/-- `operator!=` (string_view.hh 502-510). -/
def View.ne (a b : View) : R Bool :=
  if a.size ≠ b.size then pure true else neLoop a b a.size 0

/-- The loop of `is_lexicographically_less_than` (string_view.hh 328-332). -/
def lessLoop (a b : View) : Nat → Nat → R Bool
  | 0, _ => pure (decide (a.size < b.size))
  | n + 1, i => do
    let x ← a.rd i
    let y ← b.rd i
    if x ≠ y then pure (decide (x.toInt < y.toInt)) else lessLoop a b n (i + 1)

/-- `is_lexicographically_less_than` (string_view.hh 324-333). -/
def View.lexLess (a b : View) : R Bool := lessLoop a b (if a.size < b.size then a.size else b.size) 0

/-- `strncmp` with `n` characters left: compares as `unsigned char` and stops at a zero. The result is
`-1`, `0` or `1`. -/
def strncmp (a b : View) : Nat → Nat → R Int
  | 0, _ => pure 0
  | n + 1, i => do
    let x ← a.rd i
    let y ← b.rd i
    if x ≠ y then pure (if x.toNat < y.toNat then -1 else 1)
    else if x = 0#8 then pure 0
    else strncmp a b n (i + 1)

/-- `ascii_lexicographical_less` (string_view.hh 524-531). -/
def asciiLess (a b : View) : R Bool := do
  let cmp ← strncmp a b (if a.size < b.size then a.size else b.size) 0
  if cmp = 0 then pure (decide (a.size < b.size)) else pure (decide (cmp < 0))

/-! ### Searching -/

/-- `contains(char)` (string_view.hh 114-120): the loop from position `i` with `n` characters left. -/
def containsCharLoop (v : View) (c : Chr) : Nat → Nat → R Bool
  | 0, _ => pure false
  | n + 1, i => do
    let d ← v.rd i
    if d = c then pure true else containsCharLoop v c n (i + 1)

def View.containsChar (v : View) (c : Chr) : R Bool := containsCharLoop v c v.size 0

/-- The loop of `contains(string_view)` and `contains_ignore_case` (string_view.hh 126-128, 137-139). -/
def containsLoop (eqf : View → View → R Bool) (v s : View) : Nat → Nat → R Bool
  | 0, _ => pure false
  | n + 1, i => do
    let w ← v.subview i s.size
    let e ← eqf w s
    if e then pure true else containsLoop eqf v s n (i + 1)

/-- `contains(string_view)` (string_view.hh 121-131). -/
def View.contains (v s : View) : R Bool :=
  if s.size > v.size then pure false else containsLoop View.eq v s (v.size - s.size + 1) 0

/-- `contains_ignore_case` (string_view.hh 132-142). -/
def View.containsIgnoreCase (v s : View) : R Bool :=
  if s.size > v.size then pure false else containsLoop View.equalsIgnoreCase v s (v.size - s.size + 1) 0

/-- `index_of(char)` (string_view.hh 145-151). -/
def indexOfCharLoop (v : View) (c : Chr) : Nat → Nat → R Int
  | 0, _ => pure (-1)
  | n + 1, i => do
    let d ← v.rd i
    if d = c then pure (i : Int) else indexOfCharLoop v c n (i + 1)

def View.indexOfChar (v : View) (c : Chr) : R Int := indexOfCharLoop v c v.size 0

/-- `last_index_of(char)` (string_view.hh 187-193); `n` is `i + 1`. -/
def lastIndexOfCharLoop (v : View) (c : Chr) : Nat → R Int
  | 0 => pure (-1)
  | n + 1 => do
    let d ← v.rd n
    if d = c then pure (n : Int) else lastIndexOfCharLoop v c n

def View.lastIndexOfChar (v : View) (c : Chr) : R Int := lastIndexOfCharLoop v c v.size

/-- The inner loop of `index_of(string_view)` (string_view.hh 161-167) and of `next_idx`
(string_view.hh 465-471): whether it returns from the function. -/
def matchLoop (v s : View) (i : Nat) : Nat → Nat → R Bool
  | 0, _ => pure false
  | n + 1, j => do
    let x ← v.rd (i + j)
    let y ← s.at j
    if x ≠ y then pure false
    else if j = s.size - 1 then pure true
    else matchLoop v s i n (j + 1)

/-- The outer loop of `index_of(string_view)` (string_view.hh 159-168). -/
def indexLoop (v s : View) : Nat → Nat → R Int
  | 0, _ => pure (-1)
  | n + 1, i => do
    let m ← matchLoop v s i s.size 0
    if m then pure (i : Int) else indexLoop v s n (i + 1)

/-- `index_of(string_view)` (string_view.hh 154-170). -/
def View.indexOf (v s : View) : R Int := do
  ccAssert (decide (s.size ≠ 0))
  if s.size > v.size then pure (-1) else indexLoop v s (v.size - s.size + 1) 0

/-- The inner loop of `last_index_of(string_view)` (string_view.hh 203-209). -/
def matchBackLoop (v s : View) (i : Nat) : Nat → Nat → R Bool
  | 0, _ => pure false
  | n + 1, j => do
    let x ← v.rd (v.size - (i + j + 1))
    let y ← s.at (s.size - (j + 1))
    if x ≠ y then pure false
    else if j = s.size - 1 then pure true
    else matchBackLoop v s i n (j + 1)

/-- The outer loop of `last_index_of(string_view)` (string_view.hh 201-210). -/
def lastIndexLoop (v s : View) : Nat → Nat → R Int
  | 0, _ => pure (-1)
  | n + 1, i => do
    let m ← matchBackLoop v s i s.size 0
    if m then pure ((v.size - (i + s.size) : Nat) : Int) else lastIndexLoop v s n (i + 1)

/-- `last_index_of(string_view)` (string_view.hh 196-212). -/
def View.lastIndexOf (v s : View) : R Int := do
  ccAssert (decide (s.size ≠ 0))
  if s.size > v.size then pure (-1) else lastIndexLoop v s (v.size - s.size + 1) 0

/-- `next_idx` (string_view.hh 459-474): `_size - start` is unsigned and cannot wrap around, since
`start ≤ _size`; `_sdata[j]` is read without a check but `j < _ssize`. -/
def nextIdx (v s : View) (start : Nat) : R Int :=
  if s.size > v.size - start then pure (-1)
  else indexLoop v s (v.size - s.size + 1 - start) start

/-- A range-for loop over `all_indices_of` (string_view.hh 215-219, 439-491): the values of the iterator
and whether the end was reached within `fuel` steps. -/
def indicesLoop (v s : View) : Nat → Int → R (List Int × Bool)
  | 0, _ => pure ([], false)
  | fuel + 1, idx =>
    if idx ≥ 0 then do
      let nxt ← nextIdx v s (idx.toNat + 1)
      let (r, fin) ← indicesLoop v s fuel nxt
      pure (idx :: r, fin)
    else pure ([], true)

def View.allIndicesOf (v s : View) : R (List Int × Bool) := do
  ccAssert (decide (s.size ≠ 0))
  let i ← nextIdx v s 0
  indicesLoop v s (v.size + 1) i

/-- The loop of `common_prefix_with` (string_view.hh 177-182): the final `common_size`. -/
def commonLoop (v s : View) : Nat → Nat → R Nat
  | 0, i => pure i
  | n + 1, i => do
    let x ← v.rd i
    let y ← s.rd i
    if x ≠ y then pure i else commonLoop v s n (i + 1)

/-- `common_prefix_with` (string_view.hh 173-184). -/
def View.commonPrefixWith (v s : View) : R View := do
  let k ← commonLoop v s (if v.size < s.size then v.size else s.size) 0
  pure ⟨v.mem, v.off, k⟩

/-- `starts_with(char)` (string_view.hh 221). -/
def View.startsWithChar (v : View) (c : Chr) : R Bool :=
  if v.size > 0 then do
    let d ← v.front
    pure (d == c)
  else pure false

/-- `starts_with(string_view)` (string_view.hh 222). -/
def View.startsWith (v s : View) : R Bool :=
  if v.size ≥ s.size then do
    let w ← v.subview 0 s.size
    w.eq s
  else pure false

/-- `ends_with(char)` (string_view.hh 224). -/
def View.endsWithChar (v : View) (c : Chr) : R Bool :=
  if v.size > 0 then do
    let d ← v.back
    pure (d == c)
  else pure false

/-- `ends_with(string_view)` (string_view.hh 225). -/
def View.endsWith (v s : View) : R Bool :=
  if v.size ≥ s.size then do
    let w ← v.subview (v.size - s.size) s.size
    w.eq s
  else pure false

/-- `remove_prefix(n)` (string_view.hh 286-290). -/
def View.removePrefixN (v : View) (n : Nat) : R View := do
  ccAssert (decide (v.size ≥ n))
  pure ⟨v.mem, v.off + n, v.size - n⟩

/-- `remove_prefix(s)` (string_view.hh 291-295). -/
def View.removePrefix (v s : View) : R View := do
  let b ← v.startsWith s
  ccAssert b
  pure ⟨v.mem, v.off + s.size, v.size - s.size⟩

/-- `remove_suffix(n)` (string_view.hh 297-301). -/
def View.removeSuffixN (v : View) (n : Nat) : R View := do
  ccAssert (decide (v.size ≥ n))
  pure ⟨v.mem, v.off, v.size - n⟩

/-- `remove_suffix(s)` (string_view.hh 302-306). -/
def View.removeSuffix (v s : View) : R View := do
  let b ← v.endsWith s
  ccAssert b
  pure ⟨v.mem, v.off, v.size - s.size⟩

/-- `split_once` (string_view.hh 230-235). -/
def View.splitOnce (v p : View) : R (View × View) := do
  let idx ← v.indexOf p
  ccAssert (decide (idx ≥ 0))
  let a ← v.subview 0 idx.toNat
  let b ← v.subviewFrom (idx.toNat + p.size)
  pure (a, b)

/-! ### Trimming -/

/-- The loop of `trim_start` (string_view.hh 246-250); `n` is `s`. -/
def trimStartLoop (p : Chr → Bool) (v : View) : Nat → Nat → R View
  | 0, d => pure ⟨v.mem, v.off + d, 0⟩
  | n + 1, d => do
    let c ← v.rd d
    if p c then trimStartLoop p v n (d + 1) else pure ⟨v.mem, v.off + d, n + 1⟩

/-- `trim_start(pred)` (string_view.hh 241-253). -/
def View.trimStart (v : View) (p : Chr → Bool) : R View := trimStartLoop p v v.size 0

/-- The loop of `trim_end` (string_view.hh 262-263). -/
def trimEndLoop (p : Chr → Bool) (v : View) : Nat → R View
  | 0 => pure ⟨v.mem, v.off, 0⟩
  | n + 1 => do
    let c ← v.rd n
    if p c then trimEndLoop p v n else pure ⟨v.mem, v.off, n + 1⟩

/-- `trim_end(pred)` (string_view.hh 257-265). -/
def View.trimEnd (v : View) (p : Chr → Bool) : R View := trimEndLoop p v v.size

/-- `trim(pred)` (string_view.hh 269-282): the loop of `trim_start` followed by that of `trim_end`. -/
def View.trim (v : View) (p : Chr → Bool) : R View := do
  let w ← trimStartLoop p v v.size 0
  trimEndLoop p w w.size

/-! ### Splitting -/

/-- The loops `while (_curr != _end && [!]_pred(*_curr)) ++_curr;` (string_view.hh 380-381, 388-389, 404-405,
414-415); `n` is the distance of `_curr` from `_end`. -/
def skipLoop (v : View) (q : Chr → Bool) : Nat → Nat → R Nat
  | 0, i => pure i
  | n + 1, i => do
    let c ← v.rd i
    if q c then skipLoop v q n (i + 1) else pure i

/-- `string_split_iterator` (string_view.hh 369-376); pointers are positions in the view. -/
structure SplitIt where
  prev : Nat
  curr : Nat
  finished : Bool
deriving DecidableEq, Repr

/-- The constructor (string_view.hh 375-390); `skip` is `options == split_options::skip_empty`. -/
def splitBegin (v : View) (p : Chr → Bool) (skip : Bool) : R SplitIt := do
  let curr ← if skip then skipLoop v p v.size 0 else pure 0
  if curr = v.size then pure ⟨curr, curr, true⟩
  else do
    let c ← skipLoop v (fun c => !p c) (v.size - curr) curr
    pure ⟨curr, c, false⟩

/-- `operator++` (string_view.hh 392-416). -/
def splitNext (v : View) (p : Chr → Bool) (skip : Bool) (it : SplitIt) : R SplitIt :=
  if it.curr = v.size then pure { it with finished := true }
  else do
    let curr := it.curr + 1
    let curr' ← if skip then skipLoop v p (v.size - curr) curr else pure curr
    if skip ∧ curr' = v.size then pure ⟨it.prev, curr', true⟩
    else do
      let c ← skipLoop v (fun c => !p c) (v.size - curr') curr'
      pure ⟨curr', c, false⟩

/-- A range-for loop over `split` (string_view.hh 417-437, 512-522): the pieces and whether the end was reached
within `fuel` steps. -/
def splitLoop (v : View) (p : Chr → Bool) (skip : Bool) : Nat → SplitIt → R (List View × Bool)
  | 0, _ => pure ([], false)
  | fuel + 1, it =>
    if it.finished then pure ([], true)
    else do
      let nxt ← splitNext v p skip it
      let (r, fin) ← splitLoop v p skip fuel nxt
      pure (⟨v.mem, v.off + it.prev, it.curr - it.prev⟩ :: r, fin)

/-- `split(pred, opts)`; `split(sep, opts)` is the instance `isEqual sep` and `split()` the instance `isSpace`
with `skip_empty`. -/
def View.split (v : View) (p : Chr → Bool) (skip : Bool) : R (List View × Bool) := do
  let it ← splitBegin v p skip
  splitLoop v p skip (v.size + 2) it

end Verif.StrView
