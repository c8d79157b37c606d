import Verif.Chunk.Mem

/-!
Specification of references into a `chunked_buffer`, and of loops over its chunks: on the list of the elements and the sizes of the
chunks alone.
-/
namespace Verif.Chunk.Ref.Spec

variable {α : Type}

/-- What the elements are after one call. -/
def step (l : List α) : Op α → R (List α)
  | .push a => .ok (l ++ [a])
  | .pushCopy k =>
    match l[k]? with
    | none => .error .ub
    | some a => .ok (l ++ [a])
  | .assign k a => if k < l.length then .ok (l.set k a) else .error .ub
  | .setChunkSize n => if n = 0 then .error .assert else .ok l

/-- What the elements are after a history. -/
def run (l : List α) : List (Op α) → R (List α)
  | [] => .ok l
  | op :: ops => do
    let l ← step l op
    run l ops

/-- How the elements lie in chunks: the sizes of the full chunks before the current one, the number of elements in the current one
and its size, and the size that the next one gets. -/
structure Shape where
  closed : List Nat
  cur : Option (Nat × Nat)
  next : Nat
deriving DecidableEq, Repr

/-- A new buffer. -/
def Shape.empty : Shape := { closed := [], cur := none, next := 1024 }

/-- One more element: it goes into the current chunk if there is room. -/
def Shape.add (h : Shape) : Shape :=
  match h.cur with
  | none => { h with cur := some (1, h.next) }
  | some (n, c) => if n = c then { h with closed := h.closed ++ [n], cur := some (1, h.next) } else { h with cur := some (n + 1, c) }

/-- The shape after one call. -/
def Shape.step (h : Shape) : Op α → Shape
  | .push _ => h.add
  | .pushCopy _ => h.add
  | .assign _ _ => h
  | .setChunkSize n => { h with next := n }

/-- The shape after a history. -/
def Shape.run (h : Shape) : List (Op α) → Shape
  | [] => h
  | op :: ops => Shape.run (h.step op) ops

/-- The room that a vector which has been given `n` elements one by one has: 0, 1, 2, 4, 4, 8, 8, 8, 8, 16, … -/
def room : Nat → Nat
  | 0 => 0
  | n + 1 => if n < room n then room n else max 1 (2 * room n)

/-- Going over the chunks with the sizes `ns`, which begin at element number `i`; `r` is the room in the array of chunks when the
loop began. A round shows the elements as they are now, then the body runs. -/
def overFull (body : Body α) (r : Nat) (l : List α) (h : Shape) (i : Nat) (shown : List (List α)) :
    List Nat → R ((List α × Shape) × List (List α))
  | [] => .ok ((l, h), shown)
  | n :: ns =>
    if room h.closed.length ≠ r then .error .ub
    else do
      let now := (l.drop i).take n
      let l ← run l (body (shown ++ [now]))
      overFull body r l (h.run (body (shown ++ [now]))) (i + n) (shown ++ [now]) ns

/-- What a loop over `chunks()` does: it shows the elements that were there when it began. -/
def loopChunks (body : Body α) (l : List α) (h : Shape) : R ((List α × Shape) × List (List α)) := do
  let ((l, h'), shown) ← overFull body (room h.closed.length) l h 0 [] h.closed
  match h.cur with
  | none => .ok ((l, h'), shown)
  | some (n, _) =>
    let now := (l.drop h.closed.sum).take n
    let l ← run l (body (shown ++ [now]))
    .ok ((l, h'.run (body (shown ++ [now]))), shown ++ [now])

/-- What `for_each_chunk` does: after the chunks that were full when it began it shows the chunk that is current then, if that is not
full. -/
def forEachChunk (body : Body α) (l : List α) (h : Shape) : R ((List α × Shape) × List (List α)) := do
  let ((l, h'), shown) ← overFull body (room h.closed.length) l h 0 [] h.closed
  match h'.cur with
  | none => .ok ((l, h'), shown)
  | some (n, c) =>
    if n = c then .ok ((l, h'), shown)
    else do
      let now := l.drop h'.closed.sum
      let l ← run l (body (shown ++ [now]))
      .ok ((l, h'.run (body (shown ++ [now]))), shown ++ [now])

end Verif.Chunk.Ref.Spec
