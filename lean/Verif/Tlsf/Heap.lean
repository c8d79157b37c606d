import Verif.Tlsf.Map
/-!
# The TLSF heap

Model of the heap in `/repo/src/clean-core/detail/lib/tlsf.cc` for the 64-bit configuration; the size arithmetic is in `Verif/Tlsf/Map.lean`.

Memory is a function from byte addresses to 64-bit words (natural numbers below 2^64); only addresses that are multiples of 8 and belong to
the memory handed to the allocator may be accessed.  Pointers are natural numbers, 0 is null; it is assumed that no address computed wraps
around 2^64 (all blocks lie inside the memory handed over).

A block header (tlsf.cc 305-316) at address `b` has `prev_phys_block` at `b`, `size` at `b + 8`, `next_free` at `b + 16` and `prev_free`
at `b + 24`.  Bits 0 and 1 of the size word are the flags; the bit operations on the word are written arithmetically, for sizes that are
multiples of 4.

The control structure (tlsf.cc 352-364): its first member `block_null` is in memory, at the address `ctl`; the bitmaps and the heads of the lists are kept apart.
An array access out of range is undefined.  `tlsf_assert` (tlsf.cc 274) is the fault `assert`.
-/
namespace Verif.Tlsf

/-- What does not change: the address of the control structure, and which addresses may be accessed. -/
structure Cfg where
  ctl : Nat
  ok : Nat → Bool

/-- The state. -/
structure St where
  mem : Nat → Nat
  /-- `fl_bitmap` -/
  fl : BitVec 32
  /-- `sl_bitmap` -/
  sl : Nat → BitVec 32
  /-- `blocks` -/
  heads : Nat → Nat → Nat

/-- A word is read. -/
def ld (C : Cfg) (s : St) (a : Nat) : R Nat := if a % 8 = 0 ∧ C.ok a = true then .ok (s.mem a) else .error .ub

/-- Memory with one word changed. -/
def updM (m : Nat → Nat) (a v : Nat) : Nat → Nat := fun x => if x = a then v else m x

/-- A word is written. -/
def sto (C : Cfg) (s : St) (a v : Nat) : R St := if a % 8 = 0 ∧ C.ok a = true then .ok { s with mem := updM s.mem a v } else .error .ub

/-! ### The size word (tlsf.cc 366-391) -/

/-- `block_size` (tlsf.cc 371). -/
def wSize (w : Nat) : Nat := w / 4 * 4
/-- `block_is_free` (tlsf.cc 381). -/
def wFree (w : Nat) : Bool := w % 2 == 1
/-- `block_is_prev_free` (tlsf.cc 387). -/
def wPrevFree (w : Nat) : Bool := w / 2 % 2 == 1
/-- `block_set_size` (tlsf.cc 373-377). -/
def wSetSize (w size : Nat) : Nat := size + w % 4
/-- `block_set_free` (tlsf.cc 383). -/
def wSetFree (w : Nat) : Nat := w / 2 * 2 + 1
/-- `block_set_used` (tlsf.cc 385). -/
def wSetUsed (w : Nat) : Nat := w / 2 * 2
/-- `block_set_prev_free` (tlsf.cc 389). -/
def wSetPrevFree (w : Nat) : Nat := w / 4 * 4 + 2 + w % 2
/-- `block_set_prev_used` (tlsf.cc 391). -/
def wSetPrevUsed (w : Nat) : Nat := w / 4 * 4 + w % 2

/-- The size word of a block is changed. -/
def modW (C : Cfg) (s : St) (b : Nat) (f : Nat → Nat) : R St := do
  let w ← ld C s (b + 8)
  sto C s (b + 8) (f w)

/-! ### Physical neighbours (tlsf.cc 392-437) -/

/-- `block_prev` (tlsf.cc 401-405). -/
def blockPrev (C : Cfg) (s : St) (b : Nat) : R Nat := do
  let w ← ld C s (b + 8)
  ccAssert (wPrevFree w)
  ld C s b

/-- `block_next` (tlsf.cc 408-413): `block_to_ptr(block) + size - 8`. -/
def blockNext (C : Cfg) (s : St) (b : Nat) : R Nat := do
  let w ← ld C s (b + 8)
  ccAssert (decide (wSize w ≠ 0))
  pure (b + 8 + wSize w)

/-- `block_link_next` (tlsf.cc 416-421). -/
def linkNext (C : Cfg) (s : St) (b : Nat) : R (St × Nat) := do
  let n ← blockNext C s b
  let s ← sto C s n b
  pure (s, n)

/-- `block_mark_as_free` (tlsf.cc 423-429). -/
def markFree (C : Cfg) (s : St) (b : Nat) : R St := do
  let (s, n) ← linkNext C s b
  let s ← modW C s n wSetPrevFree
  modW C s b wSetFree

/-- `block_mark_as_used` (tlsf.cc 431-436). -/
def markUsed (C : Cfg) (s : St) (b : Nat) : R St := do
  let n ← blockNext C s b
  let s ← modW C s n wSetPrevUsed
  modW C s b wSetUsed

/-! ### The free lists (tlsf.cc 512-607) -/

/-- `tlsf_ffs` (tlsf.cc 60): the index of the lowest bit that is set, or -1. -/
def ffs (w : BitVec 32) : Int :=
  match (List.range 32).find? fun i => w.getLsbD i with
  | some i => i
  | none => -1

/-- Indices into the arrays of the control structure. -/
def idx (p : Int × Int) : R (Nat × Nat) :=
  if 0 ≤ p.1 ∧ p.1 < 25 ∧ 0 ≤ p.2 ∧ p.2 < 32 then .ok (p.1.toNat, p.2.toNat) else .error .ub

/-- `search_suitable_block` (tlsf.cc 512-542): the block (0 for none) and the class found. -/
def search (s : St) (fl sl : Nat) : R (Nat × Nat × Nat) := do
  let m := s.sl fl &&& (BitVec.allOnes 32 <<< sl)
  if m = 0#32 then do
    let f := s.fl &&& (BitVec.allOnes 32 <<< (fl + 1))
    if f = 0#32 then pure (0, fl, sl)
    else do
      let i ← idx (ffs f, 0)
      let m := s.sl i.1
      ccAssert (decide (m ≠ 0#32))
      let j ← idx (ffs f, ffs m)
      pure (s.heads j.1 j.2, j.1, j.2)
  else do
    let j ← idx (fl, ffs m)
    pure (s.heads j.1 j.2, j.1, j.2)

/-- A function of two indices with one value changed. -/
def updH (h : Nat → Nat → Nat) (fl sl v : Nat) : Nat → Nat → Nat := fun i j => if i = fl ∧ j = sl then v else h i j

/-- A function of one index with one value changed. -/
def updS (h : Nat → BitVec 32) (fl : Nat) (v : BitVec 32) : Nat → BitVec 32 := fun i => if i = fl then v else h i

/-- `remove_free_block` (tlsf.cc 545-571). -/
def removeFree (C : Cfg) (s : St) (b fl sl : Nat) : R St := do
  let p ← ld C s (b + 24)
  let n ← ld C s (b + 16)
  ccAssert (decide (p ≠ 0))
  ccAssert (decide (n ≠ 0))
  let s ← sto C s (n + 24) p
  let s ← sto C s (p + 16) n
  if s.heads fl sl = b then
    let s := { s with heads := updH s.heads fl sl n }
    if n = C.ctl then
      let s := { s with sl := updS s.sl fl (s.sl fl &&& ~~~(1#32 <<< sl)) }
      if s.sl fl = 0#32 then pure { s with fl := s.fl &&& ~~~(1#32 <<< fl) } else pure s
    else pure s
  else pure s

/-- `insert_free_block` (tlsf.cc 574-591). -/
def insertFree (C : Cfg) (s : St) (b fl sl : Nat) : R St := do
  let c := s.heads fl sl
  ccAssert (decide (c ≠ 0))
  ccAssert (decide (b ≠ 0))
  let s ← sto C s (b + 16) c
  let s ← sto C s (b + 24) C.ctl
  let s ← sto C s (c + 24) b
  ccAssert (decide ((b + 16) % 8 = 0))
  pure { s with heads := updH s.heads fl sl b, fl := s.fl ||| (1#32 <<< fl), sl := updS s.sl fl (s.sl fl ||| (1#32 <<< sl)) }

/-- The class of a block: `mapping_insert(block_size(block), &fl, &sl)`. -/
def classOf (C : Cfg) (s : St) (b : Nat) : R (Nat × Nat) := do
  let w ← ld C s (b + 8)
  let p ← mapInsert (BitVec.ofNat 64 (wSize w))
  idx p

/-- `block_remove` (tlsf.cc 594-599). -/
def blockRemove (C : Cfg) (s : St) (b : Nat) : R St := do
  let c ← classOf C s b
  removeFree C s b c.1 c.2

/-- `block_insert` (tlsf.cc 602-607). -/
def blockInsert (C : Cfg) (s : St) (b : Nat) : R St := do
  let c ← classOf C s b
  insertFree C s b c.1 c.2

/-! ### Splitting and merging (tlsf.cc 609-714) -/

/-- `block_can_split` (tlsf.cc 609). -/
def canSplit (C : Cfg) (s : St) (b size : Nat) : R Bool := do
  let w ← ld C s (b + 8)
  pure (decide (wSize w ≥ 32 + size))

/-- `block_split` (tlsf.cc 612-630): the new state and the second block. -/
def split (C : Cfg) (s : St) (b size : Nat) : R (St × Nat) := do
  let r := b + 8 + size
  let w ← ld C s (b + 8)
  let rs := wSize w - (size + 8)
  ccAssert (decide ((r + 16) % 8 = 0))
  ccAssert (decide (wSize w = rs + size + 8))
  let s ← modW C s r fun w => wSetSize w rs
  let w' ← ld C s (r + 8)
  ccAssert (decide (wSize w' ≥ 24))
  let s ← modW C s b fun w => wSetSize w size
  let s ← markFree C s r
  pure (s, r)

/-- `block_absorb` (tlsf.cc 632-639). -/
def absorb (C : Cfg) (s : St) (p b : Nat) : R St := do
  let wp ← ld C s (p + 8)
  ccAssert (decide (wSize wp ≠ 0))
  let wb ← ld C s (b + 8)
  let s ← sto C s (p + 8) (wp + wSize wb + 8)
  let (s, _) ← linkNext C s p
  pure s

/-- `block_merge_prev` (tlsf.cc 642-654). -/
def mergePrev (C : Cfg) (s : St) (b : Nat) : R (St × Nat) := do
  let w ← ld C s (b + 8)
  if wPrevFree w then do
    let p ← blockPrev C s b
    ccAssert (decide (p ≠ 0))
    let wp ← ld C s (p + 8)
    ccAssert (wFree wp)
    let s ← blockRemove C s p
    let s ← absorb C s p b
    pure (s, p)
  else pure (s, b)

/-- `block_merge_next` (tlsf.cc 657-670). -/
def mergeNext (C : Cfg) (s : St) (b : Nat) : R St := do
  let n ← blockNext C s b
  ccAssert (decide (n ≠ 0))
  let wn ← ld C s (n + 8)
  if wFree wn then do
    let w ← ld C s (b + 8)
    ccAssert (decide (wSize w ≠ 0))
    let s ← blockRemove C s n
    absorb C s b n
  else pure s

/-- `block_trim_free` (tlsf.cc 673-683). -/
def trimFree (C : Cfg) (s : St) (b size : Nat) : R St := do
  let w ← ld C s (b + 8)
  ccAssert (wFree w)
  if ← canSplit C s b size then do
    let (s, r) ← split C s b size
    let (s, _) ← linkNext C s b
    let s ← modW C s r wSetPrevFree
    blockInsert C s r
  else pure s

/-- `block_trim_used` (tlsf.cc 686-698). -/
def trimUsed (C : Cfg) (s : St) (b size : Nat) : R St := do
  let w ← ld C s (b + 8)
  ccAssert (!wFree w)
  if ← canSplit C s b size then do
    let (s, r) ← split C s b size
    let s ← modW C s r wSetPrevUsed
    let s ← mergeNext C s r
    blockInsert C s r
  else pure s

/-- `block_trim_free_leading` (tlsf.cc 700-714): the new state and the block to use. -/
def trimFreeLeading (C : Cfg) (s : St) (b size : Nat) : R (St × Nat) := do
  if ← canSplit C s b size then do
    let (s, r) ← split C s b (size - 8)
    let s ← modW C s r wSetPrevFree
    let (s, _) ← linkNext C s b
    let s ← blockInsert C s b
    pure (s, r)
  else pure (s, b)

/-! ### The interface (tlsf.cc 717-1201) -/

/-- `block_locate_free` (tlsf.cc 716-744). -/
def locateFree (C : Cfg) (s : St) (size : BitVec 64) : R (St × Nat) := do
  if size ≠ 0#64 then do
    let p ← mapSearch size
    if p.1 < 25 then do
      let i ← idx p
      let (b, fl, sl) ← search s i.1 i.2
      if b ≠ 0 then do
        let w ← ld C s (b + 8)
        ccAssert (decide (wSize w ≥ size.toNat))
        let s ← removeFree C s b fl sl
        pure (s, b)
      else pure (s, 0)
    else pure (s, 0)
  else pure (s, 0)

/-- `block_prepare_used` (tlsf.cc 746-757). -/
def prepareUsed (C : Cfg) (s : St) (b size : Nat) : R (St × Nat) := do
  if b ≠ 0 then do
    ccAssert (decide (size ≠ 0))
    let s ← trimFree C s b size
    let s ← markUsed C s b
    pure (s, b + 16)
  else pure (s, 0)

/-- `control_construct` (tlsf.cc 760-776). -/
def construct (C : Cfg) (mem : Nat → Nat) : R St := do
  let s : St := { mem := mem, fl := 0#32, sl := fun _ => 0#32, heads := fun _ _ => C.ctl }
  let s ← sto C s (C.ctl + 16) C.ctl
  sto C s (C.ctl + 24) C.ctl

/-- `tlsf_add_pool` (tlsf.cc 927-971): the new state and whether the pool was added. -/
def addPool (C : Cfg) (s : St) (base : Nat) (bytes : BitVec 64) : R (St × Bool) := do
  let q ← poolBytes bytes
  if base % 8 ≠ 0 then pure (s, false)
  else
    match q with
    | none => pure (s, false)
    | some pb => do
      let b := base - 8
      let s ← modW C s b fun w => wSetSize w pb.toNat
      let s ← modW C s b wSetFree
      let s ← modW C s b wSetPrevUsed
      let s ← blockInsert C s b
      let (s, n) ← linkNext C s b
      let s ← modW C s n fun w => wSetSize w 0
      let s ← modW C s n wSetUsed
      let s ← modW C s n wSetPrevFree
      pure (s, true)

/-- `tlsf_remove_pool` (tlsf.cc 973-987). -/
def removePool (C : Cfg) (s : St) (base : Nat) : R St := do
  let b := base - 8
  let w ← ld C s (b + 8)
  ccAssert (wFree w)
  let n ← blockNext C s b
  let wn ← ld C s (n + 8)
  ccAssert (!wFree wn)
  ccAssert (decide (wSize wn = 0))
  blockRemove C s b

/-- `sizeof(control_t)` (tlsf.cc 352-364): `block_null`, the bitmaps and the heads of the lists. -/
def controlSize : Nat := 32 + 4 + 25 * 4 + 25 * 32 * 8

/-- `tlsf_create_with_pool` (tlsf.cc 1038-1043); the memory begins at `C.ctl`. What `tlsf_add_pool` returns is ignored by the code; it is part of
the result here. The code goes on with a null pointer when the memory is misaligned. -/
def createWithPool (C : Cfg) (mem : Nat → Nat) (bytes : BitVec 64) : R (St × Bool) := do
  if C.ctl % 8 ≠ 0 then .error .ub
  else do
    let s ← construct C mem
    addPool C s (C.ctl + controlSize) (bytes - BitVec.ofNat 64 controlSize)

/-- `tlsf_malloc` (tlsf.cc 1055-1061). -/
def malloc (C : Cfg) (s : St) (size : BitVec 64) : R (St × Nat) := do
  let adjust ← adjustRequestSize size 8#64
  let (s, b) ← locateFree C s adjust
  prepareUsed C s b adjust.toNat

/-- `align_ptr` (tlsf.cc 450-455), for an alignment that is a power of two (or 0, for which the result is 0). -/
def alignPtr (p align : Nat) : Nat := (p + (align - 1)) / align * align

/-- The difference of two pointers as a `size_t`. -/
def ptrDiff (q p : Nat) : Nat := (q + 2 ^ 64 - p) % 2 ^ 64

/-- The gap in front of the aligned address in `tlsf_memalign` (tlsf.cc 1090-1106). -/
def gapOf (p align : Nat) : Nat :=
  let aligned := alignPtr p align
  let gap := ptrDiff aligned p
  if gap ≠ 0 ∧ gap < 32 then
    ptrDiff (alignPtr (aligned + max (32 - gap) align) align) p
  else gap

/-- `tlsf_memalign` (tlsf.cc 1063-1115). The alignment is checked to be a power of two by `adjust_request_size`. -/
def memalign (C : Cfg) (s : St) (align size : BitVec 64) : R (St × Nat) := do
  let adjust ← adjustRequestSize size 8#64
  let withGap ← adjustRequestSize (adjust + align + 32#64) align
  let alignedSize := if adjust ≠ 0#64 ∧ align > 8#64 then withGap else adjust
  let (s, b) ← locateFree C s alignedSize
  if b ≠ 0 then do
    let gap := gapOf (b + 16) align.toNat
    if gap ≠ 0 then do
      ccAssert (decide (gap ≥ 32))
      let (s, b) ← trimFreeLeading C s b gap
      prepareUsed C s b adjust.toNat
    else prepareUsed C s b adjust.toNat
  else prepareUsed C s b adjust.toNat

/-- `tlsf_free` (tlsf.cc 1117-1130). -/
def free (C : Cfg) (s : St) (ptr : Nat) : R St := do
  if ptr ≠ 0 then do
    let b := ptr - 16
    let w ← ld C s (b + 8)
    ccAssert (!wFree w)
    let s ← markFree C s b
    let (s, b) ← mergePrev C s b
    let s ← mergeNext C s b
    blockInsert C s b
  else pure s

/-- The whole words of `memcpy`. -/
def copyWords (C : Cfg) : St → Nat → Nat → Nat → R St
  | s, _, _, 0 => pure s
  | s, d, p, n + 1 => do
    let w ← ld C s p
    let s ← sto C s d w
    copyWords C s (d + 8) (p + 8) n

/-- `memcpy` between addresses that are multiples of 8; the last bytes are merged into the last word (little endian). -/
def memcpy (C : Cfg) (s : St) (d p n : Nat) : R St := do
  let s ← copyWords C s d p (n / 8)
  if n % 8 ≠ 0 then do
    let w ← ld C s (p + n / 8 * 8)
    let o ← ld C s (d + n / 8 * 8)
    sto C s (d + n / 8 * 8) (w % 256 ^ (n % 8) + o / 256 ^ (n % 8) * 256 ^ (n % 8))
  else pure s

/-- `tlsf_realloc` (tlsf.cc 1145-1201). -/
def realloc (C : Cfg) (s : St) (ptr : Nat) (size : BitVec 64) : R (St × Nat) := do
  if ptr ≠ 0 ∧ size = 0#64 then do
    let s ← free C s ptr
    pure (s, 0)
  else if ptr = 0 then malloc C s size
  else do
    let b := ptr - 16
    let n ← blockNext C s b
    let w ← ld C s (b + 8)
    let wn ← ld C s (n + 8)
    let cur := wSize w
    let combined := cur + wSize wn + 8
    let adjust ← adjustRequestSize size 8#64
    ccAssert (!wFree w)
    if adjust.toNat > cur ∧ (wFree wn = false ∨ adjust.toNat > combined) then do
      let (s, p) ← malloc C s size
      if p ≠ 0 then do
        let s ← memcpy C s p ptr (min cur size.toNat)
        let s ← free C s ptr
        pure (s, p)
      else pure (s, p)
    else do
      let s ← (if adjust.toNat > cur then do
          let s ← mergeNext C s b
          markUsed C s b
        else pure s : R St)
      let s ← trimUsed C s b adjust.toNat
      pure (s, ptr)

/-- `tlsf_block_size` (tlsf.cc 886-895). -/
def blockSizeOf (C : Cfg) (s : St) (ptr : Nat) : R Nat :=
  if ptr ≠ 0 then do
    let w ← ld C s (ptr - 16 + 8)
    pure (wSize w)
  else pure 0

end Verif.Tlsf
