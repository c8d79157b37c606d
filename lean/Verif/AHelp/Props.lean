import Verif.AHelp.Step
import Verif.SysAlloc.Props

/-! Property theorems for the helpers of `cc::allocator` and for `cc::temp_cstr`: C76. -/
namespace Verif.AHelp
open Verif.Bits Verif.Alloc Spec
open Verif.SysAlloc (Heap Blk Blocks Apart has_iff top le_top top_ge)
open Verif.SysAlloc.Spec (Fresh)

variable {A : Al} {strict : Bool} {rounds : Nat}

theorem elemOf_iff {κ : Kind} {E : Elem} : elemOf κ = some E ↔ κ = .single E ∨ κ = .array E ∨ κ = .sized E := by
  cases κ <;> simp [elemOf]

theorem placed_of_inv {w : World} {t : State} {k : Nat → Blk} (I : Inv w.st w.vars t k) : Placed w t where
  null := fun i => by
    constructor
    · exact I.null i
    · intro hv
      cases hs : t i with
      | none => rfl
      | some b =>
        obtain ⟨a, ha, -⟩ := I.live i b hs
        rw [hv] at ha; cases ha
  aligned := fun i b a hs hv => by
    obtain ⟨a', ha, o⟩ := I.live i b hs
    rw [hv] at ha; cases ha
    exact o.align
  apart := fun i j b c a d hij hs ht hv hw => by
    obtain ⟨a', ha, o⟩ := I.live i b hs
    obtain ⟨d', hd, q⟩ := I.live j c ht
    rw [hv] at ha; cases ha
    rw [hw] at hd; cases hd
    have h1 := I.blocks.ne o.mem q.mem (I.inj i j b c hs ht hij)
    unfold Apart at h1
    have := o.at_
    have := o.hi
    have := q.at_
    have := q.hi
    omega
  alive := fun x E => by
    constructor
    · intro hx
      obtain ⟨c, hc, h1, h2⟩ := I.covered x (by rw [hx]; simp)
      obtain ⟨i, b, hb, rfl⟩ := I.all c hc
      obtain ⟨a, hv, o⟩ := I.live i b hb
      rw [o.objs x h1 h2] at hx
      cases he : elemOf b.kind with
      | none => rw [objAt_raw he] at hx; cases hx
      | some F =>
        rw [objAt_some he] at hx
        split at hx
        · next hc =>
          cases hx
          obtain ⟨h3, h4, h5, h6⟩ := hc
          obtain ⟨q, hq⟩ := Nat.dvd_of_mod_eq_zero h6
          exact ⟨h3, i, b, a, q, hb, hv, elemOf_iff.mp he, by omega, by omega⟩
        · cases hx
    · rintro ⟨h1, i, b, a, q, hb, hv, hk, rfl, hq⟩
      obtain ⟨a', hv', o⟩ := I.live i b hb
      rw [hv] at hv'; cases hv'
      have := o.at_
      have := o.hi
      rw [o.objs _ (by omega) (by omega), objAt_some (elemOf_iff.mpr hk), if_pos ⟨h1, by omega, by omega, by rw [Nat.add_sub_cancel_left]; exact Nat.mul_mod_right _ _⟩]

/-- **C76**, partial. For every allocator that does what `cc::allocator` says about `alloc` and `free`, every legal history of `new_t`, `new_array`, `new_array_sized`, the deletes that belong
to them, `alloc_data_copy`, `alloc_string_copy`, `alloc`, `realloc`, `free`, temporary C strings, reads and writes, whose sizes do not wrap around: no undefined behaviour; the program asserts only if
the allocator has no memory (or none is given, or it does not know its sizes); otherwise every call returns what the specification says, every item is aligned and lies apart
from the others, exactly the objects that belong to an item are alive, none has lost its memory before its destructor ran, and when nothing is left, the allocator has all its memory back.
If the standard is taken by the letter, calls with unaligned `size_t` or null arguments to the C library are left out. Missing: `C76_array_size_wraps`, `C76_new_array_hangs`,
`C76_size_unaligned`, `C76_null_source`. -/
theorem C76_helpers_partial (hA : Good A) (hr : 2 ^ 32 ≤ rounds) (m : Mem) (ops : List Op) (hl : AllLegal (fun _ => none) ops) (hsm : ∀ op ∈ ops, Small op)
    (hst : strict = true → ∀ op ∈ ops, ByTheLetter op) :
    (∃ w os s, run A strict rounds (World.init m) ops = .ok (some (w, os)) ∧ Spec.run (fun _ => none) ops os = some s ∧ Placed w s ∧ w.st.lost = 0 ∧
      ((∀ i, s i = none) → w.st.heap.blocks = [])) ∨
    (run A strict rounds (World.init m) ops = .error .assert ∧ SomeStops A strict rounds (World.init m) ops) := by
  rcases run_ok hA hr ops (inv_init m) hl hsm hst with ⟨w, os, s, k, e, t, I⟩ | h
  · refine Or.inl ⟨w, os, s, e, t, placed_of_inv I, I.lost, fun hn => ?_⟩
    cases hb : w.st.heap.blocks with
    | nil => rfl
    | cons b l =>
      obtain ⟨i, c, h1, -⟩ := I.all b (by rw [hb]; simp)
      rw [hn i] at h1; cases h1
  · exact Or.inr h

/-! ### an allocator -/

/-- A simple allocator: the next free address below `lim`; null for size 0. -/
def bump (lim : Nat) : Al where
  alloc h n al := if n = 0 then .ok none else if alignUpN (top h.blocks) al.toNat + n.toNat ≤ lim then .ok (some (alignUpN (top h.blocks) al.toNat, n.toNat)) else .error .assert
  sizes := true

theorem bump_good {lim : Nat} (hlim : lim < 2 ^ 63) : Good (bump lim) where
  fails := by
    intro h n al f e
    simp only [bump] at e
    split at e
    · cases e
    · split at e
      · cases e
      · cases e; rfl
  null := by
    intro h n al e
    simp only [bump] at e
    split at e
    · assumption
    · split at e <;> cases e
  fresh := by
    intro h n al a u hp e
    simp only [bump] at e
    split at e
    · cases e
    · split at e
      · next hle =>
        cases e
        have g := alignUpN_ge (top h.blocks) al.toNat (pow2_pos hp)
        have t := top_ge h.blocks
        refine ⟨⟨by omega, by omega, fun b hb => ?_⟩, Nat.le_refl _, alignUpN_dvd _ _⟩
        have := le_top hb
        omega
      · cases e

/-- An object of 16 bytes with a destructor. -/
def thing : Elem := { size := 16, align := 16, tctor := false, tdtor := false, dflt := List.replicate 15 0 ++ [7] }

theorem ok_thing : Ok thing := ⟨by decide, by decide, ⟨4, rfl⟩, ⟨1, rfl⟩, rfl, by intro h; cases h⟩

/-- `short`. -/
def short : Elem := { size := 2, align := 2, tctor := true, tdtor := true, dflt := [0, 0] }

/-- Used in the examples. -/
def demoOps : List Op :=
  [.newArray 0 thing 3#64, .read 0 47, .newArray 1 short 5#64, .write 1 9 3#8, .read 1 9, .read 1 8, .newT 2 thing (List.replicate 16 1), .newArraySized 3 thing 0#64, .newArraySized 4 thing 2#64,
    .stringCopy 5 (some [65, 66]), .read 5 1, .read 5 2, .dataCopy 6 short none, .cstr (some [65, 66, 67]) true, .cstr (some [65, 0, 67]) true, .cstrIn (some [65]) 5 2 false,
    .realloc 5 8#64 1#64, .read 5 1, .deleteArraySized 4 thing 2#64, .deleteT 2 thing, .deleteArray 0 thing, .deleteArray 1 short, .free 5, .deleteArray 3 thing]

/-- Every kind of call; at the end everything has been given back. -/
example : (run (bump 1048576) false 10 (World.init fun _ => 0) demoOps).map (fun q => q.map fun q => (q.2, q.1.st.heap.blocks.length, q.1.st.lost)) =
    .ok (some ([.ptr true, .byte 7#8, .ptr true, .none, .byte 3#8, .byte 0#8, .ptr true, .ptr false, .ptr true,
      .ptr true, .byte 66#8, .byte 0#8, .ptr false, .str [65, 66, 67], .str [65], .str [65],
      .ptr true, .byte 0#8, .none, .none, .none, .none, .none, .none], 0, 0)) := by
  decide +kernel

/-- A legal history with small sizes that also keeps to the letter. -/
example : AllLegal (fun _ => none) [.newArray 0 thing 3#64, .read 0 47, .deleteArray 0 thing] ∧
    ∀ op ∈ [Op.newArray 0 thing 3#64, .read 0 47, .deleteArray 0 thing], Small op ∧ ByTheLetter op := by
  refine ⟨⟨⟨rfl, ok_thing⟩, ?_⟩, ?_⟩
  · intro o s e
    obtain rfl : s = upd (fun _ => none) 0 (some ⟨.array thing, 16, arrayBytes thing 3⟩) := by
      cases o with
      | ptr ok => cases ok <;> simp [Spec.step] at e; exact e.symm
      | _ => simp [Spec.step] at e
    refine ⟨⟨_, rfl, by decide⟩, ?_⟩
    intro o s e
    obtain rfl : s = upd (fun _ => none) 0 (some ⟨.array thing, 16, arrayBytes thing 3⟩) := by
      cases o with
      | byte v =>
        simp only [Spec.step, upd, if_true] at e
        split at e
        · cases e; rfl
        · cases e
      | _ => simp [Spec.step] at e
    refine ⟨?_, fun _ _ _ => trivial⟩
    intro b hb
    simp only [upd, if_true] at hb
    cases hb; rfl
  · intro op hop
    simp only [List.mem_cons, List.not_mem_nil, or_false] at hop
    rcases hop with h | h | h <;> subst h <;> simp [Spec.Small, ByTheLetter, thing, padding]

/-! ### what goes wrong -/

/-- `uint64_t`. -/
def u64 : Elem := { size := 8, align := 8, tctor := true, tdtor := true, dflt := List.replicate 8 0 }

theorem ok_u64 : Ok u64 := ⟨by decide, by decide, ⟨3, rfl⟩, ⟨1, rfl⟩, rfl, fun _ => rfl⟩

theorem allocate_eq {s : St} {n al : BitVec 64} {a u : Nat} (h : A.alloc s.heap n al = .ok (some (a, u))) : allocate A s n al = .ok ({ s with heap := s.heap.add a u }, some a) := by
  simp only [allocate, h, R.ok_bind]

/-- **C76**, negation of the full property, for every allocator that gives out a block of 8 bytes: the size of an array is computed modulo `2^64`, so
`new_array<uint64_t>(2^61)` returns a pointer behind a block of 8 bytes, and using its first element is undefined. -/
theorem C76_array_size_wraps {a : Nat} (m : Mem) (ha : A.alloc (World.init m).st.heap 8#64 8#64 = .ok (some (a, 8))) (hd : 8 ∣ a) (v : Byte) :
    Legal (fun _ => none) (.newArray 0 u64 (BitVec.ofNat 64 (2 ^ 61))) ∧
    (run A strict rounds (World.init m) [.newArray 0 u64 (BitVec.ofNat 64 (2 ^ 61))]).map (fun r => r.map fun r => r.2) = .ok (some [.ptr true]) ∧
    (run A strict rounds (World.init m) [.newArray 0 u64 (BitVec.ofNat 64 (2 ^ 61)), .write 0 0 v]).map (fun r => r.map fun r => r.2) = .error .ub := by
  have e0 : BitVec.ofNat 64 u64.size * BitVec.ofNat 64 (2 ^ 61) + BitVec.ofNat 64 (padding u64.size) = 8#64 := by decide
  have e1 : (BitVec.ofNat 64 u64.size * BitVec.ofNat 64 (2 ^ 61)).toNat = 0 := by decide
  have b1 : ((World.init m).st.heap.add a 8).has a 8 = true := by simp [Heap.has, Heap.add]
  have b2 : ∀ mm : Mem, Heap.has ⟨mm, [⟨a, 8⟩]⟩ (a + 8) 0 = true := by intro mm; simp [Heap.has]
  have b3 : ∀ mm : Mem, Heap.has ⟨mm, [⟨a, 8⟩]⟩ (a + 8 + 0) 1 = false := by intro mm; simp [Heap.has]
  have key : newArray A strict rounds (World.init m).st u64 (BitVec.ofNat 64 (2 ^ 61)) =
      .ok (some (⟨⟨fun x => if a + 8 ≤ x ∧ x < a + 8 + 0 then 0 else Alloc.write64 m a (BitVec.ofNat 64 (2 ^ 61)) x, [⟨a, 8⟩]⟩, fun _ => none, 0⟩, some (a + 8))) := by
    unfold newArray
    rw [e0, show BitVec.ofNat 64 u64.align = 8#64 from rfl, allocate_eq ha, R.ok_bind]
    dsimp only
    have e2 : sizeTOk strict a = .ok () := if_neg (fun h => h.2 (Nat.mod_eq_zero_of_dvd hd))
    have e3 : ((World.init m).st.heap.add a 8).write64 a (BitVec.ofNat 64 (2 ^ 61)) = .ok ⟨Alloc.write64 m a (BitVec.ofNat 64 (2 ^ 61)), [⟨a, 8⟩]⟩ := if_pos b1
    rw [e2, R.ok_bind, e3, R.ok_bind]
    have e4 : initArray strict rounds ⟨⟨Alloc.write64 m a (BitVec.ofNat 64 (2 ^ 61)), [⟨a, 8⟩]⟩, fun _ => none, 0⟩ u64 (some (a + 8)) (BitVec.ofNat 64 (2 ^ 61)) =
        .ok (some ⟨⟨fun x => if a + 8 ≤ x ∧ x < a + 8 + 0 then 0 else Alloc.write64 m a (BitVec.ofNat 64 (2 ^ 61)) x, [⟨a, 8⟩]⟩, fun _ => none, 0⟩) := by
      unfold initArray
      rw [if_pos (show u64.tctor = true from rfl), e1]
      have e5 : notNull strict (some (a + 8)).isNone = .ok () := by simp [notNull]
      have e6 : memset ⟨Alloc.write64 m a (BitVec.ofNat 64 (2 ^ 61)), [⟨a, 8⟩]⟩ (a + 8) 0 =
          .ok ⟨fun x => if a + 8 ≤ x ∧ x < a + 8 + 0 then 0 else Alloc.write64 m a (BitVec.ofNat 64 (2 ^ 61)) x, [⟨a, 8⟩]⟩ := if_pos (b2 _)
      rw [e5, R.ok_bind]
      dsimp only
      rw [e6, R.ok_bind]
    exact (congrArg (fun r : R (Option St) => r >>= _) e4).trans rfl
  refine ⟨⟨rfl, ok_u64⟩, ?_, ?_⟩
  · simp only [run, step, key, R.ok_bind, Option.map_some]; rfl
  · simp only [run, step, key, R.ok_bind, Option.map_some, World.keep, World.put, World.deref, if_true, Heap.write8, b3]; rfl

example : (run (bump 1048576) true 10 (World.init fun _ => 0) [.newArray 0 u64 (BitVec.ofNat 64 (2 ^ 61)), .write 0 0 1]).map (fun r => r.map fun r => r.2) = .error .ub := by decide +kernel

theorem ctorLoop_hangs {E : Elem} {p : Nat} {n : BitVec 64} (hn : 2 ^ 32 ≤ n.toNat) (hd : E.dflt.length = E.size) (hdv : E.align ∣ E.size) (ha : E.align ∣ p) :
    ∀ (f : Nat) (i : BitVec 32) (s : St), (∀ j, j < 2 ^ 32 → s.heap.has (p + E.size * j) E.size = true) → ctorLoop E p n f i s = .ok none
  | 0, i, s, _ => by
    unfold ctorLoop
    rw [if_pos (setWidth_lt.mpr (by have := i.isLt; omega))]
  | f + 1, i, s, hs => by
    unfold ctorLoop
    rw [if_pos (setWidth_lt.mpr (by have := i.isLt; omega))]
    dsimp only
    have e : ∃ s', construct s E (p + E.size * i.toNat) E.dflt = .ok s' ∧ s'.heap.blocks = s.heap.blocks := by
      unfold construct store
      rw [if_pos (Nat.mod_eq_zero_of_dvd (Nat.dvd_add ha (Nat.dvd_trans hdv (Nat.dvd_mul_right _ _)))), hd, if_pos (hs _ i.isLt)]
      exact ⟨_, rfl, rfl⟩
    obtain ⟨s', e, hb⟩ := e
    rw [e, R.ok_bind]
    refine ctorLoop_hangs hn hd hdv ha f _ s' (fun j hj => ?_)
    have := hs j hj
    rw [has_iff] at this ⊢
    rw [hb]
    exact this

/-- **C76**, negation of the full property, for every allocator that has the memory and every type with a constructor: the loop of `new_array` counts with 32 bits, so an array of `2^32` or more
elements is never finished, whatever the number of rounds; it constructs new objects over the old ones for ever. -/
theorem C76_new_array_hangs {E : Elem} (hA : Good A) (hE : Ok E) (hc : E.tctor = false) {n : BitVec 64} (hn : 2 ^ 32 ≤ n.toNat) (hfit : E.size * n.toNat + padding E.size < 2 ^ 64) (m : Mem)
    {a u : Nat} (ha : A.alloc (World.init m).st.heap (BitVec.ofNat 64 (E.size * n.toNat + padding E.size)) (BitVec.ofNat 64 E.align) = .ok (some (a, u))) :
    Legal (fun _ => none) (.newArray 0 E n) ∧ ∀ rounds, run A false rounds (World.init m) [.newArray 0 E n] = .ok none := by
  refine ⟨⟨rfl, hE⟩, fun rounds => ?_⟩
  obtain ⟨-, h2, h3⟩ := hA.fresh _ _ _ _ _ (by rw [toNat_align hE]; exact hE.align) ha
  rw [toNat_ofNat_lt hfit] at h2
  rw [toNat_align hE] at h3
  have hp := padding_ge hE.pos
  have key : newArray A false rounds (World.init m).st E n = .ok none := by
    unfold newArray
    rw [bv_size, allocate_eq ha, R.ok_bind]
    dsimp only
    have e2 : sizeTOk false a = .ok () := if_neg (by simp)
    have e3 : ((World.init m).st.heap.add a u).write64 a n = .ok ⟨Alloc.write64 m a n, [⟨a, u⟩]⟩ :=
      if_pos (by rw [has_iff]; exact ⟨⟨a, u⟩, by simp [Heap.add], Nat.le_refl _, by dsimp only; omega⟩)
    rw [e2, R.ok_bind, e3, R.ok_bind]
    have e4 : initArray false rounds ⟨⟨Alloc.write64 m a n, [⟨a, u⟩]⟩, fun _ => none, 0⟩ E (some (a + padding E.size)) n = .ok none := by
      unfold initArray
      rw [if_neg (by rw [hc]; simp)]
      dsimp only
      refine ctorLoop_hangs hn hE.dflt hE.dvd (Nat.dvd_add h3 (Nat.dvd_trans hE.dvd hp.2)) _ _ _ ?_
      intro j hj
      have : E.size * j + E.size ≤ E.size * n.toNat := by
        rw [← Nat.mul_succ]
        exact Nat.mul_le_mul_left _ (by omega)
      exact has_iff.mpr ⟨⟨a, u⟩, by simp, by dsimp only; omega, by dsimp only; omega⟩
    exact (congrArg (fun r : R (Option St) => r >>= _) e4).trans rfl
  simp only [run, step, key, R.ok_bind, Option.map_none]

/-- Such an allocator, and a type. -/
example : ∀ rounds, run (bump (2 ^ 62)) false rounds (World.init fun _ => 0) [.newArray 0 thing (BitVec.ofNat 64 (2 ^ 32))] = .ok none := by
  refine (C76_new_array_hangs (bump_good (by decide)) ok_thing rfl (by decide) (by decide) _ (a := 4096) (u := 16 * 2 ^ 32 + 16) ?_).2
  decide +kernel

/-- **C76**, negation of the full property if the standard is taken by the letter, for every allocator and every state: if the memory that `alloc` returns is not aligned to 8, as is to be expected for
smaller alignments, `new_array` stores the number of elements as a misaligned `size_t`; so does every `temp_cstr` that needs the allocator. -/
theorem C76_size_unaligned (w : World) {a u : Nat} (hd : ¬ 8 ∣ a) :
    (∀ i E n, A.alloc w.st.heap (BitVec.ofNat 64 (E.size * n.toNat + padding E.size)) (BitVec.ofNat 64 E.align) = .ok (some (a, u)) → step A true rounds w (.newArray i E n) = .error .ub) ∧
    (∀ sv, A.alloc w.st.heap (BitVec.ofNat 64 ((bytesOf sv).length + 10)) 1#64 = .ok (some (a, u)) → step A true rounds w (.cstr sv true) = .error .ub) := by
  have key : ∀ E n, A.alloc w.st.heap (BitVec.ofNat 64 (E.size * n.toNat + padding E.size)) (BitVec.ofNat 64 E.align) = .ok (some (a, u)) → newArray A true rounds w.st E n = .error .ub := by
    intro E n h
    unfold newArray
    rw [bv_size, allocate_eq h, R.ok_bind]
    dsimp only
    have e2 : sizeTOk true a = .error .ub := if_pos ⟨rfl, fun h => hd (Nat.dvd_of_mod_eq_zero h)⟩
    rw [e2, R.error_bind]
  refine ⟨fun i E n h => by simp only [step, key E n h, R.error_bind], fun sv h => ?_⟩
  have e : newArray A true rounds w.st char (BitVec.ofNat 64 (sv.getD []).length + 1#64) = .error .ub := by
    refine key _ _ ?_
    rw [← bv_size, ← h]
    congr 1
    apply BitVec.eq_of_toNat_eq
    simp [char, padding, bytesOf, Nat.add_assoc]
  simp only [step, cstrCtor, initFromAllocator, ccAssert_true, R.ok_bind, e, R.error_bind]

/-- With the allocator above: a byte, and then a C string. -/
example : (run (bump 1048576) true 10 (World.init fun _ => 0) [.alloc 0 1#64 1#64, .cstr (some [65]) true]).map (fun r => r.map fun r => r.2) = .error .ub ∧
    (run (bump 1048576) true 10 (World.init fun _ => 0) [.alloc 0 1#64 1#64, .newArray 1 short 3#64]).map (fun r => r.map fun r => r.2) = .error .ub := by
  constructor <;> decide +kernel

/-- **C76**, negation of the full property if the standard is taken by the letter, for every allocator and every state: a default constructed string view that is turned into a C string in a buffer
is copied with null as source, and `new_array_sized` of no elements sets no bytes at null if the allocator returns null for size 0. -/
theorem C76_null_source (w : World) (i : Nat) :
    (∀ n hv a, w.vars i = some a → 0 < n → step A true rounds w (.cstrIn none i n hv) = .error .ub) ∧
    (∀ E, E.tctor = true → A.alloc w.st.heap 0 (BitVec.ofNat 64 E.align) = .ok none → step A true rounds w (.newArraySized i E 0) = .error .ub) := by
  constructor
  · intro n hv a h hn
    simp only [step, World.deref, h, R.ok_bind, cstrCtorIn]
    rw [if_pos (by simpa using hn)]
    rfl
  · intro E hc h
    have e : allocate A w.st (BitVec.ofNat 64 E.size * 0) (BitVec.ofNat 64 E.align) = .ok (w.st, none) := by
      rw [show BitVec.ofNat 64 E.size * 0 = 0 from BitVec.mul_zero]
      simp only [allocate, h, R.ok_bind]
    have e2 : newArraySized A true rounds w.st E 0 = .error .ub := by
      unfold newArraySized
      rw [e, R.ok_bind]
      simp only [initArray, hc, if_true]
      rfl
    simp only [step, e2, R.error_bind]

example : (run (bump 1048576) true 10 (World.init fun _ => 0) [.alloc 0 4#64 1#64, .cstrIn none 0 4 false]).map (fun r => r.map fun r => r.2) = .error .ub ∧
    (run (bump 1048576) true 10 (World.init fun _ => 0) [.newArraySized 1 short 0#64]).map (fun r => r.map fun r => r.2) = .error .ub := by
  constructor <;> decide +kernel

end Verif.AHelp
