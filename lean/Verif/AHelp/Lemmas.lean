import Verif.AHelp.Spec
import Verif.SysAlloc.Realloc

/-! The invariant of a program that uses the helpers of an allocator. -/
namespace Verif.AHelp
open Verif.Bits Verif.Alloc Spec
open Verif.SysAlloc (Heap Blk Blocks Apart has_iff put put_same put_ne)
open Verif.SysAlloc.Spec (Fresh)

/-- Where the bytes begin in the block. -/
def off : Kind → Nat
  | .array E => padding E.size
  | _ => 0

/-- The type of the elements. -/
def elemOf : Kind → Option Elem
  | .single E => some E
  | .array E => some E
  | .sized E => some E
  | .raw => none

/-- The object that should be at address `x`. -/
def objAt (κ : Kind) (a len x : Nat) : Option Elem :=
  match elemOf κ with
  | some E => if E.tdtor = false ∧ a ≤ x ∧ x < a + len ∧ (x - a) % E.size = 0 then some E else none
  | none => none

/-- Item `b` at address `a` in block `k`. -/
structure Owned (s : St) (b : Item) (a : Nat) (k : Blk) : Prop where
  mem : k ∈ s.heap.blocks
  at_ : k.addr + off b.kind = a
  hi : a + b.bytes.length ≤ k.addr + k.size
  header : ∀ E, b.kind = .array E → E.size * (Alloc.read64 s.heap.mem k.addr).toNat = b.bytes.length
  objs : ∀ x, k.addr ≤ x → x < k.addr + k.size → s.objs x = objAt b.kind a b.bytes.length x
  align : b.align ∣ a
  elem : ∀ E, elemOf b.kind = some E → Ok E ∧ b.align = E.align ∧ ∃ n, b.bytes.length = E.size * n ∧ n < 2 ^ 64 ∧ (E.tdtor = false → n < 2 ^ 32)
  single : ∀ E, b.kind = .single E → b.bytes.length = E.size
  content : ∀ (o : Nat) (v : Byte), b.bytes[o]? = some (some v) → s.heap.mem (a + o) = v

theorem padding_ge {n : Nat} (h : 0 < n) : 8 ≤ padding n ∧ n ∣ padding n := by
  unfold padding
  split
  · exact ⟨by assumption, Nat.dvd_refl _⟩
  · refine ⟨?_, Nat.dvd_mul_right _ _⟩
    have : n * (8 / n) + 8 % n = 8 := Nat.div_add_mod 8 n
    have h2 := Nat.mod_lt 8 h
    rw [Nat.mul_add]
    omega

/-- Changes outside of the block do not matter. -/
theorem Owned.frame {s s' : St} {b : Item} {a : Nat} {k : Blk} (o : Owned s b a k) (hk : k ∈ s'.heap.blocks)
    (hm : ∀ x, k.addr ≤ x → x < k.addr + k.size → s'.heap.mem x = s.heap.mem x ∧ s'.objs x = s.objs x) : Owned s' b a k where
  mem := hk
  at_ := o.at_
  hi := o.hi
  header := by
    intro E hE
    have h1 := o.hi
    have h2 := o.at_
    rw [hE] at h2
    have := (padding_ge (o.elem E (by rw [hE]; rfl)).1.pos).1
    simp only [off] at h2
    rw [← o.header E hE, Alloc.read64_congr (m := s'.heap.mem) (m' := s.heap.mem) (fun x h5 h6 => (hm x (by omega) (by omega)).1)]
  objs := fun x h1 h2 => by rw [(hm x h1 h2).2]; exact o.objs x h1 h2
  align := o.align
  elem := o.elem
  single := o.single
  content := by
    intro q v hv
    have hl : q < b.bytes.length := (List.getElem?_eq_some_iff.mp hv).1
    have := o.hi
    have := o.at_
    rw [(hm _ (by omega) (by omega)).1]
    exact o.content q v hv

/-- The invariant, for any set of variables. -/
structure Inv {ι : Type} (s : St) (vars : ι → Option Nat) (t : ι → Option Item) (k : ι → Blk) : Prop where
  blocks : Blocks s.heap
  lost : s.lost = 0
  covered : ∀ x, s.objs x ≠ none → ∃ b ∈ s.heap.blocks, b.addr ≤ x ∧ x < b.addr + b.size
  null : ∀ i, t i = none → vars i = none
  live : ∀ i b, t i = some b → ∃ a, vars i = some a ∧ Owned s b a (k i)
  inj : ∀ i j b c, t i = some b → t j = some c → i ≠ j → k i ≠ k j
  all : ∀ b ∈ s.heap.blocks, ∃ i c, t i = some c ∧ k i = b

variable {ι κ : Type} {s s' : St} {vars : ι → Option Nat} {t : ι → Option Item} {k : ι → Blk}

/-- Other names for the variables. -/
theorem Inv.comp (I : Inv s vars t k) (f : κ → ι) (hi : ∀ x y, f x = f y → x = y) (hc : ∀ x, t x ≠ none → ∃ y, f y = x) :
    Inv s (fun x => vars (f x)) (fun x => t (f x)) (fun x => k (f x)) where
  blocks := I.blocks
  lost := I.lost
  covered := I.covered
  null := fun i hi => I.null _ hi
  live := fun i b hb => I.live _ b hb
  inj := fun i j b c h1 h2 h3 => I.inj _ _ b c h1 h2 (fun e => h3 (hi _ _ e))
  all := by
    intro b hb
    obtain ⟨i, c, h1, h2⟩ := I.all b hb
    obtain ⟨y, rfl⟩ := hc i (by rw [h1]; simp)
    exact ⟨y, c, h1, h2⟩

/-- One more variable, null. -/
theorem Inv.extend (I : Inv s vars t k) :
    Inv s (fun x : Option ι => x.bind vars) (fun x : Option ι => x.bind t) (fun x : Option ι => x.elim ⟨0, 0⟩ k) where
  blocks := I.blocks
  lost := I.lost
  covered := I.covered
  null := fun i hi => by
    cases i with
    | none => rfl
    | some i => exact I.null i hi
  live := fun i b hb => by
    cases i with
    | none => cases hb
    | some i => exact I.live i b hb
  inj := fun i j b c h1 h2 h3 => by
    cases i with
    | none => cases h1
    | some i =>
      cases j with
      | none => cases h2
      | some j => exact I.inj i j b c h1 h2 (fun e => h3 (by rw [e]))
  all := by
    intro b hb
    obtain ⟨i, c, h1, h2⟩ := I.all b hb
    exact ⟨some i, c, h1, h2⟩

variable [DecidableEq ι]

omit [DecidableEq ι] in
/-- Memory is changed inside of one item's block only. -/
theorem Inv.change (I : Inv s vars t k) {i : ι} {b : Item} {a : Nat} (hb : t i = some b) (hv : vars i = some a)
    (hbl : s'.heap.blocks = s.heap.blocks) (hlo : s'.lost = s.lost)
    (hm : ∀ x, (x < (k i).addr ∨ (k i).addr + (k i).size ≤ x) → s'.heap.mem x = s.heap.mem x ∧ s'.objs x = s.objs x) {t' : ι → Option Item}
    (ht : ∀ j, j ≠ i → t' j = t j) {b' : Item} (hi : t' i = some b') (o : Owned s' b' a (k i)) : Inv s' vars t' k where
  blocks := ⟨by rw [hbl]; exact I.blocks.range, by rw [hbl]; exact I.blocks.apart⟩
  lost := hlo.trans I.lost
  covered := by
    intro x hx
    rw [hbl]
    obtain ⟨a', ha', o'⟩ := I.live i b hb
    by_cases hin : (k i).addr ≤ x ∧ x < (k i).addr + (k i).size
    · exact ⟨k i, o'.mem, hin.1, hin.2⟩
    · rw [(hm x (by omega)).2] at hx
      exact I.covered x hx
  null := fun j hj => by
    have : j ≠ i := by rintro rfl; rw [hi] at hj; cases hj
    rw [ht j this] at hj
    exact I.null j hj
  live := fun j c hc => by
    by_cases e : j = i
    · subst e
      rw [hi] at hc
      cases hc
      exact ⟨a, hv, o⟩
    · rw [ht j e] at hc
      obtain ⟨d, h1, h2⟩ := I.live j c hc
      refine ⟨d, h1, h2.frame (by rw [hbl]; exact h2.mem) ?_⟩
      obtain ⟨a', ha', o'⟩ := I.live i b hb
      have := I.blocks.ne h2.mem o'.mem (I.inj j i c b hc hb e)
      intro x h3 h4
      apply hm
      unfold Apart at this
      omega
  inj := by
    intro x y c d h1 h2 h3
    have key : ∀ z e, t' z = some e → ∃ e', t z = some e' := by
      intro z e hz
      by_cases ez : z = i
      · exact ⟨b, by rw [ez]; exact hb⟩
      · exact ⟨e, by rw [← ht z ez]; exact hz⟩
    obtain ⟨c', hc'⟩ := key x c h1
    obtain ⟨d', hd'⟩ := key y d h2
    exact I.inj x y c' d' hc' hd' h3
  all := by
    intro c hc
    rw [hbl] at hc
    obtain ⟨j, d, h1, h2⟩ := I.all c hc
    by_cases e : j = i
    · exact ⟨i, b', hi, by rw [← e]; exact h2⟩
    · exact ⟨j, d, by rw [ht j e]; exact h1, h2⟩

/-- A new item. -/
theorem Inv.add (I : Inv s vars t k) {i : ι} (hi : t i = none) {b : Item} {a : Nat} {c : Blk} (hf : Fresh s.heap c.addr c.size)
    (hbl : s'.heap.blocks = c :: s.heap.blocks) (hlo : s'.lost = s.lost)
    (hm : ∀ x, (x < c.addr ∨ c.addr + c.size ≤ x) → s'.heap.mem x = s.heap.mem x ∧ s'.objs x = s.objs x) (o : Owned s' b a c) :
    Inv s' (put vars i (some a)) (put t i (some b)) (put k i c) where
  blocks := by
    constructor
    · intro x hx
      rw [hbl] at hx
      rcases List.mem_cons.mp hx with hx | hx
      · subst hx; exact ⟨hf.1, hf.2.1⟩
      · exact I.blocks.range x hx
    · rw [hbl, List.pairwise_cons]
      exact ⟨fun x hx => hf.2.2 x hx, I.blocks.apart⟩
  lost := hlo.trans I.lost
  covered := by
    intro x hx
    rw [hbl]
    by_cases hin : c.addr ≤ x ∧ x < c.addr + c.size
    · exact ⟨c, by simp, hin.1, hin.2⟩
    · rw [(hm x (by omega)).2] at hx
      obtain ⟨d, h1, h2⟩ := I.covered x hx
      exact ⟨d, List.mem_cons_of_mem _ h1, h2⟩
  null := by
    intro j hj
    unfold put at hj ⊢
    by_cases e : j = i
    · rw [if_pos e] at hj; cases hj
    · rw [if_neg e] at hj ⊢; exact I.null j hj
  live := by
    intro j d hj
    unfold put at hj ⊢
    by_cases e : j = i
    · rw [if_pos e] at hj; cases hj
      exact ⟨a, if_pos e, by rw [if_pos e]; exact o⟩
    · rw [if_neg e] at hj
      obtain ⟨q, h1, h2⟩ := I.live j d hj
      refine ⟨q, by rw [if_neg e]; exact h1, ?_⟩
      rw [if_neg e]
      refine h2.frame (by rw [hbl]; exact List.mem_cons_of_mem _ h2.mem) ?_
      intro x h3 h4
      apply hm
      have := hf.2.2 _ h2.mem
      omega
  inj := by
    intro x y d e h1 h2 h3
    unfold put at h1 h2 ⊢
    have key : ∀ z d, t z = some d → k z ≠ c := by
      intro z d hz e
      obtain ⟨q, -, h5⟩ := I.live z d hz
      have := hf.2.2 _ h5.mem
      rw [e] at this
      omega
    by_cases ex : x = i
    · by_cases ey : y = i
      · exact absurd (ex.trans ey.symm) h3
      · rw [if_neg ey] at h2 ⊢; rw [if_pos ex]
        exact (key y e h2).symm
    · rw [if_neg ex] at h1 ⊢
      by_cases ey : y = i
      · rw [if_pos ey]; exact key x d h1
      · rw [if_neg ey] at h2 ⊢; exact I.inj x y d e h1 h2 h3
  all := by
    intro x hx
    rw [hbl] at hx
    unfold put
    rcases List.mem_cons.mp hx with hx | hx
    · exact ⟨i, b, by simp, by simp [hx]⟩
    · obtain ⟨j, d, h1, h2⟩ := I.all x hx
      have e : j ≠ i := by rintro rfl; rw [hi] at h1; cases h1
      exact ⟨j, d, by simp [e, h1], by simp [e, h2]⟩

/-- Memory is given back. -/
theorem Inv.del (I : Inv s vars t k) {i : ι} {b : Item} (hb : t i = some b)
    (hbl : s'.heap.blocks = s.heap.blocks.filter fun c => decide (c.addr ≠ (k i).addr)) (hmem : s'.heap.mem = s.heap.mem) (hlo : s'.lost = s.lost)
    (hin : ∀ x, (k i).addr ≤ x → x < (k i).addr + (k i).size → s'.objs x = none)
    (hout : ∀ x, (x < (k i).addr ∨ (k i).addr + (k i).size ≤ x) → s'.objs x = s.objs x) :
    Inv s' (put vars i none) (put t i none) k := by
  obtain ⟨a, hv, o⟩ := I.live i b hb
  refine ⟨⟨?_, ?_⟩, hlo.trans I.lost, ?_, ?_, ?_, ?_, ?_⟩
  · intro x hx
    rw [hbl] at hx
    exact I.blocks.range x (List.mem_filter.mp hx).1
  · rw [hbl]
    exact I.blocks.apart.sublist List.filter_sublist
  · intro x hx
    rw [hbl]
    by_cases h : (k i).addr ≤ x ∧ x < (k i).addr + (k i).size
    · exact absurd (hin x h.1 h.2) hx
    · rw [hout x (by omega)] at hx
      obtain ⟨d, h1, h2⟩ := I.covered x hx
      refine ⟨d, List.mem_filter.mpr ⟨h1, ?_⟩, h2⟩
      have : d ≠ k i := by rintro rfl; exact h h2
      simpa using I.blocks.addr_ne h1 o.mem this
  · intro j hj
    unfold put at hj ⊢
    by_cases e : j = i
    · rw [if_pos e]
    · rw [if_neg e] at hj ⊢; exact I.null j hj
  · intro j d hj
    unfold put at hj ⊢
    by_cases e : j = i
    · rw [if_pos e] at hj; cases hj
    · rw [if_neg e] at hj ⊢
      obtain ⟨q, h1, h2⟩ := I.live j d hj
      have hne := I.inj j i d b hj hb e
      refine ⟨q, h1, h2.frame ?_ ?_⟩
      · rw [hbl, List.mem_filter]
        exact ⟨h2.mem, by simpa using I.blocks.addr_ne h2.mem o.mem hne⟩
      · intro x h3 h4
        have := I.blocks.ne h2.mem o.mem hne
        unfold Apart at this
        exact ⟨by rw [hmem], hout x (by omega)⟩
  · intro x y d e h1 h2 h3
    unfold put at h1 h2
    by_cases ex : x = i
    · rw [if_pos ex] at h1; cases h1
    · by_cases ey : y = i
      · rw [if_pos ey] at h2; cases h2
      · rw [if_neg ex] at h1; rw [if_neg ey] at h2
        exact I.inj x y d e h1 h2 h3
  · intro x hx
    rw [hbl, List.mem_filter] at hx
    obtain ⟨hx, hne⟩ := hx
    obtain ⟨j, d, h1, h2⟩ := I.all x hx
    have e : j ≠ i := by
      rintro rfl
      rw [h2] at hne
      simp at hne
    exact ⟨j, d, by simp [put, e, h1], h2⟩

/-! ### memory -/

theorem putBytes_in {m : Mem} {a o : Nat} {bs : List Byte} {v : Byte} (h : bs[o]? = some v) : putBytes m a bs (a + o) = v := by
  simp [putBytes, h]

theorem putBytes_out {m : Mem} {a x : Nat} {bs : List Byte} (h : x < a ∨ a + bs.length ≤ x) : putBytes m a bs x = m x := by
  unfold putBytes
  split
  · rw [List.getElem?_eq_none (by omega)]; rfl
  · rfl

theorem countIn_zero {objs : Nat → Option Elem} {a n : Nat} (h : ∀ x, a ≤ x → x < a + n → objs x = none) : countIn objs a n = 0 := by
  unfold countIn
  rw [List.countP_eq_zero]
  intro x hx
  rw [List.mem_range] at hx
  rw [h (a + x) (by omega) (by omega)]
  simp

omit [DecidableEq ι] in
theorem usable_ok (I : Inv s vars t k) {c : Blk} (hc : c ∈ s.heap.blocks) : SysAlloc.usable s.heap c.addr = .ok c.size := by
  unfold SysAlloc.usable
  have hf : s.heap.blocks.find? (fun b => decide (b.addr = c.addr)) = some c := by
    rw [List.find?_eq_some_iff_append]
    obtain ⟨l1, l2, hl12⟩ := List.append_of_mem hc
    refine ⟨by simp, l1, l2, hl12, ?_⟩
    intro d hd
    have hne := I.blocks.apart
    rw [hl12, List.pairwise_append] at hne
    have := hne.2.2 d hd c (by simp)
    unfold Apart at this
    simp; omega
  rw [hf]

omit [DecidableEq ι] in
/-- `free` of a block without living objects. -/
theorem free_ok (I : Inv s vars t k) {c : Blk} (hc : c ∈ s.heap.blocks) {objs : Nat → Option Elem} (ho : ∀ x, c.addr ≤ x → x < c.addr + c.size → objs x = none) :
    ∃ s', free { s with objs := objs } (some c.addr) = .ok s' ∧ s'.heap.blocks = s.heap.blocks.filter (fun d => decide (d.addr ≠ c.addr)) ∧ s'.heap.mem = s.heap.mem ∧ s'.lost = s.lost ∧
      (∀ x, c.addr ≤ x → x < c.addr + c.size → s'.objs x = none) ∧ (∀ x, (x < c.addr ∨ c.addr + c.size ≤ x) → s'.objs x = objs x) := by
  have hrel : s.heap.release c.addr = .ok { s.heap with blocks := s.heap.blocks.filter fun d => decide (d.addr ≠ c.addr) } := by
    unfold Heap.release
    rw [if_pos (by rw [List.any_eq_true]; exact ⟨c, hc, by simp⟩)]
  have e : free { s with objs := objs } (some c.addr) = .ok ⟨{ s.heap with blocks := s.heap.blocks.filter fun d => decide (d.addr ≠ c.addr) },
      fun x => if c.addr ≤ x ∧ x < c.addr + c.size then none else objs x, s.lost + countIn objs c.addr c.size⟩ := by
    simp only [free, usable_ok I hc, R.ok_bind, hrel]
  refine ⟨_, e, rfl, rfl, ?_, fun x h1 h2 => if_pos ⟨h1, h2⟩, fun x h => if_neg (by omega)⟩
  show s.lost + countIn objs c.addr c.size = s.lost
  rw [countIn_zero ho]; rfl

/-! ### allocation -/

/-- What `alloc` does to the state. -/
structure Got (s s' : St) (c : Blk) (n al : Nat) : Prop where
  fresh : Fresh s.heap c.addr c.size
  eq : s' = { s with heap := s.heap.add c.addr c.size }
  size : n ≤ c.size
  align : al ∣ c.addr
  objs : ∀ x, c.addr ≤ x → x < c.addr + c.size → s.objs x = none

theorem Got.has {s s' : St} {c : Blk} {n al : Nat} (g : Got s s' c n al) {a m : Nat} (h1 : c.addr ≤ a) (h2 : a + m ≤ c.addr + c.size) : s'.heap.has a m = true := by
  rw [has_iff, g.eq]
  exact ⟨c, by simp [Heap.add], h1, h2⟩

omit [DecidableEq ι] in
theorem allocate_ok {A : Al} (hA : Good A) (I : Inv s vars t k) {n al : BitVec 64} (ha : IsPowerOfTwo al.toNat) :
    (A.alloc s.heap n al = .error .assert ∧ allocate A s n al = .error .assert) ∨ (n = 0 ∧ allocate A s n al = .ok (s, none)) ∨
    ∃ s' c, allocate A s n al = .ok (s', some c.addr) ∧ Got s s' c n.toNat al.toNat := by
  unfold allocate
  cases e : A.alloc s.heap n al with
  | error f =>
    obtain rfl := hA.fails _ _ _ _ e
    exact Or.inl ⟨rfl, rfl⟩
  | ok r =>
    cases r with
    | none => exact Or.inr (Or.inl ⟨hA.null _ _ _ e, rfl⟩)
    | some q =>
      obtain ⟨a, u⟩ := q
      obtain ⟨h1, h2, h3⟩ := hA.fresh _ _ _ _ _ ha e
      refine Or.inr (Or.inr ⟨_, ⟨a, u⟩, rfl, h1, rfl, h2, h3, ?_⟩)
      intro x hx1 hx2
      cases ho : s.objs x with
      | none => rfl
      | some E =>
        obtain ⟨d, hd, h4, h5⟩ := I.covered x (by rw [ho]; simp)
        have := h1.2.2 d hd
        dsimp only at hx1 hx2
        omega

theorem ok_align_lt {E : Elem} (h : Ok E) : E.align < 2 ^ 64 := Nat.lt_of_le_of_lt (Nat.le_of_dvd h.pos h.dvd) h.small

theorem toNat_size {E : Elem} (h : Ok E) : (BitVec.ofNat 64 E.size).toNat = E.size := toNat_ofNat_lt h.small
theorem toNat_align {E : Elem} (h : Ok E) : (BitVec.ofNat 64 E.align).toNat = E.align := toNat_ofNat_lt (ok_align_lt h)

/-! ### loops -/

theorem setWidth_lt {i : BitVec 32} {n : BitVec 64} : (i.setWidth 64 < n) ↔ i.toNat < n.toNat := by
  rw [BitVec.lt_def, BitVec.toNat_setWidth]
  have := i.isLt
  rw [Nat.mod_eq_of_lt (by omega)]

theorem toNat_succ {i : BitVec 32} (h : i.toNat + 1 < 2 ^ 32) : (i + 1#32).toNat = i.toNat + 1 := by
  rw [BitVec.toNat_add]
  exact Nat.mod_eq_of_lt h

theorem construct_ok {E : Elem} {s : St} {a : Nat} {bs : List Byte} (hl : bs.length = E.size) (ha : E.align ∣ a) (hh : s.heap.has a E.size = true)
    (ho : ∀ x, a ≤ x → x < a + E.size → s.objs x = none) :
    construct s E a bs = .ok ⟨⟨putBytes s.heap.mem a bs, s.heap.blocks⟩, fun x => if x = a ∧ E.tdtor = false then some E else s.objs x, s.lost⟩ := by
  unfold construct
  rw [if_pos (Nat.mod_eq_zero_of_dvd ha)]
  unfold store
  rw [if_pos (by rw [hl]; exact hh), R.ok_bind, countIn_zero ho]
  congr 2
  funext x
  by_cases h1 : x = a ∧ E.tdtor = false
  · rw [if_pos h1, if_pos h1]
  · rw [if_neg h1, if_neg h1]
    split
    · next h2 => rw [ho x h2.1 h2.2]
    · rfl

/-- The elements are constructed one after the other. -/
theorem ctorLoop_ok {E : Elem} (hE : Ok E) {p : Nat} {n : BitVec 64} (hn : n.toNat < 2 ^ 32) (ha : E.align ∣ p) : ∀ (d : Nat) (i : BitVec 32) (s : St) (f : Nat), i.toNat + d = n.toNat → d ≤ f →
    (∀ a m, p ≤ a → a + m ≤ p + E.size * n.toNat → s.heap.has a m = true) → (∀ x, p + E.size * i.toNat ≤ x → x < p + E.size * n.toNat → s.objs x = none) →
    ∃ s', ctorLoop E p n f i s = .ok (some s') ∧ s'.heap.blocks = s.heap.blocks ∧ s'.lost = s.lost ∧
      (∀ x, (x < p + E.size * i.toNat ∨ p + E.size * n.toNat ≤ x) → s'.heap.mem x = s.heap.mem x ∧ s'.objs x = s.objs x) ∧
      ∀ x, p + E.size * i.toNat ≤ x → x < p + E.size * n.toNat → s'.heap.mem x = E.dflt.getD ((x - p) % E.size) 0 ∧
        s'.objs x = if E.tdtor = false ∧ (x - p) % E.size = 0 then some E else none := by
  intro d
  induction d with
  | zero =>
    intro i s f hi hf hh ho
    refine ⟨s, ?_, rfl, rfl, fun _ _ => ⟨rfl, rfl⟩, ?_⟩
    · unfold ctorLoop
      rw [if_neg (by rw [setWidth_lt]; omega)]
    · intro x h1 h2
      rw [show n.toNat = i.toNat by omega] at h2
      omega
  | succ d ih =>
    intro i s f hi hf hh ho
    obtain ⟨f, rfl⟩ : ∃ g, f = g + 1 := ⟨f - 1, by omega⟩
    have hle : E.size * (i.toNat + 1) ≤ E.size * n.toNat := Nat.mul_le_mul_left _ (by omega)
    have hle2 : E.size * (i.toNat + 1) = E.size * i.toNat + E.size := by rw [Nat.mul_succ]
    have ec := construct_ok (s := s) (a := p + E.size * i.toNat) hE.dflt (Nat.dvd_add ha (Nat.dvd_trans hE.dvd (Nat.dvd_mul_right _ _))) (hh _ _ (by omega) (by omega))
      (fun x h1 h2 => ho x h1 (by omega))
    have ei : (i + 1#32).toNat = i.toNat + 1 := toNat_succ (by omega)
    generalize hs1 : (St.mk ⟨putBytes s.heap.mem (p + E.size * i.toNat) E.dflt, s.heap.blocks⟩ (fun x => if x = p + E.size * i.toNat ∧ E.tdtor = false then some E else s.objs x) s.lost) = s1 at ec
    obtain ⟨s', e, hb, hlo, hout, hin⟩ := ih (i + 1#32) s1 f (by omega) (by omega) (by rw [← hs1]; exact hh) (by
      intro x h1 h2
      rw [ei] at h1
      rw [← hs1]
      show (if x = p + E.size * i.toNat ∧ E.tdtor = false then some E else s.objs x) = none
      have := hE.pos
      rw [if_neg (by omega)]
      exact ho x (by omega) h2)
    refine ⟨s', ?_, ?_, ?_, ?_, ?_⟩
    · rw [ctorLoop]
      rw [if_pos (by rw [setWidth_lt]; omega), ec, R.ok_bind]
      exact e
    · rw [hb, ← hs1]
    · rw [hlo, ← hs1]
    · intro x hx
      obtain ⟨h1, h2⟩ := hout x (by rw [ei]; omega)
      rw [h1, h2, ← hs1]
      have := hE.pos
      refine ⟨putBytes_out (by rw [hE.dflt]; omega), ?_⟩
      show (if x = p + E.size * i.toNat ∧ E.tdtor = false then some E else s.objs x) = _
      rw [if_neg (by omega)]
    · intro x h1 h2
      by_cases hx : p + E.size * (i.toNat + 1) ≤ x
      · exact hin x (by rw [ei]; exact hx) h2
      · obtain ⟨h3, h4⟩ := hout x (by rw [ei]; omega)
        rw [h3, h4, ← hs1]
        obtain ⟨o, rfl⟩ : ∃ o, x = p + E.size * i.toNat + o := ⟨x - (p + E.size * i.toNat), by omega⟩
        have ho' : o < E.size := by omega
        have emod : (p + E.size * i.toNat + o - p) % E.size = o := by
          rw [show p + E.size * i.toNat + o - p = E.size * i.toNat + o by omega, Nat.mul_add_mod, Nat.mod_eq_of_lt ho']
        rw [emod]
        constructor
        · refine putBytes_in ?_
          rw [List.getD_eq_getElem?_getD, List.getElem?_eq_getElem (by rw [hE.dflt]; exact ho')]; rfl
        · show (if p + E.size * i.toNat + o = p + E.size * i.toNat ∧ E.tdtor = false then some E else s.objs _) = _
          by_cases hc : o = 0 ∧ E.tdtor = false
          · rw [if_pos ⟨by omega, hc.2⟩, if_pos ⟨hc.2, hc.1⟩]
          · rw [if_neg (fun h => hc ⟨by omega, h.2⟩), if_neg (fun h => hc ⟨h.2, h.1⟩)]
            exact ho _ h1 h2

/-- The elements are destroyed one after the other. -/
theorem dtorLoop_ok {E : Elem} (hE : Ok E) {p : Nat} {n : BitVec 64} (hn : n.toNat < 2 ^ 32) : ∀ (d : Nat) (i : BitVec 32) (s : St) (f : Nat), i.toNat + d = n.toNat → d ≤ f →
    (∀ x, p + E.size * i.toNat ≤ x → x < p + E.size * n.toNat → s.objs x = if (x - p) % E.size = 0 then some E else none) →
    ∃ objs, dtorLoop E p n f i s = .ok (some { s with objs := objs }) ∧
      (∀ x, (x < p + E.size * i.toNat ∨ p + E.size * n.toNat ≤ x) → objs x = s.objs x) ∧
      ∀ x, p + E.size * i.toNat ≤ x → x < p + E.size * n.toNat → objs x = none := by
  intro d
  induction d with
  | zero =>
    intro i s f hi hf ho
    refine ⟨s.objs, ?_, fun _ _ => rfl, ?_⟩
    · unfold dtorLoop
      rw [if_neg (by rw [setWidth_lt]; omega)]
    · intro x h1 h2
      rw [show n.toNat = i.toNat by omega] at h2
      omega
  | succ d ih =>
    intro i s f hi hf ho
    obtain ⟨f, rfl⟩ : ∃ g, f = g + 1 := ⟨f - 1, by omega⟩
    have hle : E.size * (i.toNat + 1) ≤ E.size * n.toNat := Nat.mul_le_mul_left _ (by omega)
    have hle2 : E.size * (i.toNat + 1) = E.size * i.toNat + E.size := by rw [Nat.mul_succ]
    have hpos := hE.pos
    have emod : ∀ o, o < E.size → (p + E.size * i.toNat + o - p) % E.size = o := by
      intro o ho'
      rw [show p + E.size * i.toNat + o - p = E.size * i.toNat + o by omega, Nat.mul_add_mod, Nat.mod_eq_of_lt ho']
    have h0 : s.objs (p + E.size * i.toNat) = some E := by
      rw [ho _ (by omega) (by omega), if_pos]
      exact emod 0 hpos
    have ei : (i + 1#32).toNat = i.toNat + 1 := toNat_succ (by omega)
    obtain ⟨objs, e, hout, hin⟩ := ih (i + 1#32) { s with objs := fun x => if x = p + E.size * i.toNat then none else s.objs x } f (by omega) (by omega) (by
      intro x h1 h2
      rw [ei] at h1
      show (if x = p + E.size * i.toNat then none else s.objs x) = _
      rw [if_neg (by omega)]
      exact ho x (by omega) h2)
    refine ⟨objs, ?_, ?_, ?_⟩
    · rw [dtorLoop]
      rw [if_pos (by rw [setWidth_lt]; omega)]
      simp only [destroy, h0, if_true, R.ok_bind]
      exact e
    · intro x hx
      rw [hout x (by rw [ei]; omega)]
      exact if_neg (by omega)
    · intro x h1 h2
      by_cases hx : p + E.size * (i.toNat + 1) ≤ x
      · exact hin x (by rw [ei]; exact hx) h2
      · rw [hout x (by rw [ei]; omega)]
        obtain ⟨o, rfl⟩ : ∃ o, x = p + E.size * i.toNat + o := ⟨x - (p + E.size * i.toNat), by omega⟩
        show (if p + E.size * i.toNat + o = p + E.size * i.toNat then none else s.objs _) = none
        by_cases ho0 : o = 0
        · rw [if_pos (by omega)]
        · rw [if_neg (by omega), ho _ h1 h2, emod o (by omega), if_neg ho0]

end Verif.AHelp
