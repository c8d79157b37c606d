import Verif.AHelp.Ops

/-! `realloc`, `temp_cstr`, and the steps of a program. -/
namespace Verif.AHelp
open Verif.Bits Verif.Alloc Spec
open Verif.SysAlloc (Heap Blk Blocks Apart has_iff put put_same put_ne bv_pos bv_ne)
open Verif.SysAlloc.Spec (Fresh)

variable {s s' : St} {A : Al} {strict : Bool} {rounds : Nat}

/-- New bytes for an item. -/
theorem Owned.rewrite {b : Item} {a : Nat} {c : Blk} (o : Owned s b a c) (hb : s'.heap.blocks = s.heap.blocks) (ho : s'.objs = s.objs) {bs : List (Option Byte)} (hl : bs.length = b.bytes.length)
    (hm : ∀ x, (x < a ∨ a + b.bytes.length ≤ x) → s'.heap.mem x = s.heap.mem x) (hc : ∀ (o : Nat) (v : Byte), bs[o]? = some (some v) → s'.heap.mem (a + o) = v) :
    Owned s' { b with bytes := bs } a c where
  mem := by rw [hb]; exact o.mem
  at_ := o.at_
  hi := by dsimp only; rw [hl]; exact o.hi
  header := by
    intro E hE
    dsimp only at hE ⊢
    have h2 := o.at_
    rw [hE] at h2
    have := (padding_ge (o.elem E (by rw [hE]; rfl)).1.pos).1
    simp only [off] at h2
    rw [hl, ← o.header E hE, Alloc.read64_congr (m := s'.heap.mem) (m' := s.heap.mem) (fun x h5 h6 => hm x (by omega))]
  objs := fun x h1 h2 => by dsimp only; rw [ho, hl]; exact o.objs x h1 h2
  align := o.align
  elem := fun E hE => by dsimp only; rw [hl]; exact o.elem E hE
  single := fun E hE => by dsimp only; rw [hl]; exact o.single E hE
  content := hc

theorem Made.rewrite {s1 : St} {b : Item} {a : Nat} {c : Blk} (m : Made s s1 b a c) (hb : s'.heap.blocks = s1.heap.blocks) (hlo : s'.lost = s1.lost) (ho : s'.objs = s1.objs)
    {bs : List (Option Byte)} (hl : bs.length = b.bytes.length) (hm : ∀ x, (x < a ∨ a + b.bytes.length ≤ x) → s'.heap.mem x = s1.heap.mem x)
    (hc : ∀ (o : Nat) (v : Byte), bs[o]? = some (some v) → s'.heap.mem (a + o) = v) : Made s s' { b with bytes := bs } a c where
  fresh := m.fresh
  blocks := hb.trans m.blocks
  lost := hlo.trans m.lost
  out := by
    intro x hx
    have h1 := m.owned.hi
    have h2 := m.owned.at_
    rw [hm x (by omega), ho]
    exact m.out x hx
  owned := m.owned.rewrite hb ho hl hm hc

theorem Owned.has {b : Item} {a : Nat} {c : Blk} (o : Owned s b a c) {x n : Nat} (h1 : a ≤ x) (h2 : x + n ≤ a + b.bytes.length) : s.heap.has x n = true := by
  have := o.at_
  have := o.hi
  exact has_iff.mpr ⟨c, o.mem, by omega, by omega⟩

/-! ### `temp_cstr` -/

theorem store_zero {h : Heap} {a : Nat} {l : List Byte} (hh : ∀ x n, a ≤ x → x + n ≤ a + (l.length + 1) → h.has x n = true) :
    ((store h a l) >>= fun h => h.write8 (a + l.length) 0) = (.ok { h with mem := fun x => if x = a + l.length then 0 else putBytes h.mem a l x } : R Heap) := by
  unfold store
  rw [if_pos (hh _ _ (Nat.le_refl _) (by omega)), R.ok_bind]
  exact if_pos (hh (a + l.length) 1 (by omega) (by omega))

theorem cstrAt_ok {h : Heap} : ∀ {l : List Byte} {a : Nat}, (∀ o v, ((l ++ [0]).map some)[o]? = some (some v) → h.mem (a + o) = v) → (∀ o, o ≤ l.length → h.has (a + o) 1 = true) →
    cstrAt h a l.length = .ok (cstring l)
  | [], a, hm, hh => by
    have h1 := hm 0 0 rfl
    have h2 := hh 0 (Nat.le_refl _)
    rw [Nat.add_zero] at h1 h2
    unfold cstrAt
    simp only [List.length_nil, Heap.read8, h2, if_true, h1, R.ok_bind]
    rfl
  | v :: l, a, hm, hh => by
    have h1 := hm 0 v rfl
    have h2 := hh 0 (Nat.zero_le _)
    rw [Nat.add_zero] at h1 h2
    have ih := cstrAt_ok (h := h) (l := l) (a := a + 1) (by
      intro o w hw
      rw [Nat.add_right_comm]
      exact hm (o + 1) w hw) (by
      intro o ho
      rw [Nat.add_right_comm]
      exact hh (o + 1) (by simp; omega))
    rw [List.length_cons]
    unfold cstrAt
    simp only [Heap.read8, h2, if_true, h1, R.ok_bind, ih]
    by_cases hv : v = 0
    · rw [if_pos hv]
      simp [cstring, hv]
    · rw [if_neg hv]
      unfold cstring
      rw [List.takeWhile_cons_of_pos (by simpa using hv)]

theorem ok_char : Ok char := ⟨by decide, by decide, ⟨0, rfl⟩, ⟨1, rfl⟩, rfl, fun _ => rfl⟩

theorem toNat_len1 {n : Nat} (h : n + 1 < 2 ^ 64) : (BitVec.ofNat 64 n + 1#64).toNat = n + 1 := by
  rw [BitVec.toNat_add, toNat_ofNat_lt (by omega)]
  exact Nat.mod_eq_of_lt h

theorem initFromAllocator_ok {ι : Type} {vars : ι → Option Nat} {t : ι → Option Item} {k : ι → Blk} (hA : Good A) (I : Inv s vars t k) {sv : View} (hfit : (bytesOf sv).length + 10 < 2 ^ 64)
    (hr : 2 ^ 32 ≤ rounds) (hst : strict = false) :
    (A.alloc s.heap (BitVec.ofNat 64 ((bytesOf sv).length + 10)) (BitVec.ofNat 64 1) = .error .assert ∧ initFromAllocator A strict rounds s sv = .error .assert) ∨
    ∃ s' a c, initFromAllocator A strict rounds s sv = .ok (some (s', ⟨some a, true⟩)) ∧ Made s s' ⟨.array char, 1, (bytesOf sv ++ [0]).map some⟩ a c := by
  unfold initFromAllocator
  have en : (BitVec.ofNat 64 (sv.getD []).length + 1#64).toNat = (bytesOf sv).length + 1 := toNat_len1 (n := (bytesOf sv).length) (by omega)
  have ep : char.size * (BitVec.ofNat 64 (sv.getD []).length + 1#64).toNat + padding char.size = (bytesOf sv).length + 10 := by
    rw [en]; show 1 * _ + 9 = _; omega
  rcases newArray_ok (strict := strict) (rounds := rounds) hA I ok_char (n := BitVec.ofNat 64 (sv.getD []).length + 1#64) (by rw [ep]; exact hfit) (by intro h; rcases h with h | h <;> cases h) hr
      (by rw [hst]; intro h; cases h) with ⟨h, e⟩ | ⟨s1, a, c, e, m⟩
  · rw [ep] at h
    rw [e]
    exact Or.inl ⟨h, rfl⟩
  · right
    rw [e, R.ok_bind]
    dsimp only
    have hlen : (arrayBytes char (BitVec.ofNat 64 (sv.getD []).length + 1#64).toNat).length = (bytesOf sv).length + 1 := by
      rw [length_arrayBytes, en]; exact Nat.one_mul _
    have e2 : notNull strict sv.isNone = .ok () := by
      unfold notNull
      rw [if_neg (by rw [hst]; simp)]
    have e3 := store_zero (h := s1.heap) (a := a) (l := bytesOf sv) (fun x n h1 h2 => m.owned.has h1 (by dsimp only; rw [hlen]; exact h2))
    rw [e2, R.ok_bind]
    refine ⟨{ s1 with heap := { s1.heap with mem := fun x => if x = a + (bytesOf sv).length then 0 else putBytes s1.heap.mem a (bytesOf sv) x } }, a, c, ?_, ?_⟩
    · have assoc : ∀ (x : R Heap) (f : Heap → R Heap) (g : Heap → R (Option (St × Cstr))), (x >>= fun h => f h >>= g) = ((x >>= f) >>= g) := by
        intro x f g
        cases x <;> rfl
      exact (assoc (store s1.heap a (bytesOf sv)) (fun h => h.write8 (a + (bytesOf sv).length) 0) _).trans (by rw [e3, R.ok_bind])
    · refine Made.rewrite (s' := ⟨⟨fun x => if x = a + (bytesOf sv).length then 0 else putBytes s1.heap.mem a (bytesOf sv) x, s1.heap.blocks⟩, s1.objs, s1.lost⟩) (bs := (bytesOf sv ++ [0]).map some) m rfl rfl rfl (by dsimp only; rw [hlen]; simp) ?_ ?_
      · dsimp only
        rw [hlen]
        intro x hx
        rw [if_neg (by omega)]
        exact putBytes_out (by omega)
      · intro o v hv
        exact putBytes_zero hv

section
variable {vars : Nat → Option Nat} {t : Nat → Option Item} {k : Nat → Blk}

/-- A C string in memory of the allocator. -/
theorem tempCstr_ok (hA : Good A) (I : Inv s vars t k) {sv : View} (hfit : (bytesOf sv).length + 10 < 2 ^ 64) (hr : 2 ^ 32 ≤ rounds) (hst : strict = false) :
    (A.alloc s.heap (BitVec.ofNat 64 ((bytesOf sv).length + 10)) (BitVec.ofNat 64 1) = .error .assert ∧ initFromAllocator A strict rounds s sv = .error .assert) ∨
    ∃ s1 c s', initFromAllocator A strict rounds s sv = .ok (some (s1, c)) ∧ cstrUse strict rounds s1 (bytesOf sv).length c = .ok (some (s', cstring (bytesOf sv))) ∧ Inv s' vars t k := by
  rcases initFromAllocator_ok hA I hfit hr hst with h | ⟨s1, a, c, e, m⟩
  · exact Or.inl h
  · right
    have m' := m
    have J := (Made.inv m' I.extend (i := none) rfl)
    have o : Owned s1 ⟨.array char, 1, (bytesOf sv ++ [0]).map some⟩ a c := m.owned
    have hlen : ((bytesOf sv ++ [0]).map some).length = (bytesOf sv).length + 1 := by simp
    have e1 : cstrAt s1.heap a (bytesOf sv).length = .ok (cstring (bytesOf sv)) :=
      cstrAt_ok o.content (fun q hq => o.has (by omega) (by dsimp only; rw [hlen]; omega))
    obtain ⟨s', e2, g⟩ := deleteArray_ok (strict := strict) (rounds := rounds) J o rfl hr (by rw [hst]; intro h; cases h)
    refine ⟨s1, _, s', e, ?_, ?_⟩
    · have e3 : cstrDtor strict rounds s1 ⟨some a, true⟩ = .ok (some s') := e2
      simp only [cstrUse, e1, e3, R.ok_bind]
    · have hkn : put (fun x : Option Nat => x.elim ⟨0, 0⟩ k) none c none = c := put_same _ _ _
      have K := Gone.inv (i := none) (by rw [hkn]; exact g) J (put_same _ _ _)
      have N := K.comp (fun j : Nat => some j) (by intro x y h; exact Option.some.inj h) (by
        intro x hx
        cases x with
        | none => exact absurd (put_same _ _ _) hx
        | some j => exact ⟨j, rfl⟩)
      exact N

/-! ### `realloc` -/

theorem same_none {β : Type} {f : Nat → Option β} {i : Nat} (h : f i = none) : put f i none = f := by
  funext j
  unfold put
  split
  · next e => rw [e, h]
  · rfl

theorem realloc_zero (I : Inv s vars t k) (i : Nat) (hk : ∀ b, t i = some b → b.kind = .raw) (al : BitVec 64) :
    ∃ s', realloc A s (vars i) 0 al = .ok (s', none) ∧ Inv s' (put vars i none) (put t i none) k := by
  unfold realloc
  rw [if_neg (by decide)]
  cases hb : t i with
  | none =>
    have hv := I.null i hb
    rw [hv]
    refine ⟨s, rfl, ?_⟩
    rw [same_none hv, same_none hb]
    exact I
  | some b =>
    obtain ⟨a, hv, o⟩ := I.live i b hb
    obtain ⟨s', e, g⟩ := freeRaw_ok I o (hk b hb)
    rw [hv, e]
    exact ⟨s', rfl, g.inv I hb⟩

theorem realloc_ok (hA : Good A) (I : Inv s vars t k) (i : Nat) (hk : ∀ b, t i = some b → b.kind = .raw) {n al : BitVec 64} (hn : n ≠ 0) (ha : IsPowerOfTwo al.toNat) :
    ((A.alloc s.heap n al = .error .assert ∨ (vars i ≠ none ∧ A.sizes = false)) ∧ realloc A s (vars i) n al = .error .assert) ∨
    ∃ s' a k', realloc A s (vars i) n al = .ok (s', some a) ∧ Inv s' (put vars i (some a)) (put t i (step.resized (t i) n.toNat al.toNat)) k' := by
  unfold realloc
  rw [if_pos (bv_pos hn)]
  rcases allocate_ok hA I (n := n) (al := al) ha with ⟨h, e⟩ | ⟨h, e⟩ | ⟨s1, c, e, g⟩
  · rw [e]
    exact Or.inl ⟨Or.inl h, rfl⟩
  · exact absurd h hn
  · rw [e, R.ok_bind]
    cases hb : t i with
    | none =>
      have hv := I.null i hb
      rw [hv]
      right
      refine ⟨s1, c.addr, put k i c, rfl, ?_⟩
      have hr : step.resized none n.toNat al.toNat = some ⟨.raw, al.toNat, List.replicate n.toNat none⟩ := by simp [step.resized, bv_ne hn]
      rw [hr]
      exact g.plain.inv I hb
    | some b =>
      obtain ⟨a, hv, o⟩ := I.live i b hb
      have hraw := hk b hb
      have hat := o.at_
      rw [hraw] at hat
      simp only [off, Nat.add_zero] at hat
      subst hat
      rw [hv]
      dsimp only
      have m1 := g.plain
      have J := m1.inv I.extend (i := none) rfl
      have hk1 : put (fun x : Option Nat => x.elim ⟨0, 0⟩ k) none c (some i) = k i := put_ne _ _ (by simp)
      have ht1 : put (fun x : Option Nat => x.bind t) none (some ⟨.raw, al.toNat, List.replicate n.toNat none⟩) (some i) = some b := by
        rw [put_ne _ _ (by simp)]; exact hb
      obtain ⟨a', hv', o1⟩ := J.live (some i) b ht1
      have ha' : a' = (k i).addr := by
        rw [put_ne _ _ (by simp)] at hv'
        exact Option.some.inj (hv'.symm.trans hv)
      subst ha'
      rw [hk1] at o1
      rw [usable_ok J o1.mem, R.ok_bind]
      cases hs : A.sizes with
      | false =>
        left
        rw [ccAssert_false rfl]
        exact ⟨Or.inr ⟨by simp, rfl⟩, rfl⟩
      | true =>
      right
      rw [ccAssert_true rfl, R.ok_bind]
      have hne : k i ≠ c := by
        intro e
        have := g.fresh.2.2 _ o.mem
        rw [e] at this
        omega
      have hap := J.blocks.ne o1.mem m1.owned.mem hne
      unfold Apart at hap
      have gs := g.size
      have ohi := o.hi
      have hmin : min (k i).size n.toNat ≤ (k i).size ∧ min (k i).size n.toNat ≤ n.toNat ∧ (min (k i).size n.toNat = (k i).size ∨ min (k i).size n.toNat = n.toNat) := by omega
      generalize min (k i).size n.toNat = m at hmin
      have ec : s1.heap.copy c.addr (k i).addr m = .ok { s1.heap with mem := Alloc.copy s1.heap.mem c.addr (k i).addr m } :=
        if_pos ⟨has_iff.mpr ⟨c, m1.owned.mem, by omega, by omega⟩, has_iff.mpr ⟨k i, o1.mem, by omega, by omega⟩, by omega⟩
      rw [ec, R.ok_bind]
      let bs : List (Option Byte) := b.bytes.take n.toNat ++ List.replicate (n.toNat - b.bytes.length) none
      have hbs : bs.length = n.toNat := by
        show (b.bytes.take n.toNat ++ List.replicate (n.toNat - b.bytes.length) none).length = _
        simp; omega
      have hget : ∀ (q : Nat) (v : Byte), bs[q]? = some (some v) → q < n.toNat ∧ q < b.bytes.length ∧ b.bytes[q]? = some (some v) := by
        intro q v hq
        have hl : q < n.toNat := by rw [← hbs]; exact (List.getElem?_eq_some_iff.mp hq).1
        change (b.bytes.take n.toNat ++ List.replicate (n.toNat - b.bytes.length) none)[q]? = _ at hq
        by_cases hqb : q < b.bytes.length
        · rw [List.getElem?_append_left (by simp; omega), List.getElem?_take_of_lt hl] at hq
          exact ⟨hl, hqb, hq⟩
        · rw [List.getElem?_append_right (by simp; omega), List.getElem?_replicate] at hq
          split at hq <;> simp at hq
      have m2 : Made s { s1 with heap := { s1.heap with mem := Alloc.copy s1.heap.mem c.addr (k i).addr m } } ⟨.raw, al.toNat, bs⟩ c.addr c := by
        refine Made.rewrite (s' := ⟨⟨Alloc.copy s1.heap.mem c.addr (k i).addr m, s1.heap.blocks⟩, s1.objs, s1.lost⟩) (bs := bs) m1 rfl rfl rfl (by dsimp only; rw [hbs]; simp) ?_ ?_
        · intro x hx
          simp only [List.length_replicate] at hx
          exact Alloc.copy_out (by omega)
        · intro q v hq
          obtain ⟨h1, h2, h3⟩ := hget q v hq
          dsimp only
          rw [Alloc.copy_in (by omega)]
          exact o1.content q v h3
      have K := m2.inv I.extend (i := none) rfl
      have ht2 : put (fun x : Option Nat => x.bind t) none (some (⟨.raw, al.toNat, bs⟩ : Item)) (some i) = some b := by
        rw [put_ne _ _ (by simp)]; exact hb
      obtain ⟨a', hv', o2⟩ := K.live (some i) b ht2
      have ha' : a' = (k i).addr := by
        rw [put_ne _ _ (by simp)] at hv'
        exact Option.some.inj (hv'.symm.trans hv)
      subst ha'
      rw [hk1] at o2
      obtain ⟨s', e3, g3⟩ := freeRaw_ok K o2 hraw
      rw [e3, R.ok_bind]
      have M := Gone.inv (i := some i) (by rw [hk1]; exact g3) K ht2
      have N := M.comp (fun j : Nat => if j = i then (none : Option Nat) else some j) (by
          intro x y hxy
          by_cases ex : x = i
          · by_cases ey : y = i
            · rw [ex, ey]
            · simp [ex, ey] at hxy
          · by_cases ey : y = i
            · simp [ex, ey] at hxy
            · simpa [ex, ey] using hxy) (by
          intro x hx
          cases x with
          | none => exact ⟨i, by simp⟩
          | some j =>
            refine ⟨j, ?_⟩
            have : j ≠ i := by
              rintro rfl
              exact hx (put_same _ _ _)
            simp [this])
      have hr : step.resized (some b) n.toNat al.toNat = some ⟨.raw, al.toNat, bs⟩ := by
        simp [step.resized, bv_ne hn]; rfl
      rw [hr]
      have g1 : (fun x => put (put (fun x : Option Nat => x.bind vars) none (some c.addr)) (some i) none (if x = i then (none : Option Nat) else some x)) =
          put vars i (some c.addr) := by
        funext j
        by_cases e : j = i
        · simp [put, e]
        · simp [put, e]
      have g2 : (fun x => put (put (fun x : Option Nat => x.bind t) none (some (⟨.raw, al.toNat, bs⟩ : Item))) (some i) none
          (if x = i then (none : Option Nat) else some x)) = put t i (some ⟨.raw, al.toNat, bs⟩) := by
        funext j
        by_cases e : j = i
        · simp [put, e]
        · simp [put, e]
      rw [g1, g2] at N
      exact ⟨s', c.addr, _, rfl, N⟩

end

/-! ### steps -/

theorem inv_init (m : Mem) : Inv (World.init m).st (World.init m).vars (fun _ : Nat => none) (fun _ => ⟨0, 0⟩) :=
  ⟨⟨by simp [World.init], by simp [World.init]⟩, rfl, (fun _ h => absurd rfl h), fun _ _ => rfl, (fun _ _ h => by cases h), (fun _ _ _ _ h => by cases h), by simp [World.init]⟩

theorem made_true (t : State) (i : Nat) (b : Item) : made t i b true = some (put t i (some b)) := rfl

theorem made_false {t : State} {i : Nat} {b : Item} (h : b.bytes.length = 0) : made t i b false = some t := by
  simp [made, h]

/-- One call. -/
theorem step_ok (hA : Good A) (hr : 2 ^ 32 ≤ rounds) {w : World} {t : State} {k : Nat → Blk} (I : Inv w.st w.vars t k) {op : Op} (hl : Legal t op) (hsm : Small op)
    (hst : strict = true → ByTheLetter op) :
    (∃ w' o t' k', step A strict rounds w op = .ok (some (w', o)) ∧ Spec.step t op o = some t' ∧ Inv w'.st w'.vars t' k') ∨
    (step A strict rounds w op = .error .assert ∧ Stops A w op) := by
  cases op with
  | newT i E v =>
    obtain ⟨hi, hE, hv⟩ := hl
    rcases newT_ok hA I hE hv with ⟨h, e⟩ | ⟨s', a, c, e, m⟩
    · exact Or.inr ⟨by simp only [step, e, R.error_bind], h⟩
    · exact Or.inl ⟨w.put s' i (some a), .ptr true, _, _, by simp only [step, e, R.ok_bind]; rfl, made_true t i _, m.inv I hi⟩
  | newArray i E n =>
    obtain ⟨hi, hE⟩ := hl
    rcases newArray_ok hA I hE hsm.1 hsm.2 hr hst with ⟨h, e⟩ | ⟨s', a, c, e, m⟩
    · exact Or.inr ⟨by simp only [step, e, R.error_bind], h⟩
    · exact Or.inl ⟨w.put s' i (some a), .ptr true, put t i _, _, by simp only [step, e, R.ok_bind]; rfl, rfl, m.inv I hi⟩
  | newArraySized i E n =>
    obtain ⟨hi, hE⟩ := hl
    rcases newArraySized_ok hA I hE hsm.1 hsm.2 hr hst with ⟨h, e⟩ | ⟨h, e⟩ | ⟨s', a, c, e, m⟩
    · exact Or.inr ⟨by simp only [step, e, R.error_bind], h⟩
    · refine Or.inl ⟨w.put w.st i none, .ptr false, t, k, by simp only [step, e, R.ok_bind]; rfl, made_false (by simp [length_arrayBytes, h]), ?_⟩
      show Inv w.st (put w.vars i none) t k
      rw [same_none (I.null i hi)]; exact I
    · exact Or.inl ⟨w.put s' i (some a), .ptr true, _, _, by simp only [step, e, R.ok_bind]; rfl, made_true t i _, m.inv I hi⟩
  | dataCopy i E d =>
    obtain ⟨hi, hE⟩ := hl
    rcases dataCopy_ok hA I hE hsm hst with ⟨h, e⟩ | ⟨h, e⟩ | ⟨s', a, c, e, m⟩
    · exact Or.inr ⟨by simp only [step, e, R.error_bind], h⟩
    · refine Or.inl ⟨w.put w.st i none, .ptr false, t, k, by simp only [step, e, R.ok_bind]; rfl, made_false (by simpa using h), ?_⟩
      show Inv w.st (put w.vars i none) t k
      rw [same_none (I.null i hi)]; exact I
    · exact Or.inl ⟨w.put s' i (some a), .ptr true, _, _, by simp only [step, e, R.ok_bind]; rfl, made_true t i _, m.inv I hi⟩
  | stringCopy i d =>
    rcases stringCopy_ok hA I hsm with ⟨h, e⟩ | ⟨s', a, c, e, m⟩
    · exact Or.inr ⟨by simp only [step, e, R.error_bind], h⟩
    · exact Or.inl ⟨w.put s' i (some a), .ptr true, _, _, by simp only [step, e, R.ok_bind]; rfl, made_true t i _, m.inv I hl⟩
  | alloc i n al =>
    obtain ⟨hi, ha⟩ := hl
    rcases allocate_ok hA I (n := n) ha with ⟨h, e⟩ | ⟨h, e⟩ | ⟨s', c, e, g⟩
    · exact Or.inr ⟨by simp only [step, e, R.error_bind], by show Refused A w n.toNat al.toNat; unfold Refused; rw [bv_toNat, bv_toNat]; exact h⟩
    · refine Or.inl ⟨w.put w.st i none, .ptr false, t, k, by simp only [step, e, R.ok_bind]; rfl, made_false (by simp [h]), ?_⟩
      show Inv w.st (put w.vars i none) t k
      rw [same_none (I.null i hi)]; exact I
    · exact Or.inl ⟨w.put s' i (some c.addr), .ptr true, _, _, by simp only [step, e, R.ok_bind]; rfl, made_true t i _, g.plain.inv I hi⟩
  | realloc i n al =>
    by_cases hn : n = 0
    · subst hn
      obtain ⟨s', e, J⟩ := realloc_zero (A := A) I i hl.1 al
      refine Or.inl ⟨w.put s' i none, .ptr false, _, k, by simp only [step, e, R.ok_bind]; rfl, ?_, J⟩
      simp [Spec.step, Spec.step.resized]; rfl
    · rcases realloc_ok hA I i hl.1 hn hl.2 with ⟨h, e⟩ | ⟨s', a, k', e, J⟩
      · refine Or.inr ⟨by simp only [step, e, R.error_bind], ?_⟩
        show Refused A w n.toNat al.toNat ∨ _
        unfold Refused
        rw [bv_toNat, bv_toNat]; exact h
      · refine Or.inl ⟨w.put s' i (some a), .ptr true, _, k', by simp only [step, e, R.ok_bind]; rfl, ?_, J⟩
        simp only [Spec.step]
        rw [if_pos (by simpa using hn)]; rfl
  | deleteT i E =>
    cases hb : t i with
    | none =>
      have hv := I.null i hb
      refine Or.inl ⟨w.put w.st i none, .none, put t i none, k, by simp only [step, hv, deleteT, R.ok_bind]; rfl, rfl, ?_⟩
      show Inv w.st (put w.vars i none) _ k
      rw [same_none hv, same_none hb]; exact I
    | some b =>
      obtain ⟨a, hv, o⟩ := I.live i b hb
      obtain ⟨s', e, g⟩ := deleteT_ok I o (hl b hb)
      exact Or.inl ⟨w.put s' i none, .none, put t i none, k, by simp only [step, hv, e, R.ok_bind]; rfl, rfl, g.inv I hb⟩
  | deleteArray i E =>
    cases hb : t i with
    | none =>
      have hv := I.null i hb
      refine Or.inl ⟨w.put w.st i none, .none, put t i none, k, by simp only [step, hv, deleteArray, R.ok_bind]; rfl, rfl, ?_⟩
      show Inv w.st (put w.vars i none) _ k
      rw [same_none hv, same_none hb]; exact I
    | some b =>
      obtain ⟨a, hv, o⟩ := I.live i b hb
      obtain ⟨s', e, g⟩ := deleteArray_ok I o (hl b hb) hr hst
      exact Or.inl ⟨w.put s' i none, .none, put t i none, k, by simp only [step, hv, e, R.ok_bind]; rfl, rfl, g.inv I hb⟩
  | deleteArraySized i E n =>
    cases hb : t i with
    | none =>
      have hv := I.null i hb
      refine Or.inl ⟨w.put w.st i none, .none, put t i none, k, by simp only [step, hv, deleteArraySized, R.ok_bind]; rfl, rfl, ?_⟩
      show Inv w.st (put w.vars i none) _ k
      rw [same_none hv, same_none hb]; exact I
    | some b =>
      obtain ⟨a, hv, o⟩ := I.live i b hb
      obtain ⟨s', e, g⟩ := deleteArraySized_ok I o (hl b hb).1 (hl b hb).2 hr
      exact Or.inl ⟨w.put s' i none, .none, put t i none, k, by simp only [step, hv, e, R.ok_bind]; rfl, rfl, g.inv I hb⟩
  | free i =>
    cases hb : t i with
    | none =>
      have hv := I.null i hb
      refine Or.inl ⟨w.put w.st i none, .none, put t i none, k, by simp only [step, hv, free, R.ok_bind]; rfl, rfl, ?_⟩
      show Inv w.st (put w.vars i none) _ k
      rw [same_none hv, same_none hb]; exact I
    | some b =>
      obtain ⟨a, hv, o⟩ := I.live i b hb
      obtain ⟨s', e, g⟩ := freeRaw_ok I o (hl b hb)
      exact Or.inl ⟨w.put s' i none, .none, put t i none, k, by simp only [step, hv, e, R.ok_bind]; rfl, rfl, g.inv I hb⟩
  | cstr sv hv =>
    have hs : strict = false := by
      cases h : strict with
      | false => rfl
      | true => exact (hst h).elim
    cases hv with
    | false => exact Or.inr ⟨by simp only [step, cstrCtor]; rw [ccAssert_false rfl]; rfl, Or.inl rfl⟩
    | true =>
      have e0 : cstrCtor A strict rounds w.st sv true = initFromAllocator A strict rounds w.st sv := by
        unfold cstrCtor
        rw [ccAssert_true rfl]; rfl
      rcases tempCstr_ok hA I hsm hr hs with ⟨h, e⟩ | ⟨s1, c, s', e, e2, J⟩
      · exact Or.inr ⟨by simp only [step, e0, e, R.error_bind], Or.inr h⟩
      · refine Or.inl ⟨{ w with st := s' }, .str (cstring (bytesOf sv)), t, k, ?_, by simp [Spec.step], J⟩
        have e3 : cstrUse strict rounds s1 (sv.getD []).length c = _ := e2
        simp only [step, e0, e, R.ok_bind, e3]; rfl
  | cstrIn sv i n hv =>
    obtain ⟨b, hb, hraw, hn⟩ := hl
    obtain ⟨a, ha, o⟩ := I.live i b hb
    by_cases hlt : (bytesOf sv).length < n
    · have e2 : notNull strict sv.isNone = .ok () := by
        unfold notNull
        rw [if_neg]
        rintro ⟨h1, h2⟩
        exact (hst h1).1 (by simpa using h2)
      have e3 := store_zero (h := w.st.heap) (a := a) (l := bytesOf sv) (fun x m h1 h2 => o.has h1 (by omega))
      have e1 : cstrCtorIn A strict rounds w.st sv a n hv =
          .ok (some (⟨⟨fun x => if x = a + (bytesOf sv).length then 0 else putBytes w.st.heap.mem a (bytesOf sv) x, w.st.heap.blocks⟩, w.st.objs, w.st.lost⟩, ⟨some a, false⟩)) := by
        unfold cstrCtorIn
        have hlt' : (sv.getD []).length < n := hlt
        rw [if_pos hlt', e2, R.ok_bind]
        have assoc : ∀ (x : R Heap) (f : Heap → R Heap) (g : Heap → R (Option (St × Cstr))), (x >>= fun h => f h >>= g) = ((x >>= f) >>= g) := by
          intro x f g
          cases x <;> rfl
        exact (assoc (store w.st.heap a (bytesOf sv)) (fun h => h.write8 (a + (bytesOf sv).length) 0) _).trans (by rw [e3, R.ok_bind])
      have hfl : step.filled b.bytes n (bytesOf sv) = (bytesOf sv ++ [0]).map some ++ b.bytes.drop ((bytesOf sv).length + 1) := if_pos hlt
      have hfll : (step.filled b.bytes n (bytesOf sv)).length = b.bytes.length := by
        rw [hfl]; simp; omega
      have o' : Owned ⟨⟨fun x => if x = a + (bytesOf sv).length then 0 else putBytes w.st.heap.mem a (bytesOf sv) x, w.st.heap.blocks⟩, w.st.objs, w.st.lost⟩
          { b with bytes := step.filled b.bytes n (bytesOf sv) } a (k i) := by
        refine Owned.rewrite (s' := ⟨⟨fun x => if x = a + (bytesOf sv).length then 0 else putBytes w.st.heap.mem a (bytesOf sv) x, w.st.heap.blocks⟩, w.st.objs, w.st.lost⟩) o rfl rfl hfll ?_ ?_
        · intro x hx
          dsimp only
          rw [if_neg (by omega)]
          exact putBytes_out (by omega)
        · intro q v hq
          dsimp only
          rw [hfl] at hq
          by_cases hq1 : q < (bytesOf sv).length + 1
          · rw [List.getElem?_append_left (by simpa using hq1)] at hq
            exact putBytes_zero hq
          · rw [List.getElem?_append_right (by simpa using Nat.le_of_not_lt hq1)] at hq
            simp only [List.length_map, List.length_append, List.length_cons, List.length_nil, List.getElem?_drop] at hq
            rw [if_neg (by omega), putBytes_out (by omega)]
            exact o.content q v (by rw [← hq]; congr 1; omega)
      have hc := cstrAt_ok (h := ⟨fun x => if x = a + (bytesOf sv).length then 0 else putBytes w.st.heap.mem a (bytesOf sv) x, w.st.heap.blocks⟩) (l := bytesOf sv) (a := a)
        (fun q v hq => putBytes_zero hq) (fun q hq => o'.has (by omega) (by dsimp only; rw [hfll]; omega))
      refine Or.inl ⟨⟨⟨⟨fun x => if x = a + (bytesOf sv).length then 0 else putBytes w.st.heap.mem a (bytesOf sv) x, w.st.heap.blocks⟩, w.st.objs, w.st.lost⟩, w.vars⟩, .str (cstring (bytesOf sv)), put t i (some { b with bytes := step.filled b.bytes n (bytesOf sv) }), k, ?_, ?_, ?_⟩
      · have e4 : cstrUse strict rounds ⟨⟨fun x => if x = a + (bytesOf sv).length then 0 else putBytes w.st.heap.mem a (bytesOf sv) x, w.st.heap.blocks⟩, w.st.objs, w.st.lost⟩
            (sv.getD []).length ⟨some a, false⟩ = .ok (some (⟨⟨fun x => if x = a + (bytesOf sv).length then 0 else putBytes w.st.heap.mem a (bytesOf sv) x, w.st.heap.blocks⟩, w.st.objs, w.st.lost⟩, cstring (bytesOf sv))) := by
          unfold cstrUse
          dsimp only
          exact (congrArg (fun r : R (List Byte) => r >>= _) hc).trans rfl
        simp only [step, World.deref, ha, R.ok_bind, e1, e4]; rfl
      · simp only [Spec.step, if_true, hb, Option.map_some]; rfl
      · refine I.change (s' := ⟨⟨fun x => if x = a + (bytesOf sv).length then 0 else putBytes w.st.heap.mem a (bytesOf sv) x, w.st.heap.blocks⟩, w.st.objs, w.st.lost⟩) (i := i) hb ha rfl rfl ?_ ?_ (put_same _ _ _) o'
        · intro x hx
          have h1 := o.at_
          have h2 := o.hi
          refine ⟨?_, rfl⟩
          dsimp only
          rw [if_neg (by omega)]
          exact putBytes_out (by omega)
        · intro j hj
          exact put_ne _ _ hj
    · have hs : strict = false := by
        cases h : strict with
        | false => rfl
        | true => exact absurd (hst h).2 hlt
      have hlt' : ¬ (sv.getD []).length < n := hlt
      cases hv with
      | false =>
        refine Or.inr ⟨?_, Nat.le_of_not_lt hlt, Or.inl rfl⟩
        simp only [step, World.deref, ha, R.ok_bind, cstrCtorIn]
        rw [if_neg hlt', ccAssert_false rfl]; rfl
      | true =>
        have e0 : cstrCtorIn A strict rounds w.st sv a n true = initFromAllocator A strict rounds w.st sv := by
          unfold cstrCtorIn
          rw [if_neg hlt', ccAssert_true rfl]; rfl
        rcases tempCstr_ok hA I hsm hr hs with ⟨h, e⟩ | ⟨s1, c, s', e, e2, J⟩
        · exact Or.inr ⟨by simp only [step, World.deref, ha, R.ok_bind, e0, e, R.error_bind], Nat.le_of_not_lt hlt, Or.inr h⟩
        · refine Or.inl ⟨{ w with st := s' }, .str (cstring (bytesOf sv)), t, k, ?_, ?_, J⟩
          · have e3 : cstrUse strict rounds s1 (sv.getD []).length c = _ := e2
            simp only [step, World.deref, ha, e0, e, R.ok_bind, e3]; rfl
          · simp only [Spec.step, if_true, hb, Option.map_some, Spec.step.filled]
            rw [if_neg hlt]
            have : upd t i (some b) = t := by
              funext j
              unfold upd
              split
              · next e => rw [e, hb]
              · rfl
            exact congrArg some this
  | write i q v =>
    obtain ⟨b, hb, ho⟩ := hl
    obtain ⟨a, hv, o⟩ := I.live i b hb
    have hh : w.st.heap.has (a + q) 1 = true := o.has (by omega) (by omega)
    refine Or.inl ⟨⟨⟨⟨fun x => if x = a + q then v else w.st.heap.mem x, w.st.heap.blocks⟩, w.st.objs, w.st.lost⟩, w.vars⟩, .none, put t i (some { b with bytes := b.bytes.set q (some v) }), k, ?_,
      by simp only [Spec.step, hb, Option.map_some]; rfl, ?_⟩
    · simp only [step, World.deref, hv, R.ok_bind, Heap.write8, hh, if_true]
    · refine I.change (s' := ⟨⟨fun x => if x = a + q then v else w.st.heap.mem x, w.st.heap.blocks⟩, w.st.objs, w.st.lost⟩) (i := i) hb hv rfl rfl ?_ ?_ (put_same _ _ _) (Owned.rewrite (s' := ⟨⟨fun x => if x = a + q then v else w.st.heap.mem x, w.st.heap.blocks⟩, w.st.objs, w.st.lost⟩) (bs := b.bytes.set q (some v)) o rfl rfl (by simp) ?_ ?_)
      · intro x hx
        have h1 := o.at_
        have h2 := o.hi
        exact ⟨if_neg (by omega), rfl⟩
      · intro j hj
        exact put_ne _ _ hj
      · intro x hx
        exact if_neg (by omega)
      · intro q' v' hv'
        dsimp only at hv' ⊢
        by_cases e : q' = q
        · subst e
          rw [List.getElem?_set_self ho] at hv'
          rw [if_pos rfl]
          exact Option.some.inj (Option.some.inj hv')
        · rw [List.getElem?_set_ne (Ne.symm e)] at hv'
          rw [if_neg (by omega)]
          exact o.content q' v' hv'
  | read i q =>
    obtain ⟨b, hb, ho⟩ := hl
    obtain ⟨a, hv, o⟩ := I.live i b hb
    have hh : w.st.heap.has (a + q) 1 = true := o.has (by omega) (by omega)
    refine Or.inl ⟨w, .byte (w.st.heap.mem (a + q)), t, k, ?_, ?_, I⟩
    · simp only [step, World.deref, hv, R.ok_bind, Heap.read8, hh, if_true]
    · simp only [Spec.step, hb]
      rw [if_pos]
      rw [List.getElem?_eq_getElem ho]
      cases hc : b.bytes[q] with
      | none => exact Or.inl rfl
      | some v' =>
        right
        rw [o.content q v' (by rw [List.getElem?_eq_getElem ho, hc])]

theorem run_ok (hA : Good A) (hr : 2 ^ 32 ≤ rounds) (ops : List Op) : ∀ {w : World} {t : State} {k : Nat → Blk}, Inv w.st w.vars t k → AllLegal t ops → (∀ op ∈ ops, Small op) →
    (strict = true → ∀ op ∈ ops, ByTheLetter op) →
    (∃ w' os t' k', run A strict rounds w ops = .ok (some (w', os)) ∧ Spec.run t ops os = some t' ∧ Inv w'.st w'.vars t' k') ∨
    (run A strict rounds w ops = .error .assert ∧ SomeStops A strict rounds w ops) := by
  induction ops with
  | nil => intro w t k I _ _ _; exact Or.inl ⟨w, [], t, k, rfl, rfl, I⟩
  | cons op ops ih =>
    intro w t k I hl hsm hst
    rcases step_ok hA hr I hl.1 (hsm op (by simp)) (fun h => hst h op (by simp)) with ⟨w1, o, t1, k1, e1, q1, I1⟩ | ⟨e1, hm⟩
    · rcases ih I1 (hl.2 o t1 q1) (fun op hop => hsm op (by simp [hop])) (fun h op hop => hst h op (by simp [hop])) with ⟨w2, os, t2, k2, e2, q2, I2⟩ | ⟨e2, hm⟩
      · refine Or.inl ⟨w2, o :: os, t2, k2, ?_, ?_, I2⟩
        · simp only [run, e1, R.ok_bind, e2]; rfl
        · simp only [Spec.run, q1, Option.bind_some, q2]
      · refine Or.inr ⟨?_, Or.inr ⟨w1, o, e1, hm⟩⟩
        simp only [run, e1, R.ok_bind, e2, R.error_bind]
    · refine Or.inr ⟨?_, Or.inl hm⟩
      simp only [run, e1, R.error_bind]

end Verif.AHelp
