import Verif.AHelp.Lemmas

/-! The helpers keep the invariant. -/
namespace Verif.AHelp
open Verif.Bits Verif.Alloc Spec
open Verif.SysAlloc (Heap Blk Blocks Apart has_iff put put_same put_ne)
open Verif.SysAlloc.Spec (Fresh)

theorem bv_size (a b : Nat) (n : BitVec 64) : BitVec.ofNat 64 a * n + BitVec.ofNat 64 b = BitVec.ofNat 64 (a * n.toNat + b) := by
  apply BitVec.eq_of_toNat_eq
  simp [Nat.add_mod, Nat.mul_mod]

theorem bv_mul (a : Nat) (n : BitVec 64) : BitVec.ofNat 64 a * n = BitVec.ofNat 64 (a * n.toNat) := by
  apply BitVec.eq_of_toNat_eq
  simp [Nat.mul_mod]

theorem bv_toNat (n : BitVec 64) : BitVec.ofNat 64 n.toNat = n := by
  apply BitVec.eq_of_toNat_eq
  simp

theorem length_arrayBytes (E : Elem) (n : Nat) : (arrayBytes E n).length = E.size * n := by simp [arrayBytes]

theorem arrayBytes_get {E : Elem} {n o : Nat} {v : Byte} (h : (arrayBytes E n)[o]? = some (some v)) :
    o < E.size * n ∧ v = if E.tctor then 0 else E.dflt.getD (o % E.size) 0 := by
  have hl := (List.getElem?_eq_some_iff.mp h).1
  rw [length_arrayBytes] at hl
  refine ⟨hl, ?_⟩
  unfold arrayBytes at h
  rw [List.getElem?_map, List.getElem?_range hl] at h
  exact (Option.some.inj (Option.some.inj h)).symm

variable {ι : Type} {s : St} {vars : ι → Option Nat} {t : ι → Option Item} {k : ι → Blk} {A : Al} {strict : Bool} {rounds : Nat}

/-- The state after a new item has been made. -/
structure Made (s s' : St) (b : Item) (a : Nat) (c : Blk) : Prop where
  fresh : Fresh s.heap c.addr c.size
  blocks : s'.heap.blocks = c :: s.heap.blocks
  lost : s'.lost = s.lost
  out : ∀ x, (x < c.addr ∨ c.addr + c.size ≤ x) → s'.heap.mem x = s.heap.mem x ∧ s'.objs x = s.objs x
  owned : Owned s' b a c

theorem Made.inv [DecidableEq ι] {s' : St} {b : Item} {a : Nat} {c : Blk} (m : Made s s' b a c) (I : Inv s vars t k) {i : ι} (hi : t i = none) :
    Inv s' (put vars i (some a)) (put t i (some b)) (put k i c) := I.add hi m.fresh m.blocks m.lost m.out m.owned

theorem objAt_raw {κ : Kind} (h : elemOf κ = none) (a len x : Nat) : objAt κ a len x = none := by
  unfold objAt; rw [h]

theorem objAt_some {κ : Kind} {E : Elem} (h : elemOf κ = some E) (a len x : Nat) :
    objAt κ a len x = if E.tdtor = false ∧ a ≤ x ∧ x < a + len ∧ (x - a) % E.size = 0 then some E else none := by
  unfold objAt; rw [h]

/-- Bytes without objects. -/
theorem Got.raw {s s1 s' : St} {c : Blk} {n al : Nat} (g : Got s s1 c n al) (bs : List (Option Byte)) (hl : bs.length ≤ c.size)
    (hb : s'.heap.blocks = s1.heap.blocks) (hlo : s'.lost = s1.lost) (hobj : s'.objs = s1.objs)
    (hm : ∀ x, (x < c.addr ∨ c.addr + c.size ≤ x) → s'.heap.mem x = s1.heap.mem x)
    (hc : ∀ (o : Nat) (v : Byte), bs[o]? = some (some v) → s'.heap.mem (c.addr + o) = v) :
    Made s s' ⟨.raw, al, bs⟩ c.addr c where
  fresh := g.fresh
  blocks := by rw [hb, g.eq]; rfl
  lost := by rw [hlo, g.eq]
  out := by
    intro x hx
    rw [hm x hx, hobj, g.eq]
    exact ⟨rfl, rfl⟩
  owned := {
    mem := by rw [hb, g.eq]; simp [Heap.add]
    at_ := rfl
    hi := by dsimp only; omega
    header := (fun E h => by cases h)
    objs := by
      intro x h1 h2
      rw [hobj, g.eq, objAt_raw rfl]
      exact g.objs x h1 h2
    align := g.align
    elem := (fun E h => by cases h)
    single := (fun E h => by cases h)
    content := hc }

/-- `alloc`. -/
theorem Got.plain {s s1 : St} {c : Blk} {n al : Nat} (g : Got s s1 c n al) : Made s s1 ⟨.raw, al, List.replicate n none⟩ c.addr c :=
  g.raw _ (by simpa using g.size) rfl rfl rfl (fun _ _ => rfl) (by
    intro o v h
    rw [List.getElem?_replicate] at h
    split at h <;> simp at h)

theorem newT_ok (hA : Good A) (I : Inv s vars t k) {E : Elem} (hE : Ok E) {v : List Byte} (hv : v.length = E.size) :
    (A.alloc s.heap (BitVec.ofNat 64 E.size) (BitVec.ofNat 64 E.align) = .error .assert ∧ newT A s E v = .error .assert) ∨
    ∃ s' a c, newT A s E v = .ok (s', some a) ∧ Made s s' ⟨.single E, E.align, v.map some⟩ a c := by
  unfold newT
  rcases allocate_ok hA I (n := BitVec.ofNat 64 E.size) (al := BitVec.ofNat 64 E.align) (by rw [toNat_align hE]; exact hE.align) with ⟨h, e⟩ | ⟨h, e⟩ | ⟨s1, c, e, g⟩
  · rw [e]; exact Or.inl ⟨h, rfl⟩
  · have := toNat_size hE
    rw [h] at this
    have := hE.pos
    simp at *
    omega
  · right
    rw [toNat_size hE, toNat_align hE] at g
    rw [e, R.ok_bind]
    dsimp only
    have gs := g.size
    rw [construct_ok hv g.align (g.has (Nat.le_refl _) (by omega)) (by intro x h1 h2; rw [g.eq]; exact g.objs x h1 (by omega)), R.ok_bind]
    refine ⟨_, _, c, rfl, g.fresh, by rw [g.eq]; rfl, by rw [g.eq], ?_, ?_⟩
    · intro x hx
      have := hE.pos
      refine ⟨?_, ?_⟩
      · dsimp only
        rw [putBytes_out (by omega), g.eq]
        rfl
      · dsimp only
        rw [if_neg (by omega), g.eq]
    · refine ⟨by rw [g.eq]; simp [Heap.add], rfl, by simp; omega, (fun F h => by cases h), ?_, g.align, ?_, ?_, ?_⟩
      · intro x h1 h2
        rw [objAt_some (E := E) rfl]
        dsimp only
        by_cases hx : x = c.addr ∧ E.tdtor = false
        · have := hE.pos
          rw [if_pos hx, if_pos ⟨hx.2, by omega, by simp; omega, by rw [hx.1]; simp⟩]
        · rw [if_neg hx, if_neg, g.eq]
          · exact g.objs x h1 h2
          · rintro ⟨h3, h4, h5, h6⟩
            rw [Nat.mod_eq_of_lt (by simp at h5; omega)] at h6
            exact hx ⟨by omega, h3⟩
      · intro F hF
        cases hF
        exact ⟨hE, rfl, 1, by simp [hv], by decide, fun _ => by decide⟩
      · intro F hF
        cases hF
        simpa using hv
      · intro o w hw
        dsimp only
        rw [List.getElem?_map] at hw
        cases ho : v[o]? with
        | none => rw [ho] at hw; cases hw
        | some x =>
          rw [ho] at hw
          cases hw
          exact putBytes_in ho

theorem initArray_ok {E : Elem} (hE : Ok E) {p : Nat} {n : BitVec 64} (hfit : E.size * n.toNat < 2 ^ 64) (h32 : E.tctor = false → n.toNat < 2 ^ 32) (hr : 2 ^ 32 ≤ rounds)
    (ha : E.align ∣ p) (hh : ∀ a m, p ≤ a → a + m ≤ p + E.size * n.toNat → s.heap.has a m = true) (ho : ∀ x, p ≤ x → x < p + E.size * n.toNat → s.objs x = none) :
    ∃ s', initArray strict rounds s E (some p) n = .ok (some s') ∧ s'.heap.blocks = s.heap.blocks ∧ s'.lost = s.lost ∧
      (∀ x, (x < p ∨ p + E.size * n.toNat ≤ x) → s'.heap.mem x = s.heap.mem x ∧ s'.objs x = s.objs x) ∧
      ∀ x, p ≤ x → x < p + E.size * n.toNat → s'.heap.mem x = (if E.tctor then 0 else E.dflt.getD ((x - p) % E.size) 0) ∧
        s'.objs x = if E.tdtor = false ∧ (x - p) % E.size = 0 then some E else none := by
  unfold initArray
  by_cases htc : E.tctor = true
  · have en : (BitVec.ofNat 64 E.size * n).toNat = E.size * n.toNat := by rw [bv_mul, toNat_ofNat_lt hfit]
    rw [if_pos htc, en]
    have e2 : notNull strict (some p).isNone = .ok () := by simp [notNull]
    rw [e2, R.ok_bind]
    dsimp only [memset]
    rw [if_pos (hh _ _ (Nat.le_refl _) (Nat.le_refl _)), R.ok_bind]
    refine ⟨_, rfl, rfl, rfl, ?_, ?_⟩
    · intro x hx
      exact ⟨if_neg (by omega), rfl⟩
    · intro x h1 h2
      refine ⟨?_, ?_⟩
      · dsimp only
        rw [if_pos ⟨h1, h2⟩, if_pos htc]
      · dsimp only
        rw [if_neg (by rw [hE.tctor htc]; simp)]
        exact ho x h1 h2
  · have htc' : E.tctor = false := by simpa using htc
    rw [if_neg htc]
    dsimp only
    obtain ⟨s', e, hb, hlo, hout, hin⟩ := ctorLoop_ok hE (h32 htc') ha n.toNat 0#32 s rounds (by simp) (by have := h32 htc'; omega) hh (by simpa using ho)
    refine ⟨s', e, hb, hlo, by simpa using hout, ?_⟩
    intro x h1 h2
    rw [if_neg htc]
    exact hin x (by simpa using h1) h2

/-- An array that has been initialised. -/
theorem Got.array {s s1 s2 s' : St} {c : Blk} {N : Nat} {E : Elem} (hE : Ok E) (g : Got s s1 c N E.align) {n : BitVec 64} {κ : Kind} (hκ : κ = .array E ∨ κ = .sized E)
    (hN : off κ + E.size * n.toNat ≤ N) (h32 : E.tdtor = false → n.toNat < 2 ^ 32)
    (hb2 : s2.heap.blocks = s1.heap.blocks) (hlo2 : s2.lost = s1.lost) (hobj2 : s2.objs = s1.objs)
    (hm2 : ∀ x, (x < c.addr ∨ c.addr + off κ ≤ x) → s2.heap.mem x = s1.heap.mem x) (hh2 : κ = .array E → Alloc.read64 s2.heap.mem c.addr = n)
    (hb : s'.heap.blocks = s2.heap.blocks) (hlo : s'.lost = s2.lost)
    (hout : ∀ x, (x < c.addr + off κ ∨ c.addr + off κ + E.size * n.toNat ≤ x) → s'.heap.mem x = s2.heap.mem x ∧ s'.objs x = s2.objs x)
    (hin : ∀ x, c.addr + off κ ≤ x → x < c.addr + off κ + E.size * n.toNat → s'.heap.mem x = (if E.tctor then 0 else E.dflt.getD ((x - (c.addr + off κ)) % E.size) 0) ∧
        s'.objs x = if E.tdtor = false ∧ (x - (c.addr + off κ)) % E.size = 0 then some E else none) :
    Made s s' ⟨κ, E.align, arrayBytes E n.toNat⟩ (c.addr + off κ) c := by
  have gs := g.size
  have hel : elemOf κ = some E := by rcases hκ with h | h <;> rw [h] <;> rfl
  have hpad : off κ = 0 ∨ off κ = padding E.size := by rcases hκ with h | h <;> rw [h] <;> simp [off]
  have hdv : E.align ∣ off κ := by
    rcases hpad with h | h <;> rw [h]
    · exact Nat.dvd_zero _
    · exact Nat.dvd_trans hE.dvd (padding_ge hE.pos).2
  refine ⟨g.fresh, by rw [hb, hb2, g.eq]; rfl, by rw [hlo, hlo2, g.eq], ?_, ?_⟩
  · intro x hx
    obtain ⟨h1, h2⟩ := hout x (by omega)
    rw [h1, h2, hm2 x (by omega), hobj2, g.eq]
    exact ⟨rfl, rfl⟩
  · refine ⟨by rw [hb, hb2, g.eq]; simp [Heap.add], rfl, by rw [length_arrayBytes]; omega, ?_, ?_, Nat.dvd_add g.align hdv, ?_, ?_, ?_⟩
    · intro F hF
      dsimp only at hF ⊢
      have hp := (padding_ge hE.pos).1
      obtain rfl : E = F := by rw [hF] at hel; exact (Option.some.inj hel).symm
      rw [length_arrayBytes, Alloc.read64_congr (m := s'.heap.mem) (m' := s2.heap.mem), hh2 hF]
      intro x h1 h2
      have : off κ = padding E.size := by rw [hF]; rfl
      exact (hout x (by omega)).1
    · intro x h1 h2
      dsimp only
      rw [objAt_some hel, length_arrayBytes]
      by_cases hx : c.addr + off κ ≤ x ∧ x < c.addr + off κ + E.size * n.toNat
      · rw [(hin x hx.1 hx.2).2]
        by_cases hc : E.tdtor = false ∧ (x - (c.addr + off κ)) % E.size = 0
        · rw [if_pos hc, if_pos ⟨hc.1, hx.1, hx.2, hc.2⟩]
        · rw [if_neg hc, if_neg (fun h => hc ⟨h.1, h.2.2.2⟩)]
      · rw [(hout x (by omega)).2, hobj2, g.eq, if_neg (fun h => hx ⟨h.2.1, h.2.2.1⟩)]
        exact g.objs x h1 h2
    · intro F hF
      obtain rfl : E = F := by dsimp only at hF; rw [hel] at hF; exact Option.some.inj hF
      exact ⟨hE, rfl, n.toNat, length_arrayBytes _ _, n.isLt, h32⟩
    · intro F hF
      dsimp only at hF
      rcases hκ with h | h <;> rw [h] at hF <;> cases hF
    · intro o v hv
      obtain ⟨h1, h2⟩ := arrayBytes_get hv
      rw [(hin (c.addr + off κ + o) (by omega) (by omega)).1, h2, show c.addr + off κ + o - (c.addr + off κ) = o by omega]

theorem newArray_ok (hA : Good A) (I : Inv s vars t k) {E : Elem} (hE : Ok E) {n : BitVec 64} (hfit : E.size * n.toNat + padding E.size < 2 ^ 64)
    (h32 : E.tctor = false ∨ E.tdtor = false → n.toNat < 2 ^ 32) (hr : 2 ^ 32 ≤ rounds) (hst : strict = true → 8 ∣ E.align) :
    (A.alloc s.heap (BitVec.ofNat 64 (E.size * n.toNat + padding E.size)) (BitVec.ofNat 64 E.align) = .error .assert ∧ newArray A strict rounds s E n = .error .assert) ∨
    ∃ s' a c, newArray A strict rounds s E n = .ok (some (s', some a)) ∧ Made s s' ⟨.array E, E.align, arrayBytes E n.toNat⟩ a c := by
  unfold newArray
  rw [bv_size]
  have hp := padding_ge hE.pos
  have en := toNat_ofNat_lt hfit
  rcases allocate_ok hA I (n := BitVec.ofNat 64 (E.size * n.toNat + padding E.size)) (al := BitVec.ofNat 64 E.align) (by rw [toNat_align hE]; exact hE.align) with
    ⟨h, e⟩ | ⟨h, e⟩ | ⟨s1, c, e, g⟩
  · rw [e]; exact Or.inl ⟨h, rfl⟩
  · rw [h] at en
    simp at en
    omega
  · right
    rw [en, toNat_align hE] at g
    have gs := g.size
    rw [e, R.ok_bind]
    dsimp only
    have e1 : sizeTOk strict c.addr = .ok () := by
      unfold sizeTOk
      rw [if_neg]
      rintro ⟨h1, h2⟩
      exact h2 (Nat.mod_eq_zero_of_dvd (Nat.dvd_trans (hst h1) g.align))
    have e2 : s1.heap.write64 c.addr n = .ok { s1.heap with mem := Alloc.write64 s1.heap.mem c.addr n } := by
      unfold Heap.write64
      rw [if_pos (g.has (Nat.le_refl _) (by omega))]
    rw [e1, R.ok_bind, e2, R.ok_bind]
    obtain ⟨s', ei, hb, hlo, hout, hin⟩ := initArray_ok (strict := strict) (rounds := rounds) (s := { s1 with heap := { s1.heap with mem := Alloc.write64 s1.heap.mem c.addr n } }) hE
      (p := c.addr + padding E.size) (n := n) (by omega) (fun h => h32 (Or.inl h)) hr (Nat.dvd_add g.align (Nat.dvd_trans hE.dvd hp.2))
      (fun a m h1 h2 => g.has (s' := s1) (by omega) (by omega)) (by intro x h1 h2; rw [g.eq]; exact g.objs x (by omega) (by omega))
    rw [ei, R.ok_bind]
    refine ⟨s', _, c, rfl, ?_⟩
    exact g.array hE (Or.inl rfl) (by show padding E.size + _ ≤ _; omega) (fun h => h32 (Or.inr h)) (s2 := { s1 with heap := { s1.heap with mem := Alloc.write64 s1.heap.mem c.addr n } }) rfl rfl rfl
      (fun x hx => Alloc.write64_out (by simp only [off] at hx; omega)) (fun _ => Alloc.read64_write _ _ _) hb hlo hout hin

theorem newArraySized_ok (hA : Good A) (I : Inv s vars t k) {E : Elem} (hE : Ok E) {n : BitVec 64} (hfit : E.size * n.toNat < 2 ^ 64)
    (h32 : E.tctor = false ∨ E.tdtor = false → n.toNat < 2 ^ 32) (hr : 2 ^ 32 ≤ rounds) (hst : strict = true → E.tctor = false ∨ n ≠ 0) :
    (A.alloc s.heap (BitVec.ofNat 64 (E.size * n.toNat)) (BitVec.ofNat 64 E.align) = .error .assert ∧ newArraySized A strict rounds s E n = .error .assert) ∨
    (n = 0 ∧ newArraySized A strict rounds s E n = .ok (some (s, none))) ∨
    ∃ s' a c, newArraySized A strict rounds s E n = .ok (some (s', some a)) ∧ Made s s' ⟨.sized E, E.align, arrayBytes E n.toNat⟩ a c := by
  unfold newArraySized
  rw [bv_mul]
  have en := toNat_ofNat_lt hfit
  rcases allocate_ok hA I (n := BitVec.ofNat 64 (E.size * n.toNat)) (al := BitVec.ofNat 64 E.align) (by rw [toNat_align hE]; exact hE.align) with
    ⟨h, e⟩ | ⟨h, e⟩ | ⟨s1, c, e, g⟩
  · rw [e]; exact Or.inl ⟨h, rfl⟩
  · right; left
    have hn : n = 0 := by
      rw [h] at en
      have hpos := hE.pos
      have : n.toNat = 0 := by
        rcases Nat.mul_eq_zero.mp (show E.size * n.toNat = 0 by simpa using en.symm) with h | h
        · omega
        · exact h
      exact BitVec.eq_of_toNat_eq (by simpa using this)
    refine ⟨hn, ?_⟩
    rw [e, R.ok_bind]
    dsimp only
    have ei : initArray strict rounds s E none n = .ok (some s) := by
      unfold initArray
      by_cases htc : E.tctor = true
      · rw [if_pos htc]
        have e2 : notNull strict (none : Option Nat).isNone = .ok () := by
          unfold notNull
          rw [if_neg]
          rintro ⟨h1, -⟩
          rcases hst h1 with h | h
          · rw [htc] at h; cases h
          · exact h hn
        rw [e2, R.ok_bind]
        dsimp only
        rw [if_pos (by rw [hn]; simp)]
      · rw [if_neg htc]
        dsimp only
        rw [if_pos hn]
    rw [ei, R.ok_bind]
  · right; right
    rw [en, toNat_align hE] at g
    have gs := g.size
    rw [e, R.ok_bind]
    dsimp only
    obtain ⟨s', ei, hb, hlo, hout, hin⟩ := initArray_ok (strict := strict) (rounds := rounds) (s := s1) hE
      (p := c.addr) (n := n) hfit (fun h => h32 (Or.inl h)) hr g.align
      (fun a m h1 h2 => g.has (by omega) (by omega)) (by intro x h1 h2; rw [g.eq]; exact g.objs x (by omega) (by omega))
    rw [ei, R.ok_bind]
    refine ⟨s', _, c, rfl, ?_⟩
    exact g.array hE (κ := .sized E) (Or.inr rfl) (by show 0 + _ ≤ _; omega) (fun h => h32 (Or.inr h)) (s2 := s1) rfl rfl rfl
      (fun x hx => rfl) (fun h => by cases h) hb hlo hout hin

theorem dataCopy_ok (hA : Good A) (I : Inv s vars t k) {E : Elem} (hE : Ok E) {d : View} (hfit : (bytesOf d).length < 2 ^ 64) (hst : strict = true → d ≠ none) :
    (A.alloc s.heap (BitVec.ofNat 64 (bytesOf d).length) (BitVec.ofNat 64 E.align) = .error .assert ∧ dataCopy A strict s E d = .error .assert) ∨
    ((bytesOf d).length = 0 ∧ dataCopy A strict s E d = .ok (s, none)) ∨
    ∃ s' a c, dataCopy A strict s E d = .ok (s', some a) ∧ Made s s' ⟨.raw, E.align, (bytesOf d).map some⟩ a c := by
  unfold dataCopy
  change _ ∨ _ ∨ _
  have en := toNat_ofNat_lt hfit
  rcases allocate_ok hA I (n := BitVec.ofNat 64 (bytesOf d).length) (al := BitVec.ofNat 64 E.align) (by rw [toNat_align hE]; exact hE.align) with
    ⟨h, e⟩ | ⟨h, e⟩ | ⟨s1, c, e, g⟩
  · unfold bytesOf at h e ⊢
    rw [e]; exact Or.inl ⟨h, rfl⟩
  · right; left
    rw [h] at en
    unfold bytesOf at en e ⊢
    rw [e]
    exact ⟨by simpa using en.symm, rfl⟩
  · right; right
    rw [en, toNat_align hE] at g
    have gs := g.size
    unfold bytesOf at *
    rw [e, R.ok_bind]
    dsimp only
    have e2 : notNull strict d.isNone = .ok () := by
      unfold notNull
      rw [if_neg]
      rintro ⟨h1, h2⟩
      exact hst h1 (by simpa using h2)
    rw [e2, R.ok_bind]
    unfold store
    rw [if_pos (g.has (Nat.le_refl _) (by omega)), R.ok_bind]
    refine ⟨_, _, c, rfl, g.raw _ (by simpa using gs) rfl rfl rfl (fun x hx => putBytes_out (by omega)) ?_⟩
    intro o w hw
    rw [List.getElem?_map] at hw
    cases ho : (d.getD [])[o]? with
    | none => rw [ho] at hw; cases hw
    | some x =>
      rw [ho] at hw
      cases hw
      exact putBytes_in ho

/-- A string and a zero behind it. -/
theorem putBytes_zero {m : Mem} {a : Nat} {l : List Byte} {o : Nat} {v : Byte} (h : ((l ++ [0]).map some)[o]? = some (some v)) :
    (if a + o = a + l.length then (0 : Byte) else putBytes m a l (a + o)) = v := by
  rw [List.getElem?_map] at h
  by_cases ho : o = l.length
  · subst ho
    rw [List.getElem?_append_right (Nat.le_refl _)] at h
    simp at h
    rw [if_pos rfl, ← h]
    rfl
  · rw [if_neg (by omega)]
    by_cases hlt : o < l.length
    · rw [List.getElem?_append_left hlt] at h
      apply putBytes_in
      cases hx : l[o]? with
      | none => rw [hx] at h; cases h
      | some x => rw [hx] at h; cases h; rfl
    · rw [List.getElem?_append_right (by omega), List.getElem?_eq_none (by simp; omega)] at h
      cases h

theorem stringCopy_ok (hA : Good A) (I : Inv s vars t k) {d : View} (hfit : (bytesOf d).length + 1 < 2 ^ 64) :
    (A.alloc s.heap (BitVec.ofNat 64 ((bytesOf d).length + 1)) (BitVec.ofNat 64 1) = .error .assert ∧ stringCopy A s d = .error .assert) ∨
    ∃ s' a c, stringCopy A s d = .ok (s', some a) ∧ Made s s' ⟨.raw, 1, (bytesOf d ++ [0]).map some⟩ a c := by
  unfold stringCopy
  have en := toNat_ofNat_lt hfit
  have eb : BitVec.ofNat 64 (d.getD []).length + 1#64 = BitVec.ofNat 64 ((bytesOf d).length + 1) := by
    apply BitVec.eq_of_toNat_eq
    simp [bytesOf]
  rw [eb]
  rcases allocate_ok hA I (n := BitVec.ofNat 64 ((bytesOf d).length + 1)) (al := 1#64) ⟨0, rfl⟩ with
    ⟨h, e⟩ | ⟨h, e⟩ | ⟨s1, c, e, g⟩
  · rw [e]; exact Or.inl ⟨h, rfl⟩
  · rw [h] at en
    simp at en
  · right
    rw [en] at g
    have gs := g.size
    rw [e, R.ok_bind]
    dsimp only
    have e2 : (if (d.getD []).length > 0 then store s1.heap c.addr (d.getD []) else .ok s1.heap : R Heap) = .ok { s1.heap with mem := putBytes s1.heap.mem c.addr (bytesOf d) } := by
      by_cases h0 : (d.getD []).length > 0
      · rw [if_pos h0]
        unfold store
        rw [if_pos (g.has (Nat.le_refl _) (by unfold bytesOf at gs; omega))]
        rfl
      · rw [if_neg h0]
        have : d.getD [] = [] := List.eq_nil_of_length_eq_zero (by omega)
        unfold bytesOf
        rw [this, show putBytes s1.heap.mem c.addr [] = s1.heap.mem from funext fun x => putBytes_out (by simp only [List.length_nil, Nat.add_zero]; omega)]
    rw [e2, R.ok_bind]
    have e3 : Heap.write8 { s1.heap with mem := putBytes s1.heap.mem c.addr (bytesOf d) } (c.addr + (d.getD []).length) 0 =
        .ok { s1.heap with mem := fun x => if x = c.addr + (bytesOf d).length then 0 else putBytes s1.heap.mem c.addr (bytesOf d) x } :=
      if_pos (g.has (a := c.addr + (bytesOf d).length) (m := 1) (by omega) (by omega))
    rw [e3, R.ok_bind]
    refine ⟨_, _, c, rfl, g.raw _ (by simpa using gs) rfl rfl rfl ?_ ?_⟩
    · intro x hx
      dsimp only
      rw [if_neg (by omega)]
      exact putBytes_out (by omega)
    · intro o w hw
      exact putBytes_zero hw

/-! ### giving back -/

/-- The state after item `b` has been given back. -/
structure Gone (s s' : St) (c : Blk) : Prop where
  blocks : s'.heap.blocks = s.heap.blocks.filter fun d => decide (d.addr ≠ c.addr)
  mem : s'.heap.mem = s.heap.mem
  lost : s'.lost = s.lost
  objs : ∀ x, c.addr ≤ x → x < c.addr + c.size → s'.objs x = none
  out : ∀ x, (x < c.addr ∨ c.addr + c.size ≤ x) → s'.objs x = s.objs x

theorem Gone.inv [DecidableEq ι] {s' : St} {i : ι} (g : Gone s s' (k i)) (I : Inv s vars t k) {b : Item} (hb : t i = some b) : Inv s' (put vars i none) (put t i none) k :=
  I.del hb g.blocks g.mem g.lost g.objs g.out

theorem gone_of (I : Inv s vars t k) {c : Blk} (hc : c ∈ s.heap.blocks) {objs : Nat → Option Elem} (ho : ∀ x, c.addr ≤ x → x < c.addr + c.size → objs x = none)
    (hout : ∀ x, (x < c.addr ∨ c.addr + c.size ≤ x) → objs x = s.objs x) :
    ∃ s', free { s with objs := objs } (some c.addr) = .ok s' ∧ Gone s s' c := by
  obtain ⟨s', e, h1, h2, h3, h4, h5⟩ := free_ok I hc ho
  exact ⟨s', e, h1, h2, h3, h4, fun x hx => (h5 x hx).trans (hout x hx)⟩

theorem freeRaw_ok (I : Inv s vars t k) {b : Item} {a : Nat} {c : Blk} (o : Owned s b a c) (hk : b.kind = .raw) :
    ∃ s', free s (some a) = .ok s' ∧ Gone s s' c := by
  have h1 := o.at_
  rw [hk] at h1
  simp only [off, Nat.add_zero] at h1
  rw [← h1]
  refine gone_of I o.mem (objs := s.objs) ?_ (fun _ _ => rfl)
  intro x h2 h3
  rw [o.objs x h2 h3, hk, objAt_raw rfl]

theorem deleteT_ok (I : Inv s vars t k) {b : Item} {a : Nat} {c : Blk} (o : Owned s b a c) {E : Elem} (hk : b.kind = .single E) :
    ∃ s', deleteT s E (some a) = .ok s' ∧ Gone s s' c := by
  have h1 := o.at_
  rw [hk] at h1
  simp only [off, Nat.add_zero] at h1
  have hs := o.single E hk
  obtain ⟨hE, -, -⟩ := o.elem E (by rw [hk]; rfl)
  have hob := o.objs
  have hi := o.hi
  have hpos := hE.pos
  rw [hk, hs] at hob
  rw [hs] at hi
  subst h1
  unfold deleteT
  dsimp only
  by_cases htd : E.tdtor = true
  · rw [if_pos htd, R.ok_bind]
    refine gone_of I o.mem (objs := s.objs) ?_ (fun _ _ => rfl)
    intro x h2 h3
    rw [hob x h2 h3, objAt_some (E := E) rfl, if_neg (by rw [htd]; simp)]
  · have htd' : E.tdtor = false := by simpa using htd
    rw [if_neg htd]
    unfold destroy
    rw [if_pos, R.ok_bind]
    · refine gone_of I o.mem ?_ ?_
      · intro x h2 h3
        by_cases hx : x = c.addr
        · rw [if_pos hx]
        · rw [if_neg hx, hob x h2 h3, objAt_some (E := E) rfl, if_neg]
          rintro ⟨-, h4, h5, h6⟩
          rw [Nat.mod_eq_of_lt (by omega)] at h6
          omega
      · intro x hx
        exact if_neg (by omega)
    · rw [hob _ (by omega) (by omega), objAt_some (E := E) rfl, if_pos ⟨htd', by omega, by omega, by simp⟩]

/-- The loop over the elements of an array, if they have a destructor. -/
theorem dtorAll_ok {b : Item} {a : Nat} {c : Blk} (o : Owned s b a c) {E : Elem} (hE : Ok E) (hk : elemOf b.kind = some E) {n : BitVec 64} (hn : b.bytes.length = E.size * n.toNat)
    (hr : 2 ^ 32 ≤ rounds) :
    ∃ objs, (if E.tdtor then .ok (some s) else dtorLoop E a n rounds 0#32 s : R (Option St)) = .ok (some { s with objs := objs }) ∧
      (∀ x, c.addr ≤ x → x < c.addr + c.size → objs x = none) ∧ (∀ x, (x < c.addr ∨ c.addr + c.size ≤ x) → objs x = s.objs x) := by
  have hat := o.at_
  have hob := o.objs
  have hi := o.hi
  rw [hn] at hob hi
  by_cases htd : E.tdtor = true
  · rw [if_pos htd]
    refine ⟨s.objs, rfl, ?_, fun _ _ => rfl⟩
    intro x h1 h2
    rw [hob x h1 h2, objAt_some hk, if_neg (by rw [htd]; simp)]
  · have htd' : E.tdtor = false := by simpa using htd
    rw [if_neg htd]
    obtain ⟨-, -, m, h1, h2, h3⟩ := o.elem E hk
    have hm : m = n.toNat := Nat.eq_of_mul_eq_mul_left hE.pos (h1.symm.trans hn)
    have hn32 : n.toNat < 2 ^ 32 := by rw [← hm]; exact h3 htd'
    obtain ⟨objs, e, hout, hin⟩ := dtorLoop_ok hE (p := a) hn32 n.toNat 0#32 s rounds (by simp) (by omega) (by
      intro x h4 h5
      simp only [BitVec.toNat_ofNat] at h4
      rw [hob x (by omega) (by omega), objAt_some hk]
      by_cases hc : (x - a) % E.size = 0
      · rw [if_pos hc, if_pos ⟨htd', by omega, h5, hc⟩]
      · rw [if_neg hc, if_neg (fun h => hc h.2.2.2)])
    refine ⟨objs, e, ?_, ?_⟩
    · intro x h4 h5
      by_cases hx : a ≤ x ∧ x < a + E.size * n.toNat
      · exact hin x (by simpa using hx.1) hx.2
      · rw [hout x (by simp; omega), hob x h4 h5, objAt_some hk, if_neg (fun h => hx ⟨h.2.1, h.2.2.1⟩)]
    · intro x hx
      refine hout x ?_
      simp; omega

theorem deleteArray_ok (I : Inv s vars t k) {b : Item} {a : Nat} {c : Blk} (o : Owned s b a c) {E : Elem} (hk : b.kind = .array E) (hr : 2 ^ 32 ≤ rounds) (hst : strict = true → 8 ∣ E.align) :
    ∃ s', deleteArray strict rounds s E (some a) = .ok (some s') ∧ Gone s s' c := by
  have h1 := o.at_
  rw [hk] at h1
  simp only [off] at h1
  have hel : elemOf b.kind = some E := by rw [hk]; rfl
  obtain ⟨hE, hal, -⟩ := o.elem E hel
  have hp := padding_ge hE.pos
  have hi := o.hi
  have hsub : a - padding E.size = c.addr := by omega
  unfold deleteArray
  dsimp only
  rw [hsub]
  have e1 : sizeTOk strict c.addr = .ok () := by
    unfold sizeTOk
    rw [if_neg]
    rintro ⟨h2, h3⟩
    apply h3
    have ha := o.align
    rw [hal, ← h1] at ha
    exact Nat.mod_eq_zero_of_dvd (Nat.dvd_trans (hst h2) ((Nat.dvd_add_iff_left (Nat.dvd_trans hE.dvd hp.2)).mpr ha))
  have e2 : s.heap.read64 c.addr = .ok (Alloc.read64 s.heap.mem c.addr) := by
    unfold Heap.read64
    rw [if_pos (has_iff.mpr ⟨c, o.mem, Nat.le_refl _, by omega⟩)]
  rw [e1, R.ok_bind, e2, R.ok_bind]
  obtain ⟨objs, e, h3, h4⟩ := dtorAll_ok (rounds := rounds) o hE hel (o.header E hk).symm hr
  rw [e, R.ok_bind]
  obtain ⟨s', e5, g⟩ := gone_of I o.mem h3 h4
  dsimp only
  rw [e5, R.ok_bind]
  exact ⟨s', rfl, g⟩

theorem deleteArraySized_ok (I : Inv s vars t k) {b : Item} {a : Nat} {c : Blk} (o : Owned s b a c) {E : Elem} (hk : b.kind = .sized E) {n : BitVec 64} (hn : b.bytes.length = E.size * n.toNat)
    (hr : 2 ^ 32 ≤ rounds) :
    ∃ s', deleteArraySized rounds s E n (some a) = .ok (some s') ∧ Gone s s' c := by
  have h1 := o.at_
  rw [hk] at h1
  simp only [off, Nat.add_zero] at h1
  have hel : elemOf b.kind = some E := by rw [hk]; rfl
  obtain ⟨hE, hal, -⟩ := o.elem E hel
  unfold deleteArraySized
  dsimp only
  obtain ⟨objs, e, h3, h4⟩ := dtorAll_ok (rounds := rounds) o hE hel hn hr
  rw [e, R.ok_bind]
  obtain ⟨s', e5, g⟩ := gone_of I o.mem h3 h4
  dsimp only
  rw [← h1, e5, R.ok_bind]
  exact ⟨s', rfl, g⟩

end Verif.AHelp
