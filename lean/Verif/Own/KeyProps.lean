import Verif.Own.KeySpec
import Verif.Own.Props
import Verif.Hash.Props

/-! Property theorems for owning pointers as keys: C128. -/
namespace Verif.Own.Key

open Verif.Own.Spec Spec

/-- Unique ownership or not. -/
def uq : Kind → Bool
  | .shared => false
  | .unique => true

theorem History.st {k : Kind} {n : Nat} {ops : List Op} {s : State} {w : World} (h : History k n ops s w) : St (uq k) none [] [] w ∧ abs w = s := by
  obtain ⟨os, e1, e2⟩ := h.spec
  have hr : match Spec.run (abs (World.init n)) ops with
      | none => run (stepOf k) (World.init n) ops = .error .assert
      | some (s, os) => ∃ w', run (stepOf k) (World.init n) ops = .ok (w', os) ∧ St (uq k) none [] [] w' ∧ abs w' = s := by
    cases k with
    | shared => exact run_ok (fun w op h => sharedStep_ok h op) ops (World.init n) (St.init false n) h.offers h.safe
    | unique => exact run_ok (fun w op h => uniqueStep_ok h op) ops (World.init n) (St.init true n) h.offers h.safe
  rw [abs_init, e1] at hr
  obtain ⟨w', e3, S, A⟩ := hr
  rw [e2] at e3
  cases e3
  exact ⟨S, A⟩

theorem get_ok {u : Bool} {w : World} {l : Loc} (h : St u none [] [] w) (ha : Acc [] (abs w) l) (addr : Nat → Addr) :
    get addr w l = .ok (addrOf addr ((abs w).ptr l)) := by
  obtain ⟨p, hp⟩ := acc_locAt h.inv (avoid := []) (by intro m e; cases e) ha
  unfold get
  rw [hp.read, R.ok_bind, ptr_of_get hp.get]

theorem live_ptr {u : Bool} {w : World} {l : Loc} (h : St u none [] [] w) (ha : Acc [] (abs w) l) {o : Nat} (e : (abs w).ptr l = some o) :
    ∃ b, w.heap[o]? = some b ∧ b.freed = false := by
  obtain ⟨p, hp⟩ := acc_locAt h.inv (avoid := []) (by intro m e; cases e) ha
  have : p = some o := by rw [← e]; exact (ptr_of_get hp.get).symm
  subst this
  obtain ⟨b, hb, hf, _⟩ := live_at h (avoid := []) (by intro m e; cases e) ha (by simp) hp.get
  exact ⟨b, hb, hf⟩

theorem addrOf_inj {addr : Nat → Addr} {w : World} (hl : Layout addr w) {p q : Option Nat}
    (hp : ∀ o, p = some o → ∃ b, w.heap[o]? = some b ∧ b.freed = false) (hq : ∀ o, q = some o → ∃ b, w.heap[o]? = some b ∧ b.freed = false) :
    addrOf addr p = addrOf addr q ↔ p = q := by
  constructor
  · intro e
    cases p with
    | none =>
      cases q with
      | none => rfl
      | some o =>
        obtain ⟨b, hb, hf⟩ := hq o rfl
        exact ((hl o b hb hf).1 e.symm).elim
    | some o =>
      obtain ⟨b, hb, hf⟩ := hp o rfl
      cases q with
      | none => exact ((hl o b hb hf).1 e).elim
      | some o' =>
        obtain ⟨b', hb', hf'⟩ := hq o' rfl
        rw [(hl o b hb hf).2 o' b' hb' hf' e]
  · intro e
    rw [e]

/-- The keys of two usable pointers, with what the layout says about them. -/
theorem keys {k : Kind} {n : Nat} {ops : List Op} {s : State} {w : World} (h : History k n ops s w) {addr : Nat → Addr} (hl : Layout addr w)
    {l r : Loc} (ha : Usable s l) (hb : Usable s r) :
    ∃ x y, get addr w l = .ok x ∧ get addr w r = .ok y ∧ (x = y ↔ s.ptr l = s.ptr r) := by
  obtain ⟨S, rfl⟩ := History.st h
  exact ⟨_, _, get_ok S ha addr, get_ok S hb addr, addrOf_inj hl (fun o e => live_ptr S ha e) (fun o e => live_ptr S hb e)⟩

/-- **C128**, equality. After any history of C55 or C56, two usable pointers are equal exactly if they own the same object or both own none, and `!=` is the
opposite; although addresses are used again. -/
theorem C128_equal {k : Kind} {n : Nat} {ops : List Op} {s : State} {w : World} (h : History k n ops s w) {addr : Nat → Addr} (hl : Layout addr w)
    {l r : Loc} (ha : Usable s l) (hb : Usable s r) :
    eq addr w l r = .ok (decide (s.ptr l = s.ptr r)) ∧ ne addr w l r = .ok (decide (s.ptr l ≠ s.ptr r)) := by
  obtain ⟨x, y, ex, ey, hi⟩ := keys h hl ha hb
  unfold eq ne
  rw [ex, ey]
  simp only [R.ok_bind]
  by_cases e : s.ptr l = s.ptr r
  · rw [hi.2 e]; simp [e]
  · have : x ≠ y := fun e' => e (hi.1 e')
    simp [e, this]

theorem cnt_of_locAt {w : World} {l r : Loc} {o : Nat} (hne : l ≠ r) (hr : LocAt w r (some o)) : 0 < cnt (some l) w o := by
  cases r with
  | var i =>
    have hg : w.vars[i]? = some (some o) := hr
    have : (effVars (some l) w.vars)[i]? = some (some o) := by
      unfold effVars
      split
      · rename_i j e
        cases e
        have : j ≠ i := fun e => hne (by rw [e])
        rw [List.getElem?_set_ne this]; exact hg
      · exact hg
    have := count_pos_of_getElem this
    unfold cnt; omega
  | field a k =>
    obtain ⟨b, hb, hf, hr, hbf⟩ := hr
    have : (effFields (some l) a b.fields)[k]? = some (some o) := by
      unfold effFields
      split
      · rename_i o' k' e
        cases e
        split
        · rename_i e
          subst e
          have : k' ≠ k := fun e => hne (by rw [e])
          rw [List.getElem?_set_ne this]; exact hbf
        · exact hbf
      · exact hbf
    have h1 := count_pos_of_getElem this
    have h2 : contrib (some l) w o a = (effFields (some l) a b.fields).count (some o) := by
      rw [contrib_some hb]; unfold contribB; rw [if_pos (isLive_of hf hr)]
    have h3 := le_sumTo (n := w.heap.length) (f := contrib (some l) w o) (List.getElem?_eq_some_iff.1 hb).1
    unfold cnt; omega

/-- **C128**, equality of pointers that own alone: two of them are equal only if both are null. -/
theorem C128_unique_equal {n : Nat} {ops : List Op} {s : State} {w : World} (h : History .unique n ops s w) {addr : Nat → Addr} (hl : Layout addr w)
    {l r : Loc} (hne : l ≠ r) (ha : Usable s l) (hb : Usable s r) :
    eq addr w l r = .ok (decide (s.ptr l = none ∧ s.ptr r = none)) := by
  rw [(C128_equal h hl ha hb).1]
  congr 1
  rw [decide_eq_decide]
  constructor
  · intro e
    obtain ⟨S, rfl⟩ := History.st h
    obtain ⟨p, hp⟩ := acc_locAt S.inv (avoid := []) (by intro m e; cases e) ha
    obtain ⟨q, hq⟩ := acc_locAt S.inv (avoid := []) (by intro m e; cases e) hb
    rw [ptr_of_get hp.get, ptr_of_get hq.get] at e ⊢
    subst e
    cases p with
    | none => exact ⟨rfl, rfl⟩
    | some o =>
      exfalso
      have S2 := S.exclude hp
      have h1 := S2.inv o
      have h2 := cnt_of_locAt hne hq
      obtain ⟨b, hbk, hf, _⟩ := live_at S (avoid := []) (by intro m e; cases e) ha (by simp) hp.get
      have h3 := S.le1 rfl o b hbk hf
      rw [eff_some hbk] at h1
      simp only [effB, hf, Bool.false_eq_true, if_false, Option.toList_some, List.append_nil, List.count_nil, List.count_cons_self] at h1
      omega
  · rintro ⟨e1, e2⟩
    rw [e1, e2]

/-- **C128**, comparison with plain pointers: with the address of a living object it tells whether the pointer owns that object, with `nullptr` whether it owns none. -/
theorem C128_raw {k : Kind} {n : Nat} {ops : List Op} {s : State} {w : World} (h : History k n ops s w) {addr : Nat → Addr} (hl : Layout addr w)
    {l : Loc} (ha : Usable s l) :
    (∀ (o : Nat) b, w.heap[o]? = some b → b.freed = false →
      eqRaw addr w l (addr o) = .ok (decide (s.ptr l = some o)) ∧ neRaw addr w l (addr o) = .ok (decide (s.ptr l ≠ some o))) ∧
    eqRaw addr w l 0#64 = .ok (decide (s.ptr l = none)) ∧ neRaw addr w l 0#64 = .ok (decide (s.ptr l ≠ none)) := by
  obtain ⟨S, rfl⟩ := History.st h
  have hg := get_ok S ha addr
  have key : ∀ (p : Option Nat), (∀ o, p = some o → ∃ b, w.heap[o]? = some b ∧ b.freed = false) →
      eqRaw addr w l (addrOf addr p) = .ok (decide ((abs w).ptr l = p)) ∧ neRaw addr w l (addrOf addr p) = .ok (decide ((abs w).ptr l ≠ p)) := by
    intro p hp
    have hi := addrOf_inj hl (fun o e => live_ptr S ha e) hp
    unfold eqRaw neRaw
    rw [hg]
    simp only [R.ok_bind]
    by_cases e : (abs w).ptr l = p
    · rw [e]; simp
    · have : addrOf addr ((abs w).ptr l) ≠ addrOf addr p := fun e' => e (hi.1 e')
      simp [e, this]
  exact ⟨fun o b hb hf => key (some o) (fun o' e => by cases e; exact ⟨b, hb, hf⟩), key none (fun o e => by cases e)⟩

/-- **C128**, order. `less` is a strict total order of the owned objects, and the four comparisons of shared pointers are those of one order: exactly one
of less, same object, greater; `<=` is less or same; `>` and `>=` are `<` and `<=` with the pointers exchanged; less is transitive. -/
theorem C128_order {k : Kind} {n : Nat} {ops : List Op} {s : State} {w : World} (h : History k n ops s w) {addr : Nat → Addr} (hl : Layout addr w) :
    (∀ l r, Usable s l → Usable s r →
      (less addr w l r = .ok true ∧ less addr w r l = .ok false ∧ s.ptr l ≠ s.ptr r ∨
        less addr w l r = .ok false ∧ less addr w r l = .ok false ∧ s.ptr l = s.ptr r ∨
        less addr w l r = .ok false ∧ less addr w r l = .ok true ∧ s.ptr l ≠ s.ptr r) ∧
      (le addr w l r = .ok true ↔ less addr w l r = .ok true ∨ s.ptr l = s.ptr r) ∧
      gt addr w l r = less addr w r l ∧ ge addr w l r = le addr w r l ∧ (∃ b, le addr w l r = .ok b)) ∧
    (∀ l m r, Usable s l → Usable s m → Usable s r → less addr w l m = .ok true → less addr w m r = .ok true → less addr w l r = .ok true) := by
  constructor
  · intro l r ha hb
    obtain ⟨x, y, ex, ey, hi⟩ := keys h hl ha hb
    have hxy : x = y ↔ x.toNat = y.toNat := ⟨fun e => by rw [e], fun e => BitVec.eq_of_toNat_eq e⟩
    rw [hxy] at hi
    unfold less le gt ge
    rw [ex, ey]
    simp only [R.ok_bind, Except.ok.injEq, decide_eq_true_eq, decide_eq_false_iff_not]
    refine ⟨?_, ?_, trivial, trivial, ?_⟩
    · rcases Nat.lt_trichotomy x.toNat y.toNat with c | c | c
      · exact Or.inl ⟨c, by omega, fun e => by have := hi.2 e; omega⟩
      · exact Or.inr (Or.inl ⟨by omega, by omega, hi.1 c⟩)
      · exact Or.inr (Or.inr ⟨by omega, c, fun e => by have := hi.2 e; omega⟩)
    · rw [← hi]; omega
    · exact ⟨_, rfl⟩
  · intro l m r ha hb hc h1 h2
    obtain ⟨x, y, ex, ey, _⟩ := keys h hl ha hb
    obtain ⟨y', z, ey', ez, _⟩ := keys h hl hb hc
    rw [ey] at ey'
    cases ey'
    unfold less at *
    rw [ex, ey] at h1
    rw [ey, ez] at h2
    rw [ex, ez]
    simp only [R.ok_bind, Except.ok.injEq, decide_eq_true_eq] at *
    omega

theorem bytesOf_inj {a b : Addr} (h : bytesOf a = bytesOf b) : a = b := by
  simp only [bytesOf, List.cons.injEq, and_true] at h
  obtain ⟨h0, h1, h2, h3, h4, h5, h6, h7⟩ := h
  apply BitVec.eq_of_getLsbD_eq
  intro i hi
  have bit : ∀ (j : Nat) (_ : a.extractLsb' (8 * j) 8 = b.extractLsb' (8 * j) 8), 8 * j ≤ i → i < 8 * j + 8 → a.getLsbD i = b.getLsbD i := by
    intro j e h1 h2
    have := congrArg (fun v : BitVec 8 => v.getLsbD (i - 8 * j)) e
    simp only [BitVec.getLsbD_extractLsb'] at this
    rw [show 8 * j + (i - 8 * j) = i by omega] at this
    simpa [show i - 8 * j < 8 by omega] using this
  have : i / 8 < 8 := by omega
  rcases (by omega : i / 8 = 0 ∨ i / 8 = 1 ∨ i / 8 = 2 ∨ i / 8 = 3 ∨ i / 8 = 4 ∨ i / 8 = 5 ∨ i / 8 = 6 ∨ i / 8 = 7) with c | c | c | c | c | c | c | c
  · exact bit 0 h0 (by omega) (by omega)
  · exact bit 1 h1 (by omega) (by omega)
  · exact bit 2 h2 (by omega) (by omega)
  · exact bit 3 h3 (by omega) (by omega)
  · exact bit 4 h4 (by omega) (by omega)
  · exact bit 5 h5 (by omega) (by omega)
  · exact bit 6 h6 (by omega) (by omega)
  · exact bit 7 h7 (by omega) (by omega)

theorem word_bytesOf_inj {a b : Addr} : Hash.word (bytesOf a) = Hash.word (bytesOf b) ↔ a = b :=
  ⟨fun h => bytesOf_inj (Hash.word_inj h rfl (Nat.le_refl 8)), fun h => by rw [h]⟩

/-- **C128**, hashes. Usable pointers have the same hash exactly if they own the same object or both own none. -/
theorem C128_hash {k : Kind} {n : Nat} {ops : List Op} {s : State} {w : World} (h : History k n ops s w) {addr : Nat → Addr} (hl : Layout addr w) :
    PerfectHash (Usable s) (fun l r => s.ptr l = s.ptr r) (hashUnique addr w) ∧
    PerfectHash (Usable s) (fun l r => s.ptr l = s.ptr r) (hashShared addr w) := by
  constructor
  · intro l r ha hb
    exact keys h hl ha hb
  · intro l r ha hb
    obtain ⟨x, y, ex, ey, hi⟩ := keys h hl ha hb
    refine ⟨Hash.bytes (bytesOf x), Hash.bytes (bytesOf y), ?_, ?_, ?_⟩
    · unfold hashShared; rw [ex, R.ok_bind]
    · unfold hashShared; rw [ey, R.ok_bind]
    · exact Iff.trans word_bytesOf_inj hi

/-! ### keys over time -/

theorem untouched_step {l : Loc} {op : Op} (hu : Untouched l op) {s s' : State} {o : Option Nat} (h : Spec.step s op = some (s', o)) {p : Option Nat}
    (hp : s.get l = some p) : s'.get l = some p := by
  cases op with
  | make dst n =>
    cases h
    rw [get_set_ne (fun e => hu e.symm)]
    exact get_addObj n hp
  | copy dst src => cases h; rw [get_set_ne (fun e => hu e.symm)]; exact hp
  | move dst src => cases h; rw [get_set_ne (fun e => hu.2 e.symm), get_set_ne (fun e => hu.1 e.symm)]; exact hp
  | reset d => cases h; rw [get_set_ne (fun e => hu e.symm)]; exact hp
  | resetFrom dst src => cases h; rw [get_set_ne (fun e => hu.1 e.symm), get_set_ne (fun e => hu.2 e.symm)]; exact hp
  | deref d =>
    simp only [Spec.step] at h
    cases e : s.ptr d with
    | none => rw [e] at h; cases h
    | some o => rw [e] at h; cases h; exact hp

theorem untouched_run {l : Loc} (ops : List Op) (hu : ∀ op ∈ ops, Untouched l op) {s s' : State} {os : List (Option Nat)}
    (h : Spec.run s ops = some (s', os)) {p : Option Nat} (hp : s.get l = some p) : s'.get l = some p := by
  induction ops generalizing s os with
  | nil => cases h; exact hp
  | cons op ops ih =>
    simp only [Spec.run] at h
    cases e : Spec.step s op with
    | none => rw [e] at h; cases h
    | some so =>
      obtain ⟨s1, o⟩ := so
      rw [e] at h
      simp only at h
      cases e2 : Spec.run s1 ops with
      | none => rw [e2] at h; cases h
      | some so2 =>
        obtain ⟨s2, os2⟩ := so2
        rw [e2] at h
        cases h
        exact ih (fun op hop => hu op (by simp [hop])) e2 (untouched_step (hu op (by simp)) e hp)

theorem run_append {s : State} (ops more : List Op) : Spec.run s (ops ++ more) =
    match Spec.run s ops with
    | none => none
    | some (s1, os) => match Spec.run s1 more with | none => none | some (s2, os2) => some (s2, os ++ os2) := by
  induction ops generalizing s with
  | nil =>
    simp only [List.nil_append, Spec.run]
    cases Spec.run s more with
    | none => rfl
    | some so => rfl
  | cons op ops ih =>
    simp only [List.cons_append, Spec.run]
    cases e : Spec.step s op with
    | none => rfl
    | some so =>
      obtain ⟨s1, o⟩ := so
      simp only
      rw [ih]
      cases e2 : Spec.run s1 ops with
      | none => rfl
      | some so2 =>
        obtain ⟨s2, os2⟩ := so2
        simp only
        cases e3 : Spec.run s2 more with
        | none => rfl
        | some so3 => rfl

/-- **C128**, keys last. While a pointer is not assigned to, moved or reset, its hash stays the same, whatever happens to other pointers and to its object. -/
theorem C128_lasting {k : Kind} {n : Nat} {ops more : List Op} {s s' : State} {w w' : World} (h : History k n ops s w)
    (h' : History k n (ops ++ more) s' w') (addr : Nat → Addr) {l : Loc} (ha : Usable s l) (ha' : Usable s' l) (hu : ∀ op ∈ more, Untouched l op) :
    s'.ptr l = s.ptr l ∧ hashUnique addr w' l = hashUnique addr w l ∧ hashShared addr w' l = hashShared addr w l := by
  obtain ⟨os, e1, _⟩ := h.spec
  obtain ⟨os', e2, _⟩ := h'.spec
  rw [run_append, e1] at e2
  simp only at e2
  cases e3 : Spec.run s more with
  | none => rw [e3] at e2; cases e2
  | some so =>
    obtain ⟨s2, os2⟩ := so
    rw [e3] at e2
    cases e2
    obtain ⟨p, hp⟩ := Option.isSome_iff_exists.1 ha.1
    have hp' := untouched_run more hu e3 hp
    have hpp : s'.ptr l = s.ptr l := by rw [ptr_of_get hp, ptr_of_get hp']
    obtain ⟨S, rfl⟩ := History.st h
    obtain ⟨S', rfl⟩ := History.st h'
    have hg : get addr w' l = get addr w l := by rw [get_ok S ha addr, get_ok S' ha' addr, hpp]
    refine ⟨hpp, hg, ?_⟩
    unfold hashShared
    rw [hg]

theorem last_step {k : Kind} {n : Nat} {ops : List Op} {op : Op} {s s' : State} {w w' : World} (h : History k n ops s w)
    (h' : History k n (ops ++ [op]) s' w') : ∃ o, Spec.step s op = some (s', o) := by
  obtain ⟨os, e1, _⟩ := h.spec
  obtain ⟨os', e2, _⟩ := h'.spec
  rw [run_append, e1] at e2
  simp only [Spec.run] at e2
  cases e3 : Spec.step s op with
  | none => rw [e3] at e2; cases e2
  | some so =>
    obtain ⟨s2, o⟩ := so
    rw [e3] at e2
    cases e2
    exact ⟨o, rfl⟩

/-- **C128**, moving a key. After `dst = move(src)` the key is where it was moved to: `dst` has the hash that `src` had, and `src` is null. -/
theorem C128_moved {k : Kind} {n : Nat} {ops : List Op} {dst src : Loc} {s s' : State} {w w' : World} (hne : dst ≠ src) (h : History k n ops s w)
    (h' : History k n (ops ++ [.move dst src]) s' w') (addr : Nat → Addr) (hd : Usable s dst) (hs : Usable s src) (hd' : Usable s' dst)
    (hs' : Usable s' src) :
    hashUnique addr w' dst = hashUnique addr w src ∧ hashShared addr w' dst = hashShared addr w src ∧ eqRaw addr w' src 0#64 = .ok true := by
  obtain ⟨o, e⟩ := last_step h h'
  cases e
  obtain ⟨p, hp⟩ := Option.isSome_iff_exists.1 hd.1
  obtain ⟨q, hq⟩ := Option.isSome_iff_exists.1 hs.1
  have e1 : ((s.set dst (s.ptr src)).set src none).get dst = some (s.ptr src) := by rw [get_set_ne hne, get_set_self hp]
  have e2 : ((s.set dst (s.ptr src)).set src none).get src = some none := by
    apply get_set_self (p := q)
    rw [get_set_ne (fun e => hne e.symm)]; exact hq
  obtain ⟨S, rfl⟩ := History.st h
  obtain ⟨S', eA⟩ := History.st h'
  rw [← eA] at hd' hs' e1 e2
  have hg : get addr w' dst = get addr w src := by rw [get_ok S' hd' addr, get_ok S hs addr, ptr_of_get e1]
  refine ⟨hg, ?_, ?_⟩
  · unfold hashShared; rw [hg]
  · unfold eqRaw
    rw [get_ok S' hs' addr, ptr_of_get e2]
    rfl

/-- **C128**, new keys. A newly made pointer is equal to no other pointer, even if its object got the address of one that was freed. -/
theorem C128_new {k : Kind} {n : Nat} {ops : List Op} {dst : Loc} {m : Nat} {s s' : State} {w w' : World} (h : History k n ops s w)
    (h' : History k n (ops ++ [.make dst m]) s' w') {addr : Nat → Addr} (hl : Layout addr w') {r : Loc} (hne : r ≠ dst) (hd : Usable s dst)
    (hr : Usable s r) (hd' : Usable s' dst) (hr' : Usable s' r) : eq addr w' dst r = .ok false := by
  rw [(C128_equal h' hl hd' hr').1]
  obtain ⟨o, e⟩ := last_step h h'
  cases e
  obtain ⟨p, hp⟩ := Option.isSome_iff_exists.1 hd.1
  obtain ⟨q, hq⟩ := Option.isSome_iff_exists.1 hr.1
  have e1 : ((addObj s m).set dst (some s.objs.length)).ptr dst = some s.objs.length := ptr_of_get (get_set_self (get_addObj m hp) _)
  have e2 : ((addObj s m).set dst (some s.objs.length)).ptr r = q := ptr_of_get (by rw [get_set_ne hne]; exact get_addObj m hq)
  obtain ⟨S, rfl⟩ := History.st h
  congr 1
  rw [decide_eq_false_iff_not]
  intro e
  have e : ((addObj (abs w) m).set dst (some (abs w).objs.length)).ptr dst = ((addObj (abs w) m).set dst (some (abs w).objs.length)).ptr r := e
  rw [e1, e2] at e
  obtain ⟨b, hb, _⟩ := live_ptr S hr (o := (abs w).objs.length) (by rw [ptr_of_get hq, ← e])
  have := (List.getElem?_eq_some_iff.1 hb).1
  simp [abs] at this

/-! ### boxes and type ids -/

/-- **C128**, boxes (partial). Two boxes compare like their values; comparing a box that was moved from is caught by an assertion. Not covered (and not so):
the comparison of a box with a value. -/
theorem C128_box_partial {A B : Type} (f : A → B → Bool) (a : Option A) (b : Option B) :
    boxCompare f a b = match a, b with | some x, some y => .ok (f x y) | _, _ => .error .assert := by
  cases a <;> cases b <;> rfl

/-- **C128** is false of boxes: comparing a box that was moved from with a value is not caught but undefined. -/
theorem C128_box_value {A B : Type} (f : A → B → Bool) (y : B) : boxCompareValue f (none : Option A) y = .error .ub ∧
    ∀ x, boxCompareValue f (some x) y = .ok (f x y) := ⟨rfl, fun _ => rfl⟩

/-- **C128**, type ids: those of two types are equal, and have the same hash, exactly if the types are the same; no type has the id that says nothing, not
even `void`; the order is a strict total one. -/
theorem C128_type_id {T : Type} (at_ : T → Addr) (hi : ∀ t u, at_ t = at_ u → t = u) (hz : ∀ t, at_ t ≠ 0#64) :
    (∀ t u, ((typeId at_ t).eq (typeId at_ u) = true ↔ t = u) ∧ ((typeId at_ t).ne (typeId at_ u) = true ↔ t ≠ u) ∧
      ((typeId at_ t).hash = (typeId at_ u).hash ↔ t = u)) ∧
    (∀ t, (typeId at_ t).valid = true ∧ (typeId at_ t).eq TypeId.none = false) ∧ TypeId.none.valid = false ∧
    (∀ a b : TypeId, (a.lt b = true ∨ a.eq b = true ∨ b.lt a = true) ∧ (a.lt b = true → a.eq b = false ∧ b.lt a = false) ∧
      a.le b = !b.lt a ∧ a.gt b = b.lt a ∧ a.ge b = !a.lt b) ∧
    (∀ a b c : TypeId, a.lt b = true → b.lt c = true → a.lt c = true) := by
  refine ⟨fun t u => ⟨?_, ?_, ?_⟩, fun t => ⟨?_, ?_⟩, rfl, fun a b => ⟨?_, ?_, ?_, ?_, ?_⟩, fun a b c => ?_⟩
  · simp only [TypeId.eq, typeId, beq_iff_eq]
    exact ⟨hi t u, fun e => by rw [e]⟩
  · simp only [TypeId.ne, typeId, bne_iff_ne]
    exact ⟨fun e e' => e (by rw [e']), fun e e' => e (hi t u e')⟩
  · simp only [TypeId.hash, typeId, word_bytesOf_inj]
    exact ⟨hi t u, fun e => by rw [e]⟩
  · simp [TypeId.valid, typeId, hz t]
  · simp [TypeId.eq, typeId, TypeId.none, hz t]
  · simp only [TypeId.lt, TypeId.eq, decide_eq_true_eq, beq_iff_eq]
    rcases Nat.lt_trichotomy a.id.toNat b.id.toNat with c | c | c
    · exact Or.inl c
    · exact Or.inr (Or.inl (BitVec.eq_of_toNat_eq c))
    · exact Or.inr (Or.inr c)
  · simp only [TypeId.lt, TypeId.eq, decide_eq_true_eq, decide_eq_false_iff_not, beq_eq_false_iff_ne]
    exact fun h => ⟨fun e => by rw [e] at h; omega, by omega⟩
  · simp only [TypeId.le, TypeId.lt, ← decide_not, Nat.not_lt]
  · rfl
  · simp only [TypeId.ge, TypeId.lt, ← decide_not, Nat.not_lt, ge_iff_le]
  · simp only [TypeId.lt, decide_eq_true_eq]; omega

/-! ### examples -/

/-- Object 0 is freed, object 1 lives at the same address, with two owners; a third pointer is null. -/
def reuse : List Op := [.make (.var 0) 0, .reset (.var 0), .make (.var 1) 0, .copy (.var 2) (.var 1)]

/-- All objects at one address, as if it was used again and again. -/
def oneAddr : Nat → Addr := fun _ => 4096#64

example : ∃ s w, History .shared 3 reuse s w ∧ Layout oneAddr w ∧ Usable s (.var 0) ∧ Usable s (.var 1) ∧ Usable s (.var 2) ∧
    eq oneAddr w (.var 1) (.var 2) = .ok true ∧ eq oneAddr w (.var 0) (.var 1) = .ok false ∧ less oneAddr w (.var 0) (.var 1) = .ok true ∧
    hashShared oneAddr w (.var 2) = .ok 4096#64 := by
  refine ⟨⟨[none, some 1, some 1], [[], []]⟩, ⟨[none, some 1, some 1], [⟨0, [], true⟩, ⟨2, [], false⟩], [0]⟩, ⟨?_, ?_, ?_⟩, ?_,
    ⟨rfl, trivial⟩, ⟨rfl, trivial⟩, ⟨rfl, trivial⟩, rfl, rfl, rfl, rfl⟩
  · simp [reuse, offered, isShared]
  · refine ⟨⟨by decide, trivial⟩, ?_⟩
    rintro s o ⟨⟩
    refine ⟨⟨by decide, trivial⟩, ?_⟩
    rintro s o ⟨⟩
    refine ⟨⟨by decide, trivial⟩, ?_⟩
    rintro s o ⟨⟩
    refine ⟨⟨⟨by decide, trivial⟩, ⟨by decide, trivial⟩⟩, ?_⟩
    rintro s o ⟨⟩
    trivial
  · exact ⟨[none, none, none, none], by decide, by decide⟩
  · intro o b hb hf
    match o, hb with
    | 0, hb => cases hb; cases hf
    | 1, hb =>
      refine ⟨by decide, fun o' b' hb' hf' _ => ?_⟩
      match o', hb' with
      | 0, hb' => cases hb'; cases hf'
      | 1, _ => rfl

/-- The types `void` and `int`. -/
example : ∃ at_ : Bool → Addr, (∀ t u, at_ t = at_ u → t = u) ∧ (∀ t, at_ t ≠ 0#64) ∧ (typeId at_ true).lt (typeId at_ false) = true :=
  ⟨fun b => if b then 8#64 else 12#64, by decide, by decide, by decide⟩

end Verif.Own.Key
