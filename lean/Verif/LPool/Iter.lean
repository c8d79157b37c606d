import Verif.LPool.Props
import Verif.Radix.Props
import Verif.FList.Props

/-!
C32: iteration over the allocated nodes of `cc::atomic_linked_pool`, `release_all` and the destructor.

These functions are not meant to run next to others; the model is sequential. The iterating thread must know what the others have done (for `release_all`: it has
all handles).
-/
namespace Verif.LPool
open Spec

variable {α σ : Type}

/-! ## Model -/

/-- The loop that collects the free indices (atomic_linked_pool.hh:339-346). The vector has capacity for `n` elements, `k` of which are left;
`emplace_back_stable` asserts that there is one (detail/vector_base.hh:166). -/
def freeLoop (s : State α) : (k : Nat) → (cursor : Int) → List (BitVec 32) → R (List (BitVec 32))
  | 0, cursor, acc => if cursor = -1 then .ok acc else .error .assert
  | k + 1, cursor, acc =>
    if cursor = -1 then .ok acc
    else if 0 ≤ cursor ∧ cursor < s.cap then freeLoop s k (s.next cursor.toNat) (acc ++ [BitVec.ofInt 32 cursor])
    else .error .ub

/-- `_get_free_node_indices` (atomic_linked_pool.hh:334-353). The second buffer of the sort is uninitialised; its content does not matter (`C31_unique`). -/
def freeIndices (s : State α) : R (List (BitVec 32)) := do
  let free ← freeLoop s s.n s.head.idx []
  let r ← Radix.radixSort free (List.replicate free.length 0)
  .ok r.1

/-- The loop of `iterate_allocated_nodes` (atomic_linked_pool.hh:203-231): `k` indices from `i` on are left. The functor `f` changes some state and says whether
to go on; a functor that returns `void` always goes on. -/
def iterLoop (f : σ → Nat → R (σ × Bool)) (free : List (BitVec 32)) : (k i fli count : Nat) → σ → R (Nat × σ)
  | 0, _, _, count, st => .ok (count, st)
  | k + 1, i, fli, count, st =>
    match free[fli]? with
    | none => do
      let (st, go) ← f st i
      if go then iterLoop f free k (i + 1) fli (count + 1) st else .ok (count + 1, st)
    | some x =>
      if i < x.toNat then do
        let (st, go) ← f st i
        if go then iterLoop f free k (i + 1) fli (count + 1) st else .ok (count + 1, st)
      else do
        ccAssert (decide (i = x.toNat))
        iterLoop f free k (i + 1) (fli + 1) count st

/-- `iterate_allocated_nodes` (atomic_linked_pool.hh:192-234) of an initialised pool. -/
def iterate (s : State α) (f : σ → Nat → R (σ × Bool)) (st : σ) : R (Nat × σ) := do
  let free ← freeIndices s
  iterLoop f free s.n 0 0 0 st

/-- `unsafe_release_node` for slot `i` (atomic_linked_pool.hh:244-257), undisturbed. -/
def unsafeRelease (d0 : α) (t : Nat) (s : State α) (i : Nat) : R (State α) := do
  ccAssert (decide (i < s.n))
  access s t i
  let h := mkHandle i (s.gen i)
  run { s.accessed t i (s.obj i) (s.gen i + 1) (.rDtor i) with given := dropGiven s.given h, log := .released t h :: s.log } d0
    [(t, .go 0), (t, .go 0), (t, .go 0), (t, .go 0)]

/-- `release_all` (atomic_linked_pool.hh:237-240). -/
def releaseAll (s : State α) (d0 : α) (t : Nat) : R (Nat × State α) :=
  iterate s (fun st i => do
    let st ← unsafeRelease d0 t st i
    .ok (st, true)) s

/-- The destructor call for one node (atomic_linked_pool.hh:87): undefined without an object. -/
def destroyNode (obj : Nat → Option α) (i : Nat) : R ((Nat → Option α) × Bool) :=
  if (obj i).isSome then .ok (upd obj i none, true) else .error .ub

/-- The objects after `_destroy` (atomic_linked_pool.hh:439-456). -/
def destroy (s : State α) : R (Nat → Option α) := do
  let r ← iterate s destroyNode s.obj
  .ok r.2

/-! ## Specification -/

namespace Spec

/-- The slots with live handles, ascending. -/
def liveSlots (s : State α) : List Nat := (List.range s.n).filter (fun i => s.given.any (fun g => slot g.handle = i))

/-- Call the functor for the given slots, in this order, until it says stop; count the calls. -/
def visit (f : σ → Nat → R (σ × Bool)) : List Nat → Nat → σ → R (Nat × σ)
  | [], count, st => .ok (count, st)
  | i :: is, count, st => do
    let (st, go) ← f st i
    if go then visit f is (count + 1) st else .ok (count + 1, st)

end Spec

/-! ## Proofs -/

theorem freeLoop_ok {s : State α} : ∀ (fl : List Nat) (k : Nat) (x : Int) (acc : List (BitVec 32)), Chain s.next x fl → fl.length ≤ k → (∀ j ∈ fl, j < s.cap) →
    freeLoop s k x acc = .ok (acc ++ fl.map (BitVec.ofNat 32))
  | [], k, x, acc, hc, _, _ => by
    have hx : x = -1 := hc
    cases k <;> simp [freeLoop, hx]
  | i :: fl, k, x, acc, hc, hk, hb => by
    obtain ⟨rfl, hc⟩ := hc
    cases k with
    | zero => simp at hk
    | succ k =>
      have hi := hb i (by simp)
      unfold freeLoop
      rw [if_neg (by omega), if_pos (by omega)]
      simp only [Int.toNat_natCast]
      rw [freeLoop_ok fl k _ _ hc (by simpa using hk) (fun j hj => hb j (by simp [hj]))]
      simp

/-- The free indices, sorted. -/
theorem freeIndices_ok {s : State α} {fl : List Nat} {φ : Nat → Own} (I : Inv s fl φ) :
    ∃ free, freeIndices s = .ok free ∧ free.Pairwise (fun x y => x.toNat < y.toNat) ∧ (∀ j, (∃ x ∈ free, x.toNat = j) ↔ j ∈ fl) := by
  have hn2 := I.shape.n2
  have hcap := I.shape.capn
  have hlt : ∀ j ∈ fl, j < s.n := fun j hj => ((I.shape.free j).mp hj).1
  have hlen : fl.length ≤ s.n := FList.nodup_len I.shape.nodup hlt
  have e1 : freeLoop s s.n s.head.idx [] = .ok (fl.map (BitVec.ofNat 32)) := by
    rw [freeLoop_ok fl s.n _ [] I.shape.chain hlen (fun j hj => by have := hlt j hj; omega)]
    simp
  obtain ⟨a', t', e2, hp, hs⟩ := Radix.C31_radix_sort (fl.map (BitVec.ofNat 32)) (List.replicate (fl.map (BitVec.ofNat 32)).length 0) (by simp)
  have hto : ∀ j ∈ fl, (BitVec.ofNat 32 j).toNat = j := by
    intro j hj
    rw [BitVec.toNat_ofNat, Nat.mod_eq_of_lt]
    have := hlt j hj
    omega
  have hnd : (fl.map (BitVec.ofNat 32)).Nodup := by
    refine List.pairwise_map.mpr (I.shape.nodup.imp_of_mem ?_)
    intro a b ha hb hab e
    apply hab
    rw [← hto a ha, ← hto b hb, e]
  refine ⟨a', ?_, ?_, ?_⟩
  · unfold freeIndices
    rw [e1]
    simp only [R.ok_bind]
    rw [e2]
    rfl
  · have h1 : a'.Nodup := hp.nodup_iff.mpr hnd
    have h2 := List.pairwise_and_iff.mpr ⟨hs, h1⟩
    refine h2.imp ?_
    intro x y hxy
    have : x.toNat ≠ y.toNat := fun e => hxy.2 (BitVec.eq_of_toNat_eq e)
    omega
  · intro j
    constructor
    · rintro ⟨x, hx, rfl⟩
      obtain ⟨i, hi, rfl⟩ := List.mem_map.mp (hp.mem_iff.mp hx)
      rw [hto i hi]
      exact hi
    · intro hj
      exact ⟨BitVec.ofNat 32 j, hp.mem_iff.mpr (List.mem_map.mpr ⟨j, hj, rfl⟩), hto j hj⟩

theorem iterLoop_ok (f : σ → Nat → R (σ × Bool)) (free : List (BitVec 32)) (hs : free.Pairwise (fun x y => x.toNat < y.toNat)) :
    ∀ (k i fli count : Nat) (st : σ), (∀ j x, free[j]? = some x → (j < fli → x.toNat < i) ∧ (fli ≤ j → i ≤ x.toNat)) →
    iterLoop f free k i fli count st = visit f ((List.range' i k).filter (fun j => !free.any (fun x => x.toNat = j))) count st
  | 0, i, fli, count, st, _ => rfl
  | k + 1, i, fli, count, st, h => by
    have hsorted : ∀ {a b : Nat} {x y : BitVec 32}, free[a]? = some x → free[b]? = some y → a < b → x.toNat < y.toNat := by
      intro a b x y ha hb hab
      obtain ⟨ha1, rfl⟩ := List.getElem?_eq_some_iff.mp ha
      obtain ⟨hb1, rfl⟩ := List.getElem?_eq_some_iff.mp hb
      exact List.pairwise_iff_getElem.mp hs a b ha1 hb1 hab
    have hvisit : (∀ x ∈ free, x.toNat ≠ i) → (∀ x, free[fli]? = some x → i < x.toNat) →
        (do
          let (st, go) ← f st i
          if go then iterLoop f free k (i + 1) fli (count + 1) st else .ok (count + 1, st)) =
        visit f ((List.range' i (k + 1)).filter (fun j => !free.any (fun x => x.toNat = j))) count st := by
      intro hno hlt
      rw [List.range'_succ, List.filter_cons, if_pos (by simpa using hno)]
      unfold visit
      congr 1
      funext r
      obtain ⟨st', go⟩ := r
      cases go with
      | false => rfl
      | true =>
        simp only [if_true]
        refine iterLoop_ok f free hs k (i + 1) fli (count + 1) st' ?_
        intro j x hj
        obtain ⟨h1, h2⟩ := h j x hj
        refine ⟨fun hjf => by have := h1 hjf; omega, fun hjf => ?_⟩
        by_cases e : j = fli
        · subst e; exact hlt x hj
        · have := h2 hjf
          have := hno x (List.mem_of_getElem? hj)
          omega
    unfold iterLoop
    cases e : free[fli]? with
    | none =>
      refine hvisit ?_ (fun x hx => by rw [e] at hx; cases hx)
      intro x hx
      obtain ⟨j, hj⟩ := List.mem_iff_getElem?.mp hx
      have hjl : j < fli := by
        have h1 := (List.getElem?_eq_some_iff.mp hj).1
        have h2 := List.getElem?_eq_none_iff.mp e
        omega
      have := (h j x hj).1 hjl
      omega
    | some x =>
      simp only
      by_cases hlt : i < x.toNat
      · rw [if_pos hlt]
        refine hvisit ?_ (fun y hy => by rw [e] at hy; cases hy; exact hlt)
        intro y hy
        obtain ⟨j, hj⟩ := List.mem_iff_getElem?.mp hy
        by_cases hjf : j < fli
        · have := (h j y hj).1 hjf; omega
        · by_cases e2 : j = fli
          · subst e2
            rw [e] at hj
            cases hj
            omega
          · have := hsorted e hj (by omega)
            omega
      · rw [if_neg hlt]
        have hxi : i = x.toNat := by
          have := (h fli x e).2 (Nat.le_refl _)
          omega
        rw [ccAssert_true (decide_eq_true hxi)]
        simp only [R.ok_bind]
        have hany : free.any (fun x => x.toNat = i) = true := List.any_eq_true.mpr ⟨x, List.mem_of_getElem? e, decide_eq_true hxi.symm⟩
        rw [List.range'_succ, List.filter_cons, if_neg (by rw [hany]; simp)]
        rw [iterLoop_ok f free hs k (i + 1) (fli + 1) count st]
        intro j y hj
        refine ⟨fun hjf => ?_, fun hjf => ?_⟩
        · by_cases e2 : j = fli
          · subst e2
            rw [e] at hj
            cases hj
            omega
          · have := (h j y hj).1 (by omega)
            omega
        · have := hsorted e hj (by omega)
          omega

theorem iterate_ok {s : State α} {fl : List Nat} {φ : Nat → Own} (I : Inv s fl φ) (hq : Quiescent s) (f : σ → Nat → R (σ × Bool)) (st : σ) :
    iterate s f st = visit f (liveSlots s) 0 st := by
  obtain ⟨free, e, hs, hm⟩ := freeIndices_ok I
  unfold iterate
  rw [e]
  simp only [R.ok_bind]
  rw [iterLoop_ok f free hs s.n 0 0 0 st (fun j x _ => ⟨fun h => absurd h (by omega), fun _ => Nat.zero_le _⟩)]
  unfold liveSlots
  rw [List.range_eq_range']
  congr 1
  apply List.filter_congr
  intro j hj
  have hjn : j < s.n := by
    have := List.mem_range'_1.mp hj
    omega
  rw [Bool.eq_iff_iff]
  simp only [Bool.not_eq_true', List.any_eq_false, List.any_eq_true, decide_eq_true_eq]
  constructor
  · intro h
    have hnf : j ∉ fl := fun hjf => by
      obtain ⟨x, hx, e⟩ := (hm j).mpr hjf
      exact h x hx e
    rcases I.inUse hjn hnf with hg | ⟨t, ht⟩
    · exact hg
    · rw [hq t] at ht
      cases ht
  · rintro ⟨g, hg, rfl⟩ x hx e
    have h1 := (I.objs.giv g hg).1
    have h2 := ((I.shape.free _).mp ((hm _).mp ⟨x, hx, e⟩)).2
    rw [h2] at h1
    cases h1

/-- **C32**: on a quiescent pool `iterate_allocated_nodes` calls the functor for the slots with live handles, once each and in ascending order, and for no other slot,
and returns the number of calls, whatever the functor does; it stops early only if the functor says so. -/
theorem C32_iterate {size : Nat} {d0 : α} {s : State α} (h : Reach size d0 s) (hq : Quiescent s) (f : σ → Nat → R (σ × Bool)) (st : σ) :
    iterate s f st = visit f (liveSlots s) 0 st := by
  obtain ⟨fl, φ, I, hn⟩ := h.inv
  exact iterate_ok I hq f st

/-- The slots with live handles are as many as the handles. -/
theorem C32_liveSlots {size : Nat} {d0 : α} {s : State α} (h : Reach size d0 s) :
    (liveSlots s).Perm (s.given.map (fun g => slot g.handle)) ∧ (liveSlots s).Pairwise (· < ·) := by
  obtain ⟨fl, φ, I, hn⟩ := h.inv
  constructor
  · unfold liveSlots
    rw [List.perm_ext_iff_of_nodup (List.nodup_range.filter _) I.objs.givn]
    intro j
    rw [List.mem_filter, List.mem_range, List.mem_map]
    simp only [List.any_eq_true, decide_eq_true_eq]
    constructor
    · exact fun h => h.2
    · rintro ⟨g, hg, rfl⟩
      exact ⟨(I.has ⟨g, hg, rfl, rfl⟩).2.1, g, hg, rfl⟩
  · exact List.pairwise_lt_range.filter _

theorem visit_count (f : σ → Nat → σ) : ∀ (l : List Nat) (c : Nat) (st : σ), visit (fun st i => .ok (f st i, true)) l c st = .ok (c + l.length, l.foldl f st)
  | [], c, st => rfl
  | i :: l, c, st => by
    unfold visit
    simp only [R.ok_bind, if_true]
    rw [visit_count f l]
    simp only [List.length_cons, List.foldl_cons]
    congr 2
    omega

/-- **C32**: so a functor that just collects the slots gets exactly those with live handles, and the result is the number of live handles. -/
theorem C32_collect {size : Nat} {d0 : α} {s : State α} (h : Reach size d0 s) (hq : Quiescent s) :
    iterate s (fun seen i => .ok (seen ++ [i], true)) [] = .ok (s.given.length, liveSlots s) := by
  rw [C32_iterate h hq, visit_count]
  have := (C32_liveSlots h).1.length_eq
  rw [List.length_map] at this
  have hfold : ∀ (l acc : List Nat), l.foldl (fun seen i => seen ++ [i]) acc = acc ++ l := by
    intro l
    induction l with
    | nil => intro acc; simp
    | cons a l ih => intro acc; rw [List.foldl_cons, ih]; simp
  rw [hfold, this]
  simp

/-! ### `release_all` and destruction -/

theorem unsafeRelease_eq {s : State α} {fl : List Nat} {φ : Nat → Own} (I : Inv s fl φ) (d0 : α) {t : Nat} {h : BitVec 32} (ht : (s.threads t).pc = .idle) (hh : Has s t h) :
    unsafeRelease d0 t s (slot h) = run s d0 (soloRelease t h) := by
  obtain ⟨hφ, hi, hg, hr, hob⟩ := I.has hh
  unfold unsafeRelease
  rw [ccAssert_true (decide_eq_true hi), I.acc (Or.inl hφ)]
  simp only [R.ok_bind]
  rw [← hg]
  have : step s d0 t (.release h) = .ok { s.accessed t (slot h) (s.obj (slot h)) (s.gen (slot h) + 1) (.rDtor (slot h)) with given := dropGiven s.given h, log := .released t h :: s.log } := by
    unfold step
    simp only [if_pos ht]
    unfold rCall
    rw [hr]
    simp only [R.ok_bind]
    rw [I.acc (Or.inl hφ)]
    rfl
  change _ = (step s d0 t (.release h) >>= fun s => run s d0 [(t, .go 0), (t, .go 0), (t, .go 0), (t, .go 0)])
  rw [this]
  rfl

theorem releaseAll_ok (d0 : α) (t : Nat) : ∀ (l : List Nat) {s : State α} {fl : List Nat} {φ : Nat → Own} (c : Nat), Inv s fl φ → Quiescent s → (∀ g ∈ s.given, g.thread = t) →
    l.Nodup → (∀ j, j ∈ l ↔ ∃ g ∈ s.given, slot g.handle = j) →
    ∃ s' fl' φ', visit (fun st i => (do
      let st ← unsafeRelease d0 t st i
      .ok (st, true) : R (State α × Bool))) l c s = .ok (c + l.length, s') ∧ Inv s' fl' φ' ∧ Quiescent s' ∧ s'.given = [] ∧ s'.n = s.n
  | [], s, fl, φ, c, I, hq, _, _, hm => by
    refine ⟨s, fl, φ, rfl, I, hq, ?_, rfl⟩
    cases e : s.given with
    | nil => rfl
    | cons g gs =>
      have := (hm (slot g.handle)).mpr ⟨g, by rw [e]; simp, rfl⟩
      cases this
  | i :: l, s, fl, φ, c, I, hq, ht, hnd, hm => by
    obtain ⟨g, hg, hgi⟩ := (hm i).mp (by simp)
    have hh : Has s t g.handle := ⟨g, hg, ht g hg, rfl⟩
    obtain ⟨s1, φ1, e1, I1, hn1, hp, ho, hg1⟩ := soloRelease_ok I d0 (hq t) hh
    have hq1 : Quiescent s1 := fun u => by
      by_cases eu : u = t
      · rw [eu]; exact hp
      · rw [ho u eu]; exact hq u
    obtain ⟨hil, hnd⟩ := List.nodup_cons.mp hnd
    have hdrop : ∀ g', g' ∈ s1.given ↔ g' ∈ s.given ∧ slot g'.handle ≠ i := by
      intro g'
      rw [hg1]
      unfold dropGiven
      rw [List.mem_filter]
      simp only [ne_eq, decide_eq_true_eq]
      refine and_congr_right fun hg' => not_congr ⟨fun e => by rw [e, hgi], fun e => ?_⟩
      have h1 := (I.objs.giv g' hg').2.1
      have h2 := (I.objs.giv g hg).2.1
      rw [h1, h2, e, hgi]
    obtain ⟨s2, fl2, φ2, e2, I2, hq2, hg2, hn2⟩ := releaseAll_ok d0 t l (c + 1) I1 hq1 (fun g' hg' => ht g' ((hdrop g').mp hg').1) hnd (by
      intro j
      constructor
      · intro hj
        obtain ⟨g', hg', ej⟩ := (hm j).mp (by simp [hj])
        refine ⟨g', (hdrop g').mpr ⟨hg', ?_⟩, ej⟩
        intro e
        rw [ej] at e
        exact hil (e ▸ hj)
      · rintro ⟨g', hg', ej⟩
        obtain ⟨h1, h2⟩ := (hdrop g').mp hg'
        have := (hm j).mpr ⟨g', h1, ej⟩
        rcases List.mem_cons.mp this with e | h
        · rw [ej] at h2
          exact absurd e h2
        · exact h)
    refine ⟨s2, fl2, φ2, ?_, I2, hq2, hg2, hn2.trans hn1⟩
    unfold visit
    have e3 := unsafeRelease_eq I d0 (hq t) hh
    rw [hgi, e1] at e3
    rw [e3]
    simp only [R.ok_bind, if_true]
    rw [e2]
    simp only [List.length_cons]
    congr 2
    omega

/-- **C32**: `release_all` releases every live slot once and reports how many there were; afterwards no handle is live and no object is left. -/
theorem C32_release_all {size : Nat} {d0 : α} {s : State α} (h : Reach size d0 s) (hq : Quiescent s) {t : Nat} (ht : ∀ g ∈ s.given, g.thread = t) :
    ∃ s', releaseAll s d0 t = .ok (s.given.length, s') ∧ Quiescent s' ∧ s'.given = [] ∧ (∀ i, s'.obj i = none) ∧
      run s' d0 (acquireAll t size) ≠ .error .assert := by
  have hl := C32_liveSlots h
  obtain ⟨fl, φ, I, hn⟩ := h.inv
  unfold releaseAll
  rw [iterate_ok I hq]
  obtain ⟨s', fl', φ', e, I', hq', hg', hn'⟩ := releaseAll_ok d0 t (liveSlots s) 0 I hq ht (List.nodup_range.filter _) (by
    intro j
    rw [hl.1.mem_iff, List.mem_map])
  rw [e]
  have hlen := hl.1.length_eq
  rw [List.length_map] at hlen
  refine ⟨s', by rw [hlen, Nat.zero_add], hq', hg', ?_, ?_⟩
  · intro i
    cases eo : s'.obj i with
    | none => rfl
    | some v =>
      rcases I'.disjoint.noLeak i (by rw [eo]; rfl) with ⟨g, hg, _⟩ | ⟨u, hu⟩
      · rw [hg'] at hg
        cases hg
      · rw [hq' u] at hu
        cases hu
  · obtain ⟨s2, _, _, e2, _⟩ := acquireAll_ok (d0 := d0) (t := t) size I' hq' (by rw [hg', hn', hn]; simp)
    rw [e2]
    simp

theorem destroy_visit : ∀ (l : List Nat) (c : Nat) (obj : Nat → Option α), l.Nodup → (∀ i ∈ l, (obj i).isSome) →
    ∃ obj', visit destroyNode l c obj = .ok (c + l.length, obj') ∧ ∀ i, obj' i = if i ∈ l then none else obj i
  | [], c, obj, _, _ => ⟨obj, rfl, fun i => by simp⟩
  | i :: l, c, obj, hnd, hs => by
    obtain ⟨hil, hnd⟩ := List.nodup_cons.mp hnd
    obtain ⟨obj', e, ho⟩ := destroy_visit l (c + 1) (upd obj i none) hnd (by
      intro j hj
      rw [upd_ne _ _ (show j ≠ i from fun e => hil (e ▸ hj))]
      exact hs j (by simp [hj]))
    refine ⟨obj', ?_, ?_⟩
    · unfold visit destroyNode
      rw [if_pos (hs i (by simp))]
      simp only [R.ok_bind, if_true]
      have e' := e
      unfold destroyNode at e'
      rw [e']
      simp only [List.length_cons]
      congr 2
      omega
    · intro j
      rw [ho j]
      by_cases e1 : j = i
      · subst e1
        rw [if_neg hil, if_pos (by simp), upd_same]
      · rw [upd_ne _ _ e1]
        simp [e1]

/-- **C32**: the destructor of a quiescent pool destroys every living object, once. -/
theorem C32_destroy {size : Nat} {d0 : α} {s : State α} (h : Reach size d0 s) (hq : Quiescent s) : ∃ obj, destroy s = .ok obj ∧ ∀ i, obj i = none := by
  have hl := C32_liveSlots h
  obtain ⟨fl, φ, I, hn⟩ := h.inv
  unfold destroy
  rw [iterate_ok I hq]
  have hmem : ∀ i, i ∈ liveSlots s ↔ ∃ g ∈ s.given, slot g.handle = i := by
    intro j
    rw [hl.1.mem_iff, List.mem_map]
  obtain ⟨obj', e, ho⟩ := destroy_visit (liveSlots s) 0 s.obj (List.nodup_range.filter _) (by
    intro i hi
    obtain ⟨g, hg, rfl⟩ := (hmem i).mp hi
    rw [(I.objs.giv g hg).2.2]
    rfl)
  refine ⟨obj', by rw [e]; rfl, ?_⟩
  intro i
  rw [ho i]
  by_cases hi : i ∈ liveSlots s
  · rw [if_pos hi]
  · rw [if_neg hi]
    cases eo : s.obj i with
    | none => rfl
    | some v =>
      rcases I.disjoint.noLeak i (by rw [eo]; rfl) with hg | ⟨u, hu⟩
      · exact absurd ((hmem i).mpr hg) hi
      · rw [hq u] at hu
        cases hu

/-! ## Examples -/

/-- Acquire three slots, release the middle one. -/
def demo2 : List (Nat × Act Nat) := soloAcquire 0 ++ soloAcquire 0 ++ soloAcquire 0 ++ soloRelease 0 2

example : (init 5 1 >>= fun s => run s 0 demo2 >>= fun s => iterate s (fun seen i => .ok (seen ++ [i], true)) []) = .ok (2, [0, 2]) := by decide +kernel

example : (init 5 1 >>= fun s => run s 0 demo2 >>= fun s => iterate s (fun seen i => .ok (seen ++ [i], false)) []) = .ok (1, [0]) := by decide +kernel

example : (init 5 1 >>= fun s => run s 0 demo2 >>= fun s => releaseAll s 0 0).map (fun r => (r.1, r.2.given, r.2.head.idx)) = .ok (2, [], 2) := by decide +kernel

end Verif.LPool
