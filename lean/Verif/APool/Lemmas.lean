import Verif.APool.Spec

/-! The invariant of the allocator for calm schedules. -/
namespace Verif.APool
open Spec

theorem upd_same {β : Type} (f : Nat → β) (i : Nat) (b : β) : upd f i b i = b := if_pos rfl
theorem upd_ne {β : Type} (f : Nat → β) {i j : Nat} (b : β) (h : j ≠ i) : upd f i b j = f j := if_neg h

/-- The free list. -/
def Chain (mem : Nat → Word) : Ptr → List Nat → Prop
  | x, [] => x = .null
  | x, i :: l => x = .block i ∧ Chain mem (mem i).asPtr l

theorem Chain.congr {mem mem' : Nat → Word} : ∀ {x : Ptr} {l : List Nat}, (∀ i ∈ l, mem i = mem' i) → Chain mem x l → Chain mem' x l
  | _, [], _, h => h
  | x, i :: l, e, h => ⟨h.1, by
      rw [← e i (by simp)]
      exact Chain.congr (fun j hj => e j (by simp [hj])) h.2⟩

/-- A pointer that can stand in the head of the list. -/
def PtrOk (n : Nat) (x : Ptr) : Prop := x = .null ∨ ∃ i, i < n ∧ x = .block i

theorem Chain.ptrOk {mem : Nat → Word} {x : Ptr} {l : List Nat} {n : Nat} (h : Chain mem x l) (hl : ∀ j ∈ l, j < n) : PtrOk n x := by
  cases l with
  | nil => exact Or.inl h
  | cons i l => exact Or.inr ⟨i, hl i (by simp), h.1⟩

/-- The block that a running `free` is about to give back. -/
def transit : Pc → Option Nat
  | .fLoad i => some i
  | .fWrite i _ => some i
  | .fCas i _ => some i
  | _ => none

/-- What a thread has read. -/
def PcOk (n : Nat) (mem : Nat → Word) (fl : List Nat) : Pc → Prop
  | .aRead x => ∃ i, i < n ∧ x = .block i
  | .aCas x nxt => ∃ i, i < n ∧ x = .block i ∧ (i ∈ fl → nxt = (mem i).asPtr)
  | .fWrite _ x => PtrOk n x
  | .fCas i x => mem i = .link x
  | _ => True

/-- The invariant; `fl` are the free blocks in order. -/
structure Inv (s : State) (fl : List Nat) : Prop where
  chain : Chain s.mem s.head fl
  nodup : fl.Nodup
  flb : ∀ j ∈ fl, j < s.n
  heads : ∀ x ∈ s.head :: s.older, PtrOk s.n x
  givn : (s.given.map Given.block).Nodup
  giv : ∀ g ∈ s.given, g.block < s.n ∧ g.block ∉ fl ∧ ∀ v, g.val = some v → s.mem g.block = .data v
  tr : ∀ t j, transit (s.pc t) = some j → j < s.n ∧ j ∉ fl ∧ (∀ g ∈ s.given, g.block ≠ j) ∧ ∀ u, transit (s.pc u) = some j → u = t
  pcs : ∀ t, PcOk s.n s.mem fl (s.pc t)
  all : ∀ j, j < s.n → j ∈ fl ∨ (∃ g ∈ s.given, g.block = j) ∨ ∃ t, transit (s.pc t) = some j

theorem Inv.disjoint {s : State} {fl : List Nat} (h : Inv s fl) : Disjoint s :=
  { blocks := h.givn, bound := fun g hg => (h.giv g hg).1, content := fun g hg => (h.giv g hg).2.2 }

theorem transit_upd_none {pc : Nat → Pc} {t : Nat} {p : Pc} (hp : transit p = none) (h0 : transit (pc t) = none) (u : Nat) :
    transit (upd pc t p u) = transit (pc u) := by
  by_cases e : u = t
  · subst e; rw [upd_same, hp, h0]
  · rw [upd_ne _ _ e]

theorem transit_upd_same {pc : Nat → Pc} {t : Nat} {p : Pc} (hp : transit p = transit (pc t)) (u : Nat) :
    transit (upd pc t p u) = transit (pc u) := by
  by_cases e : u = t
  · subst e; rw [upd_same, hp]
  · rw [upd_ne _ _ e]

/-- A step that changes only the position of one thread. -/
theorem goto_ok {s : State} {fl : List Nat} (h : Inv s fl) (t : Nat) (p : Pc) (hp : transit p = transit (s.pc t)) (hok : PcOk s.n s.mem fl p) :
    Inv (s.goto t p) fl where
  chain := h.chain
  nodup := h.nodup
  flb := h.flb
  heads := h.heads
  givn := h.givn
  giv := h.giv
  tr := by
    intro u j hj
    have hj : transit (upd s.pc t p u) = some j := hj
    rw [transit_upd_same hp] at hj
    obtain ⟨a, b, c, d⟩ := h.tr u j hj
    refine ⟨a, b, c, fun v hv => d v ?_⟩
    have hv : transit (upd s.pc t p v) = some j := hv
    rwa [transit_upd_same hp] at hv
  pcs := by
    intro u
    change PcOk s.n s.mem fl (upd s.pc t p u)
    by_cases e : u = t
    · subst e; rw [upd_same]; exact hok
    · rw [upd_ne _ _ e]; exact h.pcs u
  all := by
    intro j hj
    rcases h.all j hj with a | a | ⟨u, hu⟩
    · exact Or.inl a
    · exact Or.inr (Or.inl a)
    · refine Or.inr (Or.inr ⟨u, ?_⟩)
      change transit (upd s.pc t p u) = some j
      rw [transit_upd_same hp]; exact hu

/-- What a step gives. -/
def Good (r : R State) : Prop := (∃ s fl, r = .ok s ∧ Inv s fl) ∨ r = .error .assert

theorem getElem?_heads {s : State} {fl : List Nat} (h : Inv s fl) {c : Nat} {x : Ptr} (e : (s.head :: s.older)[c]? = some x) : PtrOk s.n x :=
  h.heads x (List.mem_of_getElem? e)

theorem init_ok {n : Nat} {s : State} (h : init n = .ok s) : Inv s (List.range n) ∧ s.n = n ∧ s.given = [] ∧ (∀ t, s.pc t = .idle) := by
  unfold init at h
  by_cases hn : 0 < n
  · rw [ccAssert_true (decide_eq_true hn), R.ok_bind] at h
    injection h with h
    subst h
    refine ⟨?_, rfl, rfl, fun _ => rfl⟩
    have hc : ∀ k i, i + k = n → Chain (fun i => Word.link (if i + 1 < n then .block (i + 1) else .null)) (if i < n then .block i else .null) (List.range' i k) := by
      intro k
      induction k with
      | zero => intro i hi; rw [if_neg (by omega)]; rfl
      | succ k ih =>
        intro i hi
        rw [if_pos (by omega)]
        exact ⟨rfl, ih (i + 1) (by omega)⟩
    have hc := hc n 0 (by omega)
    rw [if_pos hn] at hc
    rw [List.range_eq_range']
    exact {
      chain := hc
      nodup := List.nodup_range'
      flb := fun j hj => by
        change j < n
        rw [List.mem_range'_1] at hj
        omega
      heads := fun x hx => by
        have hx : x ∈ [Ptr.block 0] := hx
        rw [List.mem_singleton] at hx
        exact Or.inr ⟨0, hn, hx⟩
      givn := List.nodup_nil
      giv := fun g hg => by cases hg
      tr := fun t j hj => by cases hj
      pcs := fun t => trivial
      all := fun j hj => Or.inl (by
        have hj : j < n := hj
        rw [List.mem_range'_1]
        omega) }
  · rw [ccAssert_false (decide_eq_false hn), R.error_bind] at h
    cases h

theorem aCas_ok {s : State} {fl : List Nat} (h : Inv s fl) {t : Nat} {x nxt : Ptr} (c : Nat) (hpc : s.pc t = .aCas x nxt) :
    ∃ s' fl', aCas s t x nxt c = .ok s' ∧ Inv s' fl' := by
  have hp := h.pcs t
  rw [hpc] at hp
  obtain ⟨i, hi, rfl, hnx⟩ := hp
  unfold aCas
  by_cases e : c = 0 ∧ s.head = .block i
  · rw [if_pos e]
    have hc := h.chain
    rw [e.2] at hc
    cases fl with
    | nil => cases hc
    | cons i' l =>
      have : i' = i := by have := hc.1; injection this with this; exact this.symm
      subst this
      have hx := hnx (by simp)
      have ht : transit (s.pc t) = none := by rw [hpc]; rfl
      have hnd := List.nodup_cons.mp h.nodup
      refine ⟨_, l, rfl, ?_⟩
      exact {
        chain := by rw [hx]; exact hc.2
        nodup := hnd.2
        flb := fun j hj => h.flb j (by simp [hj])
        heads := fun y hy => by
          rcases List.mem_cons.mp hy with hy | hy
          · have hy : y = nxt := hy
            rw [hy, hx]
            exact hc.2.ptrOk (fun j hj => h.flb j (by simp [hj]))
          · exact h.heads y hy
        givn := by
          change (i' :: s.given.map Given.block).Nodup
          refine List.nodup_cons.mpr ⟨fun hm => ?_, h.givn⟩
          obtain ⟨g, hg, hgi⟩ := List.mem_map.mp hm
          exact (h.giv g hg).2.1 (by simp [hgi])
        giv := fun g hg => by
          rcases List.mem_cons.mp hg with hg | hg
          · subst hg
            exact ⟨hi, hnd.1, fun v hv => by cases hv⟩
          · obtain ⟨a, b, d⟩ := h.giv g hg
            exact ⟨a, fun hm => b (by simp [hm]), d⟩
        tr := fun u j hj => by
          have hj : transit (upd s.pc t .idle u) = some j := hj
          rw [transit_upd_none rfl ht] at hj
          obtain ⟨a, b, d, f⟩ := h.tr u j hj
          refine ⟨a, fun hm => b (by simp [hm]), fun g hg => ?_, fun v hv => f v ?_⟩
          · rcases List.mem_cons.mp hg with hg | hg
            · subst hg
              exact fun e => b (by simp [← e])
            · exact d g hg
          · have hv : transit (upd s.pc t .idle v) = some j := hv
            rwa [transit_upd_none rfl ht] at hv
        pcs := fun u => by
          change PcOk s.n s.mem l (upd s.pc t .idle u)
          by_cases e : u = t
          · subst e; rw [upd_same]; trivial
          · rw [upd_ne _ _ e]
            have := h.pcs u
            cases hu : s.pc u with
            | aCas y z =>
              rw [hu] at this
              obtain ⟨k, hk, hy, hz⟩ := this
              exact ⟨k, hk, hy, fun hm => hz (by simp [hm])⟩
            | idle => trivial
            | aCheck => trivial
            | aLoad => trivial
            | fLoad k => trivial
            | aRead y => rw [hu] at this; exact this
            | fWrite k y => rw [hu] at this; exact this
            | fCas k y => rw [hu] at this; exact this
        all := fun j hj => by
          rcases h.all j hj with a | ⟨g, hg, a⟩ | ⟨u, hu⟩
          · rcases List.mem_cons.mp a with a | a
            · exact Or.inr (Or.inl ⟨_, List.mem_cons_self, a.symm⟩)
            · exact Or.inl a
          · exact Or.inr (Or.inl ⟨g, List.mem_cons_of_mem _ hg, a⟩)
          · refine Or.inr (Or.inr ⟨u, ?_⟩)
            change transit (upd s.pc t .idle u) = some j
            rw [transit_upd_none rfl ht]; exact hu }
  · rw [if_neg e]
    exact ⟨_, fl, rfl, goto_ok h t .aLoad (by rw [hpc]; rfl) trivial⟩

theorem fWrite_ok {s : State} {fl : List Nat} (h : Inv s fl) {t i : Nat} {x : Ptr} (hpc : s.pc t = .fWrite i x) :
    ∃ s', fWrite s t i x = .ok s' ∧ Inv s' fl := by
  have htr : transit (s.pc t) = some i := by rw [hpc]; rfl
  obtain ⟨hi, hf, hg, hu⟩ := h.tr t i htr
  unfold fWrite
  rw [if_pos hi]
  have hs : transit (.fCas i x) = transit (s.pc t) := by rw [htr]; rfl
  refine ⟨_, rfl, ?_⟩
  exact {
    chain := h.chain.congr (fun j hj => (upd_ne _ _ (show j ≠ i from fun e => hf (e ▸ hj))).symm)
    nodup := h.nodup
    flb := h.flb
    heads := h.heads
    givn := h.givn
    giv := fun g hgm => by
      obtain ⟨a, b, d⟩ := h.giv g hgm
      refine ⟨a, b, fun v hv => ?_⟩
      change upd s.mem i _ g.block = _
      rw [upd_ne _ _ (hg g hgm)]
      exact d v hv
    tr := fun u j hj => by
      have hj : transit (upd s.pc t (.fCas i x) u) = some j := hj
      rw [transit_upd_same hs] at hj
      obtain ⟨a, b, d, f⟩ := h.tr u j hj
      refine ⟨a, b, d, fun v hv => f v ?_⟩
      have hv : transit (upd s.pc t (.fCas i x) v) = some j := hv
      rwa [transit_upd_same hs] at hv
    pcs := fun u => by
      change PcOk s.n (upd s.mem i (.link x)) fl (upd s.pc t (.fCas i x) u)
      by_cases e : u = t
      · subst e; rw [upd_same]; exact upd_same _ _ _
      · rw [upd_ne _ _ e]
        have := h.pcs u
        cases hpu : s.pc u with
        | aCas y z =>
          rw [hpu] at this
          obtain ⟨k, hk, hy, hz⟩ := this
          refine ⟨k, hk, hy, fun hm => ?_⟩
          rw [upd_ne _ _ (show k ≠ i from fun e => hf (e ▸ hm))]
          exact hz hm
        | idle => trivial
        | aCheck => trivial
        | aLoad => trivial
        | fLoad k => trivial
        | aRead y => rw [hpu] at this; exact this
        | fWrite k y => rw [hpu] at this; exact this
        | fCas k y =>
          rw [hpu] at this
          change upd s.mem i (.link x) k = _
          rw [upd_ne _ _ (show k ≠ i from fun ek => e (hu u (by rw [hpu, ek]; rfl)))]
          exact this
    all := fun j hj => by
      rcases h.all j hj with a | a | ⟨u, hu⟩
      · exact Or.inl a
      · exact Or.inr (Or.inl a)
      · refine Or.inr (Or.inr ⟨u, ?_⟩)
        change transit (upd s.pc t (.fCas i x) u) = some j
        rw [transit_upd_same hs]; exact hu }

theorem fCas_ok {s : State} {fl : List Nat} (h : Inv s fl) {t i : Nat} {x : Ptr} (c : Nat) (hpc : s.pc t = .fCas i x)
    (hcalm : c = 0 ∧ s.head = x → ∀ u nxt, s.pc u ≠ .aCas (.block i) nxt) :
    ∃ s' fl', fCas s t i x c = .ok s' ∧ Inv s' fl' := by
  have htr : transit (s.pc t) = some i := by rw [hpc]; rfl
  obtain ⟨hi, hf, hg, hu⟩ := h.tr t i htr
  have hm : s.mem i = .link x := by have := h.pcs t; rw [hpc] at this; exact this
  unfold fCas
  by_cases e : c = 0 ∧ s.head = x
  · rw [if_pos e]
    refine ⟨_, i :: fl, rfl, ?_⟩
    have hne : ∀ u j, transit (upd s.pc t .idle u) = some j → u ≠ t ∧ transit (s.pc u) = some j ∧ j ≠ i := by
      intro u j hj
      by_cases eu : u = t
      · subst eu; rw [upd_same] at hj; cases hj
      · rw [upd_ne _ _ eu] at hj
        exact ⟨eu, hj, fun ej => eu (hu u (ej ▸ hj))⟩
    exact {
      chain := ⟨rfl, by change Chain s.mem (s.mem i).asPtr fl; rw [hm]; change Chain s.mem x fl; rw [← e.2]; exact h.chain⟩
      nodup := List.nodup_cons.mpr ⟨hf, h.nodup⟩
      flb := fun j hj => by
        rcases List.mem_cons.mp hj with hj | hj
        · subst hj; exact hi
        · exact h.flb j hj
      heads := fun y hy => by
        rcases List.mem_cons.mp hy with hy | hy
        · exact Or.inr ⟨i, hi, hy⟩
        · exact h.heads y hy
      givn := h.givn
      giv := fun g hgm => by
        obtain ⟨a, b, d⟩ := h.giv g hgm
        refine ⟨a, fun hmm => ?_, d⟩
        rcases List.mem_cons.mp hmm with hmm | hmm
        · exact hg g hgm hmm
        · exact b hmm
      tr := fun u j hj => by
        obtain ⟨_, hj, hji⟩ := hne u j hj
        obtain ⟨a, b, d, f⟩ := h.tr u j hj
        refine ⟨a, fun hmm => ?_, d, fun v hv => f v (hne v j hv).2.1⟩
        rcases List.mem_cons.mp hmm with hmm | hmm
        · exact hji hmm
        · exact b hmm
      pcs := fun u => by
        change PcOk s.n s.mem (i :: fl) (upd s.pc t .idle u)
        by_cases eu : u = t
        · subst eu; rw [upd_same]; trivial
        · rw [upd_ne _ _ eu]
          have := h.pcs u
          cases hpu : s.pc u with
          | aCas y z =>
            rw [hpu] at this
            obtain ⟨k, hk, hy, hz⟩ := this
            refine ⟨k, hk, hy, fun hmm => ?_⟩
            rcases List.mem_cons.mp hmm with hmm | hmm
            · subst hmm; subst hy
              exact absurd hpu (hcalm e u z)
            · exact hz hmm
          | idle => trivial
          | aCheck => trivial
          | aLoad => trivial
          | fLoad k => trivial
          | aRead y => rw [hpu] at this; exact this
          | fWrite k y => rw [hpu] at this; exact this
          | fCas k y => rw [hpu] at this; exact this
      all := fun j hj => by
        rcases h.all j hj with a | a | ⟨u, huj⟩
        · exact Or.inl (by simp [a])
        · exact Or.inr (Or.inl a)
        · by_cases eu : u = t
          · subst eu
            rw [htr] at huj
            injection huj with huj
            exact Or.inl (by simp [huj])
          · refine Or.inr (Or.inr ⟨u, ?_⟩)
            change transit (upd s.pc t .idle u) = some j
            rw [upd_ne _ _ eu]; exact huj }
  · rw [if_neg e]
    exact ⟨_, fl, rfl, goto_ok h t (.fLoad i) (by rw [htr]; rfl) trivial⟩

theorem fCall_ok {s : State} {fl : List Nat} (h : Inv s fl) {t i : Nat} (hpc : s.pc t = .idle) (hh : Has s t i) :
    ∃ s', fCall s t i = .ok s' ∧ Inv s' fl := by
  obtain ⟨g, hg, _, hgi⟩ := hh
  obtain ⟨hi, hf, _⟩ := h.giv g hg
  rw [hgi] at hi hf
  have ht : transit (s.pc t) = none := by rw [hpc]; rfl
  have hsplit : ∀ u j, transit (upd s.pc t (.fLoad i) u) = some j → (u = t ∧ j = i) ∨ (u ≠ t ∧ transit (s.pc u) = some j ∧ j ≠ i) := by
    intro u j hj
    by_cases eu : u = t
    · subst eu; rw [upd_same] at hj; injection hj with hj; exact Or.inl ⟨rfl, hj.symm⟩
    · rw [upd_ne _ _ eu] at hj
      exact Or.inr ⟨eu, hj, fun ej => (h.tr u j hj).2.2.1 g hg (by rw [hgi, ej])⟩
  unfold fCall
  rw [ccAssert_true (decide_eq_true (show i ≤ s.n by omega)), R.ok_bind]
  refine ⟨_, rfl, ?_⟩
  have hmem : ∀ g', g' ∈ s.given.filter (fun g => g.block ≠ i) ↔ g' ∈ s.given ∧ g'.block ≠ i := by
    intro g'; rw [List.mem_filter]; simp
  exact {
    chain := h.chain
    nodup := h.nodup
    flb := h.flb
    heads := h.heads
    givn := h.givn.sublist (List.Sublist.map _ List.filter_sublist)
    giv := fun g' hg' => h.giv g' ((hmem g').mp hg').1
    tr := fun u j hj => by
      rcases hsplit u j hj with ⟨rfl, rfl⟩ | ⟨_, hj, hji⟩
      · refine ⟨hi, hf, fun g' hg' => ((hmem g').mp hg').2, fun v hv => ?_⟩
        rcases hsplit v j hv with ⟨e, _⟩ | ⟨_, _, e⟩
        · exact e
        · exact absurd rfl e
      · obtain ⟨a, b, d, f⟩ := h.tr u j hj
        refine ⟨a, b, fun g' hg' => d g' ((hmem g').mp hg').1, fun v hv => ?_⟩
        rcases hsplit v j hv with ⟨_, e⟩ | ⟨_, hv, _⟩
        · exact absurd e hji
        · exact f v hv
    pcs := fun u => by
      change PcOk s.n s.mem fl (upd s.pc t (.fLoad i) u)
      by_cases eu : u = t
      · subst eu; rw [upd_same]; trivial
      · rw [upd_ne _ _ eu]; exact h.pcs u
    all := fun j hj => by
      by_cases ej : j = i
      · refine Or.inr (Or.inr ⟨t, ?_⟩)
        change transit (upd s.pc t (.fLoad i) t) = some j
        rw [upd_same, ej]; rfl
      · rcases h.all j hj with a | ⟨g', hg', a⟩ | ⟨u, hu⟩
        · exact Or.inl a
        · exact Or.inr (Or.inl ⟨g', (hmem g').mpr ⟨hg', by rw [a]; exact ej⟩, a⟩)
        · refine Or.inr (Or.inr ⟨u, ?_⟩)
          change transit (upd s.pc t (.fLoad i) u) = some j
          by_cases eu : u = t
          · subst eu; rw [ht] at hu; cases hu
          · rw [upd_ne _ _ eu]; exact hu }

theorem write_ok {s : State} {fl : List Nat} (h : Inv s fl) {t i v : Nat} (hpc : s.pc t = .idle) (hh : Has s t i) :
    ∃ s', step s t (.write i v) = .ok s' ∧ Inv s' fl := by
  obtain ⟨g, hg, _, hgi⟩ := hh
  obtain ⟨hi, hf, _⟩ := h.giv g hg
  rw [hgi] at hi hf
  have e : step s t (.write i v) = .ok { s with mem := upd s.mem i (.data v), given := s.given.map (fun g => if g.block = i then { thread := g.thread, block := g.block, val := some v } else g) } := if_pos hpc
  refine ⟨_, e, ?_⟩
  have hb : (s.given.map (fun g => if g.block = i then { thread := g.thread, block := g.block, val := some v } else g)).map Given.block = s.given.map Given.block := by
    rw [List.map_map]
    apply List.map_congr_left
    intro g' _
    change (if g'.block = i then _ else g').block = g'.block
    split <;> rfl
  exact {
    chain := h.chain.congr (fun j hj => (upd_ne _ _ (show j ≠ i from fun e => hf (e ▸ hj))).symm)
    nodup := h.nodup
    flb := h.flb
    heads := h.heads
    givn := by
      change (List.map Given.block _).Nodup
      rw [hb]; exact h.givn
    giv := fun g' hg' => by
      obtain ⟨g0, hg0, rfl⟩ := List.mem_map.mp hg'
      obtain ⟨a, b, d⟩ := h.giv g0 hg0
      by_cases eb : g0.block = i
      · rw [if_pos eb]
        refine ⟨a, b, fun w hw => ?_⟩
        injection hw with hw
        change upd s.mem i (.data v) g0.block = _
        rw [eb, upd_same, hw]
      · rw [if_neg eb]
        refine ⟨a, b, fun w hw => ?_⟩
        change upd s.mem i (.data v) g0.block = _
        rw [upd_ne _ _ eb]
        exact d w hw
    tr := fun u j hj => by
      obtain ⟨a, b, d, f⟩ := h.tr u j hj
      refine ⟨a, b, fun g' hg' => ?_, f⟩
      have : g'.block ∈ s.given.map Given.block := by rw [← hb]; exact List.mem_map_of_mem hg'
      obtain ⟨g0, hg0, e0⟩ := List.mem_map.mp this
      rw [← e0]
      exact d g0 hg0
    pcs := fun u => by
      change PcOk s.n (upd s.mem i (.data v)) fl (s.pc u)
      have := h.pcs u
      cases hpu : s.pc u with
      | aCas y z =>
        rw [hpu] at this
        obtain ⟨k, hk, hy, hz⟩ := this
        refine ⟨k, hk, hy, fun hm => ?_⟩
        rw [upd_ne _ _ (show k ≠ i from fun e => hf (e ▸ hm))]
        exact hz hm
      | idle => trivial
      | aCheck => trivial
      | aLoad => trivial
      | fLoad k => trivial
      | aRead y => rw [hpu] at this; exact this
      | fWrite k y => rw [hpu] at this; exact this
      | fCas k y =>
        rw [hpu] at this
        change upd s.mem i (.data v) k = _
        rw [upd_ne _ _ (show k ≠ i from fun ek => (h.tr u k (by rw [hpu]; rfl)).2.2.1 g hg (by rw [hgi, ek]))]
        exact this
    all := fun j hj => by
      rcases h.all j hj with a | ⟨g', hg', a⟩ | a
      · exact Or.inl a
      · have : j ∈ s.given.map Given.block := by rw [← a]; exact List.mem_map_of_mem hg'
        rw [← hb] at this
        obtain ⟨g0, hg0, e0⟩ := List.mem_map.mp this
        exact Or.inr (Or.inl ⟨g0, hg0, e0⟩)
      · exact Or.inr (Or.inr a) }

/-- Every calm step keeps the invariant or is stopped by an assertion. -/
theorem step_ok {s : State} {fl : List Nat} (h : Inv s fl) {t : Nat} {a : Act} (hal : allowed s t a) (hcalm : Calm s t a) : Good (step s t a) := by
  cases a with
  | alloc =>
    by_cases e : s.pc t = .idle
    · exact Or.inl ⟨_, fl, if_pos e, goto_ok h t .aCheck (by rw [e]; rfl) trivial⟩
    · exact Or.inl ⟨_, fl, if_neg e, h⟩
  | free i =>
    by_cases e : s.pc t = .idle
    · obtain ⟨s', e1, h1⟩ := fCall_ok h e (hal e)
      exact Or.inl ⟨s', fl, (if_pos e).trans e1, h1⟩
    · exact Or.inl ⟨_, fl, if_neg e, h⟩
  | write i v =>
    by_cases e : s.pc t = .idle
    · obtain ⟨s', e1, h1⟩ := write_ok h (v := v) e (hal e)
      exact Or.inl ⟨s', fl, e1, h1⟩
    · exact Or.inl ⟨_, fl, if_neg e, h⟩
  | go c =>
    change Good (advance s t c (s.pc t))
    have hcalm : (match s.pc t with
      | .fCas i x => c = 0 ∧ s.head = x → ∀ u nxt, s.pc u ≠ .aCas (.block i) nxt
      | .aLoad => (s.head :: s.older)[c]? ≠ some .null
      | _ => True) := hcalm
    have hp := h.pcs t
    cases hpc : s.pc t with
    | idle => exact Or.inl ⟨s, fl, rfl, h⟩
    | aCheck =>
      change Good (aCheck s t c)
      unfold aCheck
      cases ex : (s.head :: s.older)[c]? with
      | none => exact Or.inl ⟨s, fl, rfl, h⟩
      | some x =>
        by_cases e : x = .null
        · exact Or.inr (by simp only; rw [ccAssert_false (by simp [e]), R.error_bind])
        · refine Or.inl ⟨s.goto t .aLoad, fl, ?_, goto_ok h t .aLoad (by rw [hpc]; rfl) trivial⟩
          simp only
          rw [ccAssert_true (decide_eq_true e), R.ok_bind]
    | aLoad =>
      change Good (aLoad s t c)
      rw [hpc] at hcalm
      unfold aLoad
      cases ex : (s.head :: s.older)[c]? with
      | none => exact Or.inl ⟨s, fl, rfl, h⟩
      | some x =>
        refine Or.inl ⟨s.goto t (.aRead x), fl, rfl, goto_ok h t _ (by rw [hpc]; rfl) ?_⟩
        rcases getElem?_heads h ex with e | e
        · subst e; exact absurd ex hcalm
        · exact e
    | aRead x =>
      change Good (aRead s t x)
      rw [hpc] at hp
      obtain ⟨i, hi, rfl⟩ := hp
      unfold aRead
      simp only [if_pos hi]
      exact Or.inl ⟨_, fl, rfl, goto_ok h t _ (by rw [hpc]; rfl) ⟨i, hi, rfl, fun _ => rfl⟩⟩
    | aCas x nxt =>
      change Good (aCas s t x nxt c)
      obtain ⟨s', fl', e, h'⟩ := aCas_ok h c hpc
      exact Or.inl ⟨s', fl', e, h'⟩
    | fLoad i =>
      change Good (fLoad s t i c)
      unfold fLoad
      cases ex : (s.head :: s.older)[c]? with
      | none => exact Or.inl ⟨s, fl, rfl, h⟩
      | some x => exact Or.inl ⟨s.goto t (.fWrite i x), fl, rfl, goto_ok h t _ (by rw [hpc]; rfl) (getElem?_heads h ex)⟩
    | fWrite i x =>
      change Good (fWrite s t i x)
      obtain ⟨s', e, h'⟩ := fWrite_ok h hpc
      exact Or.inl ⟨s', fl, e, h'⟩
    | fCas i x =>
      change Good (fCas s t i x c)
      rw [hpc] at hcalm
      obtain ⟨s', fl', e, h'⟩ := fCas_ok h c hpc hcalm
      exact Or.inl ⟨s', fl', e, h'⟩

theorem run_ok : ∀ (sched : List (Nat × Act)) {s : State} {fl : List Nat}, Inv s fl → Proper s sched → CalmRun s sched → Good (run s sched)
  | [], s, fl, h, _, _ => Or.inl ⟨s, fl, rfl, h⟩
  | (t, a) :: as, s, fl, h, hp, hc => by
    unfold run
    rcases step_ok h hp.1 hc.1 with ⟨s', fl', e, h'⟩ | e
    · rw [e, R.ok_bind]
      exact run_ok as h' (hp.2 s' e) (hc.2 s' e)
    · rw [e, R.error_bind]
      exact Or.inr rfl

end Verif.APool
