import Verif.Mem.Lemmas

/-!
Ownership of blocks: variables of a program hold things (`S`) that own at most one block each. Used by the proofs for several components.
-/
namespace Verif.Mem
variable {α S L : Type}

namespace Own

/-- Nothing beyond the allocated blocks. -/
def Bound (h : Heap α) : Prop := ∀ x, h.next ≤ x → h.blocks x = none

/-- The block exists. -/
def Has (h : Heap α) (p : Ptr) : Prop := ∀ b, p = some b → b < h.next ∧ ∃ s, h.blocks b = some s

theorem has_none (h : Heap α) : Has h none := fun _ e => by cases e

/-- The heap changes from `h` to `h'` by exchanging the block `p` for the block `q`. -/
structure Ch (h h' : Heap α) (p q : Ptr) : Prop where
  next : h.next ≤ h'.next
  keep : ∀ x, x < h.next → p ≠ some x → h'.blocks x = h.blocks x
  own : ∀ b, q = some b → p = some b ∨ h.next ≤ b
  only : ∀ x, h'.blocks x ≠ none → q = some x ∨ (x < h.next ∧ p ≠ some x)
  bound : ∀ x, h'.next ≤ x → h'.blocks x = none

theorem bound_lt {h : Heap α} (hb : Bound h) {x : Nat} (hx : h.blocks x ≠ none) : x < h.next := by
  rcases Nat.lt_or_ge x h.next with h1 | h1
  · exact h1
  · exact absurd (hb x h1) hx

theorem ch_refl {h : Heap α} (hb : Bound h) {p : Ptr} : Ch h h p p := by
  refine ⟨Nat.le_refl _, fun _ _ _ => rfl, fun b e => Or.inl e, fun x hx => ?_, hb⟩
  by_cases e : p = some x
  · exact Or.inl e
  · exact Or.inr ⟨bound_lt hb hx, e⟩

theorem ch_set {h : Heap α} (hb : Bound h) {b : Nat} (hp : b < h.next) (s : List (Slot α)) : Ch h (h.set b s) (some b) (some b) := by
  refine ⟨Nat.le_refl _, fun x _ hx => Heap.set_blocks_ne _ _ (fun e => hx (by rw [e])), fun b e => Or.inl e, fun x hx => ?_, fun x hx => ?_⟩
  · by_cases e : x = b
    · exact Or.inl (by rw [e])
    · rw [Heap.set_blocks_ne _ _ e] at hx
      exact Or.inr ⟨bound_lt hb hx, fun e' => e (Option.some.inj e').symm⟩
  · have hx' : h.next ≤ x := hx
    rw [Heap.set_blocks_ne _ _ (by omega)]; exact hb x hx'

theorem ch_trans {h h' h'' : Heap α} {p q r : Ptr} (a : Ch h h' p q) (b : Ch h' h'' q r) : Ch h h'' p r := by
  refine ⟨Nat.le_trans a.next b.next, fun x hx hpx => ?_, fun c e => ?_, fun x hx => ?_, b.bound⟩
  · have hq : q ≠ some x := by
      intro e
      rcases a.own x e with h1 | h1
      · exact hpx h1
      · omega
    rw [b.keep x (Nat.lt_of_lt_of_le hx a.next) hq, a.keep x hx hpx]
  · rcases b.own c e with h1 | h1
    · exact a.own c h1
    · exact Or.inr (Nat.le_trans a.next h1)
  · rcases b.only x hx with h1 | ⟨h1, h2⟩
    · exact Or.inl h1
    · rw [b.keep x h1 h2] at hx
      rcases a.only x hx with h3 | h3
      · exact absurd h3 h2
      · exact Or.inr h3

theorem ch_fresh {h : Heap α} (hb : Bound h) {p : Ptr} (hp : Has h p) (s : List (Slot α)) : Ch h (fresh h p s) p (some h.next) := by
  refine ⟨by simp, fun x hx hpx => fresh_blocks_old h s (by omega) hpx, fun b e => Or.inr (Nat.le_of_eq (Option.some.inj e)), fun x hx => ?_, fun x hx => ?_⟩
  · by_cases e : x = h.next
    · exact Or.inl (by rw [e])
    · refine Or.inr ?_
      by_cases e' : p = some x
      · subst e'; rw [fresh_blocks_freed h s e] at hx; exact absurd rfl hx
      · rw [fresh_blocks_old h s e e'] at hx
        exact ⟨bound_lt hb hx, e'⟩
  · rw [fresh_next] at hx
    have : p ≠ some x := by
      intro e
      have := (hp x e).1
      omega
    rw [fresh_blocks_old h s (by omega) this]
    exact hb x (by omega)

theorem ch_unset {h : Heap α} (hb : Bound h) (b : Nat) : Ch h (h.unset b) (some b) none := by
  refine ⟨Nat.le_refl _, fun x _ hx => Heap.unset_blocks_ne _ (fun e => hx (by rw [e])), (fun b e => by cases e), fun x hx => ?_, fun x hx => ?_⟩
  · by_cases e : x = b
    · subst e; rw [Heap.unset_blocks_self] at hx; exact absurd rfl hx
    · rw [Heap.unset_blocks_ne _ e] at hx
      exact Or.inr ⟨bound_lt hb hx, fun e' => e (Option.some.inj e').symm⟩
  · by_cases e : x = b
    · subst e; exact Heap.unset_blocks_self _ _
    · rw [Heap.unset_blocks_ne _ e]; exact hb x hx

/-! ### variables -/

/-- The block of a variable. -/
def ptrOf (ptr : S → Ptr) (o : Option S) : Ptr := o.bind ptr

/-- Store something in a variable. -/
def upd {X : Type} (v : Nat → Option X) (i : Nat) (x : Option X) : Nat → Option X := fun j => if j = i then x else v j

/-- A thing and what it stands for, if alive. -/
def Both (Good : Heap α → S → L → Prop) (h : Heap α) : Option S → Option L → Prop
  | none, none => True
  | some s, some l => Good h s l
  | _, _ => False

/-- Whether `Good` only depends on the own block, and needs it. -/
structure Local (ptr : S → Ptr) (Good : Heap α → S → L → Prop) : Prop where
  keep : ∀ {h h' s l}, Good h s l → (∀ b, ptr s = some b → h'.blocks b = h.blocks b) → h.next ≤ h'.next → Good h' s l
  has : ∀ {h s l}, Good h s l → Has h (ptr s)

/-- Each variable stands for its value, in a block of its own; there are no other blocks. -/
structure Inv (ptr : S → Ptr) (Good : Heap α → S → L → Prop) (h : Heap α) (v : Nat → Option S) (σ : Nat → Option L) : Prop where
  good : ∀ i, Both Good h (v i) (σ i)
  dist : ∀ i j b, i ≠ j → ptrOf ptr (v i) = some b → ptrOf ptr (v j) ≠ some b
  owned : ∀ b, h.blocks b ≠ none → ∃ i, ptrOf ptr (v i) = some b
  bound : Bound h

variable {ptr : S → Ptr} {Good : Heap α → S → L → Prop} {h h' : Heap α} {v : Nat → Option S} {σ : Nat → Option L}

theorem Inv.get (I : Inv ptr Good h v σ) {i : Nat} {l : L} (e : σ i = some l) : ∃ s, v i = some s ∧ Good h s l := by
  have := I.good i
  rw [e] at this
  cases ev : v i with
  | none => rw [ev] at this; exact this.elim
  | some s => rw [ev] at this; exact ⟨s, rfl, this⟩

theorem Inv.dead (I : Inv ptr Good h v σ) {i : Nat} (e : σ i = none) : v i = none := by
  have := I.good i
  rw [e] at this
  cases ev : v i with
  | none => rfl
  | some s => rw [ev] at this; exact this.elim

theorem Inv.has (I : Inv ptr Good h v σ) (hl : Local ptr Good) (i : Nat) : Has h (ptrOf ptr (v i)) := by
  intro b e
  have := I.good i
  cases ev : v i with
  | none => rw [ev] at e; cases e
  | some s =>
    cases es : σ i with
    | none => rw [ev, es] at this; exact this.elim
    | some l => rw [ev, es] at this; rw [ev] at e; exact hl.has this b e

theorem Inv.init {h : Heap α} (hb : ∀ x, h.blocks x = none) : Inv ptr Good h (fun _ => none) (fun _ => none) :=
  ⟨fun _ => trivial, (fun _ _ _ _ e => by cases e), fun b e => absurd (hb b) e, fun x _ => hb x⟩

/-- Nobody is left: no blocks are left. -/
theorem Inv.empty (I : Inv ptr Good h v σ) (hd : ∀ i, σ i = none) (b : Nat) : h.blocks b = none := by
  cases hb : h.blocks b with
  | none => rfl
  | some s =>
    obtain ⟨i, hi⟩ := I.owned b (by rw [hb]; simp)
    rw [I.dead (hd i)] at hi
    cases hi

/-- Changing one variable. -/
theorem Inv.change (I : Inv ptr Good h v σ) (hl : Local ptr Good) (i : Nat) {o : Option S} {l : Option L} (hg : Both Good h' o l)
    (c : Ch h h' (ptrOf ptr (v i)) (ptrOf ptr o)) : Inv ptr Good h' (upd v i o) (upd σ i l) := by
  have old : ∀ j b, j ≠ i → ptrOf ptr (v j) = some b → ptrOf ptr o ≠ some b := by
    intro j b hj e e'
    rcases c.own b e' with h1 | h1
    · exact I.dist j i b hj e h1
    · have := (I.has hl j b e).1; omega
  refine ⟨fun j => ?_, fun j k b hjk hj hk => ?_, fun b hb => ?_, c.bound⟩
  · by_cases hj : j = i
    · subst hj
      simp only [upd, if_true]
      exact hg
    · simp only [upd, if_neg hj]
      have g := I.good j
      cases ev : v j with
      | none => cases es : σ j with
        | none => trivial
        | some l => rw [ev, es] at g; exact g.elim
      | some s => cases es : σ j with
        | none => rw [ev, es] at g; exact g.elim
        | some l =>
          rw [ev, es] at g
          refine hl.keep (show Good h s l from g) (fun b e => c.keep b (hl.has (show Good h s l from g) b e).1 (I.dist j i b hj ?_)) c.next
          rw [ev]; exact e
  · simp only [upd] at hj hk
    by_cases h1 : j = i
    · have h2 : k ≠ i := fun e => hjk (by rw [h1, e])
      rw [if_pos h1] at hj
      rw [if_neg h2] at hk
      exact old k b h2 hk hj
    · rw [if_neg h1] at hj
      by_cases h2 : k = i
      · rw [if_pos h2] at hk
        exact old j b h1 hj hk
      · rw [if_neg h2] at hk
        exact I.dist j k b hjk hj hk
  · rcases c.only b hb with h1 | ⟨h1, h2⟩
    · exact ⟨i, by simp only [upd, if_true]; exact h1⟩
    · have hb' : h.blocks b ≠ none := by rw [← c.keep b h1 h2]; exact hb
      obtain ⟨j, hj⟩ := I.owned b hb'
      have hji : j ≠ i := fun e => h2 (by rw [← e]; exact hj)
      exact ⟨j, by simp only [upd, if_neg hji]; exact hj⟩

/-- Handing the block of `j` over to `i`, which has none. -/
theorem Inv.move (I : Inv ptr Good h v σ) {i j : Nat} (hij : i ≠ j) {r r' e : S} {l l' m : L} (hj : v j = some r)
    (hi : ptrOf ptr (v i) = none) (hr : ptr r' = ptr r) (g : Good h r' l') (he : ptr e = none) (ge : Good h e m) :
    Inv ptr Good h (upd (upd v i (some r')) j (some e)) (upd (upd σ i (some l')) j (some m)) := by
  have w : ∀ k, ptrOf ptr (upd (upd v i (some r')) j (some e) k) = if k = j then none else if k = i then ptr r else ptrOf ptr (v k) := by
    intro k
    simp only [upd]
    by_cases h1 : k = j
    · rw [if_pos h1, if_pos h1]; exact he
    · rw [if_neg h1, if_neg h1]
      by_cases h2 : k = i
      · rw [if_pos h2, if_pos h2]; exact hr
      · rw [if_neg h2, if_neg h2]
  have dj : ptrOf ptr (v j) = ptr r := by rw [hj]; rfl
  refine ⟨fun k => ?_, fun k m b hkm hk hm => ?_, fun b hb => ?_, I.bound⟩
  · simp only [upd]
    by_cases h1 : k = j
    · rw [if_pos h1, if_pos h1]; exact ge
    · rw [if_neg h1, if_neg h1]
      by_cases h2 : k = i
      · rw [if_pos h2, if_pos h2]; exact g
      · rw [if_neg h2, if_neg h2]; exact I.good k
  · rw [w] at hk hm
    by_cases h1 : k = j
    · rw [if_pos h1] at hk; cases hk
    · rw [if_neg h1] at hk
      by_cases h2 : m = j
      · rw [if_pos h2] at hm; cases hm
      · rw [if_neg h2] at hm
        by_cases h3 : k = i
        · have h4 : m ≠ i := fun e => hkm (by rw [h3, e])
          rw [if_pos h3, ← dj] at hk
          rw [if_neg h4] at hm
          exact I.dist j m b (fun e => h2 e.symm) hk hm
        · rw [if_neg h3] at hk
          by_cases h4 : m = i
          · rw [if_pos h4, ← dj] at hm
            exact I.dist k j b h1 hk hm
          · rw [if_neg h4] at hm
            exact I.dist k m b hkm hk hm
  · obtain ⟨k, hk⟩ := I.owned b hb
    by_cases h1 : k = j
    · exact ⟨i, by rw [w, if_neg hij, if_pos rfl, ← dj, ← h1]; exact hk⟩
    · have h2 : k ≠ i := by intro e; rw [e, hi] at hk; cases hk
      exact ⟨k, by rw [w, if_neg h1, if_neg h2]; exact hk⟩

theorem upd_same {X : Type} (v : Nat → Option X) {i : Nat} {o : Option X} (h : v i = o) : upd v i o = v := by
  funext j
  unfold upd
  by_cases e : j = i
  · rw [if_pos e, e, h]
  · rw [if_neg e]

theorem upd_self {X : Type} (v : Nat → Option X) (i : Nat) (o : Option X) : upd v i o i = o := by simp [upd]

theorem upd_ne {X : Type} (v : Nat → Option X) {i j : Nat} (o : Option X) (h : j ≠ i) : upd v i o j = v j := by simp [upd, h]

theorem upd_upd {X : Type} (v : Nat → Option X) (i : Nat) (o o' : Option X) : upd (upd v i o) i o' = upd v i o' := by
  funext j
  unfold upd
  by_cases e : j = i
  · rw [if_pos e, if_pos e]
  · simp only [if_neg e]

end Own
end Verif.Mem
