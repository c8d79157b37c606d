import Verif.SStream.Lemmas

/-! C77: `string_stream` collects exactly the characters written to it, copies are independent, and every buffer is given back once. -/
namespace Verif.SStream
open Mem
open Verif.StrView (Chr)

/-- The block of a variable. -/
def dataOf (o : Option SS) : Ptr := o.bind (·.data)

/-- Each variable holds its characters, in a block of its own; there are no other blocks. -/
structure Inv (w : World) (σ : Spec.St) : Prop where
  good : ∀ i, match w.vars i, σ i with
    | none, none => True
    | some s, some l => Good w.heap s l
    | _, _ => False
  dist : ∀ i j b, i ≠ j → dataOf (w.vars i) = some b → dataOf (w.vars j) ≠ some b
  owned : ∀ b, w.heap.blocks b ≠ none → ∃ i, dataOf (w.vars i) = some b
  bound : Bound w.heap

theorem Inv.get {w : World} {σ : Spec.St} (I : Inv w σ) {i : Nat} {l : List Chr} (h : σ i = some l) :
    ∃ s, w.vars i = some s ∧ w.get i = .ok s ∧ Good w.heap s l := by
  have := I.good i
  rw [h] at this
  unfold World.get
  cases e : w.vars i with
  | none => rw [e] at this; exact this.elim
  | some s => rw [e] at this; exact ⟨s, rfl, rfl, this⟩

theorem Inv.dead {w : World} {σ : Spec.St} (I : Inv w σ) {i : Nat} (h : σ i = none) : w.vars i = none := by
  have := I.good i
  rw [h] at this
  cases e : w.vars i with
  | none => rfl
  | some s => rw [e] at this; exact this.elim

theorem Inv.has {w : World} {σ : Spec.St} (I : Inv w σ) (i : Nat) : Has w.heap (dataOf (w.vars i)) := by
  intro b e
  have := I.good i
  cases ev : w.vars i with
  | none => rw [ev] at e; cases e
  | some s =>
    cases es : σ i with
    | none => rw [ev, es] at this; exact this.elim
    | some l => rw [ev, es] at this; rw [ev] at e; exact this.has b e

theorem good_keep {h h' : Heap Chr} {p q : Ptr} (c : Ch h h' p q) {s : SS} {l : List Chr} (g : Good h s l) (hd : ∀ b, s.data = some b → p ≠ some b) : Good h' s l := by
  refine ⟨g.curr, g.off, g.hi, g.len, g.none, fun b e => ?_⟩
  obtain ⟨h1, r, h2, h3⟩ := g.some b e
  exact ⟨Nat.lt_of_lt_of_le h1 c.next, r, by rw [c.keep b h1 (hd b e)]; exact h2, h3⟩

/-- Changing one variable. -/
theorem Inv.change {w : World} {σ : Spec.St} (I : Inv w σ) (i : Nat) {h' : Heap Chr} {o : Option SS} {l : Option (List Chr)}
    (hg : match o, l with
      | none, none => True
      | some s, some l => Good h' s l
      | _, _ => False)
    (c : Ch w.heap h' (dataOf (w.vars i)) (dataOf o)) : Inv (w.put h' i o) (σ.put i l) := by
  have old : ∀ j b, j ≠ i → dataOf (w.vars j) = some b → dataOf o ≠ some b := by
    intro j b hj e e'
    rcases c.own b e' with h1 | h1
    · exact I.dist j i b hj e h1
    · have := (I.has j b e).1; omega
  refine ⟨fun j => ?_, fun j k b hjk hj hk => ?_, fun b hb => ?_, c.bound⟩
  · by_cases hj : j = i
    · subst hj
      simp only [World.put, Spec.St.put, if_true]
      exact hg
    · simp only [World.put, Spec.St.put, if_neg hj]
      have g := I.good j
      cases ev : w.vars j with
      | none => cases es : σ j with
        | none => trivial
        | some l => rw [ev, es] at g; exact g.elim
      | some s => cases es : σ j with
        | none => rw [ev, es] at g; exact g.elim
        | some l =>
          rw [ev, es] at g
          refine good_keep c g fun b e => I.dist j i b hj ?_
          rw [ev]; exact e
  · simp only [World.put] at hj hk
    by_cases h1 : j = i
    · have h2 : k ≠ i := fun e => hjk (by rw [h1, e])
      rw [if_pos h1] at hj
      rw [if_neg h2] at hk
      exact old k b h2 hk hj
    · rw [if_neg h1] at hj
      by_cases h2 : k = i
      · rw [if_pos h2] at hk
        exact old j b h1 hj hk
      · rw [if_neg h2] at hk
        exact I.dist j k b hjk hj hk
  · rcases c.only b hb with h1 | ⟨h1, h2⟩
    · exact ⟨i, by simp only [World.put, if_true]; exact h1⟩
    · have hb' : w.heap.blocks b ≠ none := by rw [← c.keep b h1 h2]; exact hb
      obtain ⟨j, hj⟩ := I.owned b hb'
      have hji : j ≠ i := fun e => h2 (by rw [← e]; exact hj)
      exact ⟨j, by simp only [World.put, if_neg hji]; exact hj⟩

/-- Handing the block of `j` over to `i`, which has none. -/
theorem Inv.move {w : World} {σ : Spec.St} (I : Inv w σ) {i j : Nat} (hij : i ≠ j) {r : SS} {l : List Chr} (hj : w.vars j = some r)
    (hl : σ j = some l) (hi : dataOf (w.vars i) = none) : Inv (moveFrom w w.heap i j r) ((σ.put i (some l)).put j (some [])) := by
  have g : Good w.heap r l := by have := I.good j; rw [hj, hl] at this; exact this
  have v : ∀ k, dataOf ((moveFrom w w.heap i j r).vars k) = if k = j then none else if k = i then r.data else dataOf (w.vars k) := by
    intro k
    simp only [moveFrom, World.put]
    by_cases h1 : k = j
    · rw [if_pos h1, if_pos h1]; rfl
    · rw [if_neg h1, if_neg h1]
      by_cases h2 : k = i
      · rw [if_pos h2, if_pos h2]; rfl
      · rw [if_neg h2, if_neg h2]
  have dj : dataOf (w.vars j) = r.data := by rw [hj]; rfl
  refine ⟨fun k => ?_, fun k m b hkm hk hm => ?_, fun b hb => ?_, I.bound⟩
  · simp only [moveFrom, World.put, Spec.St.put]
    by_cases h1 : k = j
    · rw [if_pos h1, if_pos h1]; exact good_new _
    · rw [if_neg h1, if_neg h1]
      by_cases h2 : k = i
      · rw [if_pos h2, if_pos h2]; exact g
      · rw [if_neg h2, if_neg h2]; exact I.good k
  · rw [v] at hk hm
    by_cases h1 : k = j
    · rw [if_pos h1] at hk; cases hk
    · rw [if_neg h1] at hk
      by_cases h2 : m = j
      · rw [if_pos h2] at hm; cases hm
      · rw [if_neg h2] at hm
        by_cases h3 : k = i
        · have h4 : m ≠ i := fun e => hkm (by rw [h3, e])
          rw [if_pos h3, ← dj] at hk
          rw [if_neg h4] at hm
          exact I.dist j m b (fun e => h2 e.symm) hk hm
        · rw [if_neg h3] at hk
          by_cases h4 : m = i
          · rw [if_pos h4, ← dj] at hm
            exact I.dist k j b h1 hk hm
          · rw [if_neg h4] at hm
            exact I.dist k m b hkm hk hm
  · obtain ⟨k, hk⟩ := I.owned b hb
    by_cases h1 : k = j
    · exact ⟨i, by rw [v, if_neg hij, if_pos rfl, ← dj, ← h1]; exact hk⟩
    · have h2 : k ≠ i := by intro e; rw [e, hi] at hk; cases hk
      exact ⟨k, by rw [v, if_neg h1, if_neg h2]; exact hk⟩

theorem init_inv : Inv World.init Spec.St.init :=
  ⟨fun _ => trivial, (fun _ _ _ _ h => by cases h), fun _ h => absurd rfl h, fun _ _ => rfl⟩

theorem put_same (w : World) {i : Nat} {o : Option SS} (h : w.vars i = o) : w.put w.heap i o = w := by
  unfold World.put
  congr 1
  funext j
  by_cases e : j = i
  · rw [if_pos e, e, h]
  · rw [if_neg e]

theorem spec_put_same (σ : Spec.St) {i : Nat} {o : Option (List Chr)} (h : σ i = o) : σ.put i o = σ := by
  funext j
  unfold Spec.St.put
  by_cases e : j = i
  · rw [if_pos e, e, h]
  · rw [if_neg e]

theorem step_ok {junk : Nat → Chr} {w : World} {σ σ' : Spec.St} (I : Inv w σ) {op : Op} {o : Obs} (h : Spec.step σ op = some (σ', o)) :
    ∃ w', step junk w op = .ok (w', o) ∧ Inv w' σ' := by
  cases op with
  | make i =>
    simp only [Spec.step] at h
    split at h
    · rename_i hi
      obtain ⟨rfl, rfl⟩ := Prod.mk.inj (Option.some.inj h)
      refine ⟨_, rfl, I.change i (good_new _) ?_⟩
      rw [I.dead hi]; exact ch_refl I.bound (fun b e => by cases e)
    · cases h
  | copyNew i j =>
    simp only [Spec.step] at h
    split at h
    · rename_i l hi hj
      obtain ⟨rfl, rfl⟩ := Prod.mk.inj (Option.some.inj h)
      obtain ⟨r, v, e, g⟩ := I.get hj
      obtain ⟨h', s', e1, g1, c⟩ := copyCtor_ok I.bound g
      refine ⟨w.put h' i (some s'), by simp only [step]; rw [e, R.ok_bind, e1, R.ok_bind], I.change i g1 ?_⟩
      rw [I.dead hi]; exact c
    · cases h
  | moveNew i j =>
    simp only [Spec.step] at h
    split at h
    · rename_i l hi hj
      obtain ⟨rfl, rfl⟩ := Prod.mk.inj (Option.some.inj h)
      obtain ⟨r, v, e, g⟩ := I.get hj
      have hij : i ≠ j := by intro e; rw [e, hj] at hi; cases hi
      exact ⟨_, by simp only [step]; rw [e, R.ok_bind], I.move hij v hj (by rw [I.dead hi]; rfl)⟩
    · cases h
  | destroy i =>
    simp only [Spec.step] at h
    split at h
    · rename_i l hi
      obtain ⟨rfl, rfl⟩ := Prod.mk.inj (Option.some.inj h)
      obtain ⟨s, v, e, g⟩ := I.get hi
      obtain ⟨h', e1, _, c⟩ := free_ch I.bound g.has
      refine ⟨w.put h' i none, by simp only [step, dtor]; rw [e, R.ok_bind, e1, R.ok_bind], I.change i trivial ?_⟩
      rw [v]; exact c
    · cases h
  | assign i j =>
    simp only [Spec.step] at h
    split at h
    · rename_i k l hi hj
      obtain ⟨rfl, rfl⟩ := Prod.mk.inj (Option.some.inj h)
      obtain ⟨s, v, e, g⟩ := I.get hi
      obtain ⟨r, v', e', g'⟩ := I.get hj
      by_cases hij : i = j
      · refine ⟨w, by simp only [step]; rw [e, R.ok_bind, e', R.ok_bind, if_pos hij], ?_⟩
        rw [spec_put_same σ (by rw [hij]; exact hj)]; exact I
      · obtain ⟨h', s', e1, g1, c⟩ := copyAssign_ok I.bound g g' (fun b e e' => I.dist i j b hij (by rw [v]; exact e) (by rw [v']; exact e'))
        refine ⟨w.put h' i (some s'), by simp only [step]; rw [e, R.ok_bind, e', R.ok_bind, if_neg hij, e1, R.ok_bind], I.change i g1 ?_⟩
        rw [v]; exact c
    · cases h
  | moveAssign i j =>
    simp only [Spec.step] at h
    split at h
    · rename_i k l hi hj
      obtain ⟨rfl, rfl⟩ := Prod.mk.inj (Option.some.inj h)
      obtain ⟨s, v, e, g⟩ := I.get hi
      obtain ⟨r, v', e', g'⟩ := I.get hj
      obtain ⟨h', e1, _, c⟩ := free_ch I.bound g.has
      have I' : Inv (w.put h' i (some SS.new)) (σ.put i (some [])) := I.change i (good_new _) (by rw [v]; exact c)
      refine ⟨moveFrom w h' i j r, by simp only [step]; rw [e, R.ok_bind, e1, R.ok_bind, e', R.ok_bind], ?_⟩
      by_cases hij : i = j
      · subst hij
        have a : moveFrom w h' i i r = w.put h' i (some SS.new) := by
          unfold moveFrom World.put
          congr 1
          funext x
          by_cases hx : x = i
          · rw [if_pos hx, if_pos hx]
          · simp only [if_neg hx]
        have b : (σ.put i (some l)).put i (some []) = σ.put i (some []) := by
          funext x
          unfold Spec.St.put
          by_cases hx : x = i
          · rw [if_pos hx, if_pos hx]
          · simp only [if_neg hx]
        rw [a, b]; exact I'
      · have hji : j ≠ i := fun e => hij e.symm
        have m := I'.move (i := i) (j := j) hij (r := r) (l := l) (by simp only [World.put, if_neg hji]; exact v') (by simp only [Spec.St.put, if_neg hji]; exact hj)
          (by simp only [World.put, if_true]; rfl)
        have a : moveFrom (w.put h' i (some SS.new)) h' i j r = moveFrom w h' i j r := by
          unfold moveFrom World.put
          congr 1
          funext x
          by_cases hx : x = j
          · rw [if_pos hx, if_pos hx]
          · rw [if_neg hx, if_neg hx]
            by_cases hx : x = i
            · simp only [if_pos hx]
            · simp only [if_neg hx]
        have b : ((σ.put i (some [])).put i (some l)).put j (some []) = (σ.put i (some l)).put j (some []) := by
          funext x
          unfold Spec.St.put
          by_cases hx : x = j
          · rw [if_pos hx, if_pos hx]
          · rw [if_neg hx, if_neg hx]
            by_cases hx : x = i
            · rw [if_pos hx, if_pos hx]
            · simp only [if_neg hx]
        rw [← a, ← b]
        exact m
    · cases h
  | append i sv =>
    simp only [Spec.step] at h
    split at h
    · rename_i l hi
      split at h
      · rename_i hf
        obtain ⟨rfl, rfl⟩ := Prod.mk.inj (Option.some.inj h)
        obtain ⟨s, v, e, g⟩ := I.get hi
        obtain ⟨h', s', e1, g1, c, _⟩ := append_ok I.bound g (m := sv) hf
        refine ⟨w.put h' i (some s'), by simp only [step]; rw [e, R.ok_bind, e1, R.ok_bind], I.change i g1 ?_⟩
        rw [v]; exact c
      · cases h
    · cases h
  | appendChar i x =>
    simp only [Spec.step] at h
    split at h
    · rename_i l hi
      split at h
      · rename_i hf
        obtain ⟨rfl, rfl⟩ := Prod.mk.inj (Option.some.inj h)
        obtain ⟨s, v, e, g⟩ := I.get hi
        obtain ⟨h', s', e1, g1, c, _⟩ := appendChar_ok I.bound g (c := x) hf
        refine ⟨w.put h' i (some s'), by simp only [step]; rw [e, R.ok_bind, e1, R.ok_bind], I.change i g1 ?_⟩
        rw [v]; exact c
      · cases h
    · cases h
  | reserve i n =>
    simp only [Spec.step] at h
    split at h
    · rename_i l hi
      split at h
      · rename_i hf
        obtain ⟨rfl, rfl⟩ := Prod.mk.inj (Option.some.inj h)
        obtain ⟨s, v, e, g⟩ := I.get hi
        obtain ⟨h', s', e1, g1, c, _⟩ := reserve_ok I.bound g (n := n) hf
        refine ⟨w.put h' i (some s'), by simp only [step]; rw [e, R.ok_bind, e1, R.ok_bind], ?_⟩
        rw [← spec_put_same σ hi]
        exact I.change i g1 (by rw [v]; exact c)
      · cases h
    · cases h
  | clear i =>
    simp only [Spec.step] at h
    split at h
    · rename_i l hi
      obtain ⟨rfl, rfl⟩ := Prod.mk.inj (Option.some.inj h)
      obtain ⟨s, v, e, g⟩ := I.get hi
      refine ⟨w.put w.heap i (some (clear s)), by simp only [step]; rw [e, R.ok_bind], I.change i ?_ (by rw [v]; exact ch_refl I.bound g.has)⟩
      refine ⟨rfl, rfl, g.hi, by decide, fun e => ⟨rfl, (g.none e).2⟩, fun b e => ?_⟩
      obtain ⟨a1, t, a2, a3⟩ := g.some b e
      exact ⟨a1, l.map .live ++ t, by simpa using a2, by simpa [clear] using a3⟩
    · cases h
  | size i =>
    simp only [Spec.step] at h
    split at h
    · rename_i l hi
      obtain ⟨rfl, rfl⟩ := Prod.mk.inj (Option.some.inj h)
      obtain ⟨s, v, e, g⟩ := I.get hi
      exact ⟨w, by simp only [step]; rw [e, R.ok_bind, g.size, R.ok_bind], I⟩
    · cases h
  | empty i =>
    simp only [Spec.step] at h
    split at h
    · rename_i l hi
      obtain ⟨rfl, rfl⟩ := Prod.mk.inj (Option.some.inj h)
      obtain ⟨s, v, e, g⟩ := I.get hi
      exact ⟨w, by simp only [step]; rw [e, R.ok_bind, g.empty], I⟩
    · cases h
  | toString i =>
    simp only [Spec.step] at h
    split at h
    · rename_i l hi
      obtain ⟨rfl, rfl⟩ := Prod.mk.inj (Option.some.inj h)
      obtain ⟨s, v, e, g⟩ := I.get hi
      obtain ⟨r, e1, g1⟩ := toString_ok g junk
      refine ⟨w, ?_, I⟩
      simp only [step]
      rw [e, R.ok_bind, e1, R.ok_bind, Str.cstr_ok g1, R.ok_bind, g1.size]
      have : r.destroy.bal = 0 := by
        unfold Str.Str.destroy
        rw [Str.release_bal, g1.bal]; omega
      rw [this]
    · cases h

theorem run_ok {junk : Nat → Chr} (ops : List Op) : ∀ {w : World} {σ σ' : Spec.St} {os : List Obs}, Inv w σ → Spec.run σ ops = some (σ', os) →
    ∃ w', run junk w ops = .ok (w', os) ∧ Inv w' σ' := by
  induction ops with
  | nil =>
    intro w σ σ' os I h
    obtain ⟨rfl, rfl⟩ := Prod.mk.inj (Option.some.inj h)
    exact ⟨w, rfl, I⟩
  | cons op ops ih =>
    intro w σ σ' os I h
    simp only [Spec.run, bind, Option.bind] at h
    split at h
    · cases h
    · rename_i x hx
      obtain ⟨σ1, o⟩ := x
      simp only at h
      split at h
      · cases h
      · rename_i y hy
        obtain ⟨σ2, os2⟩ := y
        obtain ⟨rfl, rfl⟩ := Prod.mk.inj (Option.some.inj h)
        obtain ⟨w1, e1, I1⟩ := step_ok (junk := junk) I hx
        obtain ⟨w2, e2, I2⟩ := ih I1 hy
        exact ⟨w2, by unfold run; rw [e1, R.ok_bind]; dsimp only; rw [e2, R.ok_bind], I2⟩

/-- C77: in every history that keeps to the rules, nothing is undefined and no assertion fails; `size`, `empty` and `to_string` return what a list of the characters
written would give, whatever was copied, moved (also to itself), assigned, reserved or cleared before; the string from `to_string` ends with a zero and owns
what it holds. When all streams are gone, all buffers have been given back. -/
theorem C77_stream (junk : Nat → Chr) (ops : List Op) (σ : Spec.St) (os : List Obs) (h : Spec.run .init ops = some (σ, os)) :
    ∃ w, run junk .init ops = .ok (w, os) ∧ ((∀ i, σ i = none) → ∀ b, w.heap.blocks b = none) := by
  obtain ⟨w, e, I⟩ := run_ok (junk := junk) ops init_inv h
  refine ⟨w, e, fun hd b => ?_⟩
  cases hb : w.heap.blocks b with
  | none => rfl
  | some s =>
    obtain ⟨i, hi⟩ := I.owned b (by rw [hb]; simp)
    rw [I.dead (hd i)] at hi
    cases hi

/-- The characters of a text. -/
def txt (s : String) : List Chr := s.toList.map fun c => BitVec.ofNat 8 c.toNat

/-- A history with growth past the small buffer of the string, copies, moves and a move to itself. -/
def sample : List Op :=
  [.make 0, .append 0 (txt "hello"), .appendChar 0 32#8, .copyNew 1 0, .append 0 (txt "wonderful world"), .append 0 [], .toString 0, .toString 1,
   .assign 1 0, .reserve 1 100, .clear 0, .appendChar 0 33#8, .toString 1, .toString 0, .moveNew 2 1, .size 1, .moveAssign 0 2, .toString 0, .empty 2,
   .assign 0 0, .size 0, .moveAssign 0 0, .toString 0, .appendChar 0 33#8, .toString 0, .destroy 0, .destroy 1, .destroy 2]

example : (Spec.run .init sample).map (fun r => r.2.filter (· ≠ .none)) =
    some [.str 21 (txt "hello wonderful world" ++ [0]) 0, .str 6 (txt "hello " ++ [0]) 0, .str 21 (txt "hello wonderful world" ++ [0]) 0, .str 1 (txt "!" ++ [0]) 0,
      .size 0, .str 21 (txt "hello wonderful world" ++ [0]) 0, .bool true, .size 21, .str 0 [0] 0, .str 1 (txt "!" ++ [0]) 0] := by decide +kernel

/-- C77: `reserve(n)` keeps the buffer in place for the next `n` characters, however they are written. -/
theorem C77_reserve {junk : Nat → Chr} {ops : List Op} {w : World} {σ : Spec.St} {os : List Obs} (h : Spec.run .init ops = some (σ, os))
    (hw : run junk .init ops = .ok (w, os)) {i n : Nat} {l : List Chr} (hi : σ i = some l) (hn : Spec.Fits (l.length + n)) (parts : List (List Chr))
    (hp : (parts.map List.length).sum ≤ n) : ∃ w1 s1 w2 s2, step junk w (.reserve i n) = .ok (w1, .none) ∧ w1.vars i = some s1 ∧
      run junk w1 (parts.map (Op.append i)) = .ok (w2, parts.map fun _ => .none) ∧ w2.vars i = some s2 ∧ s2.data = s1.data ∧ s2.off = s1.off + (parts.map List.length).sum := by
  obtain ⟨w', e, I⟩ := run_ok (junk := junk) ops init_inv h
  obtain rfl : w' = w := (Prod.mk.inj (Except.ok.inj (e.symm.trans hw))).1
  obtain ⟨s, v, eg, g⟩ := I.get hi
  obtain ⟨h1, s1, e1, g1, c1, hc, _⟩ := reserve_ok I.bound g (n := n) hn
  refine ⟨w'.put h1 i (some s1), s1, ?_⟩
  have e1' : step junk w' (.reserve i n) = .ok (w'.put h1 i (some s1), .none) := by simp only [step]; rw [eg, R.ok_bind, e1, R.ok_bind]
  have v1 : (w'.put h1 i (some s1)).vars i = some s1 := by simp [World.put]
  suffices H : ∀ (parts : List (List Chr)) (w : World) (s : SS) (l : List Chr), w.vars i = some s → Good w.heap s l → Bound w.heap →
      l.length + (parts.map List.length).sum ≤ s.cap → l.length + (parts.map List.length).sum < 2 ^ 61 →
      ∃ w2 s2, run junk w (parts.map (Op.append i)) = .ok (w2, parts.map fun _ => .none) ∧ w2.vars i = some s2 ∧ s2.data = s.data ∧ s2.off = s.off + (parts.map List.length).sum by
    obtain ⟨w2, s2, a, b, c, d⟩ := H parts (w'.put h1 i (some s1)) s1 l v1 g1 c1.bound (by omega) (by have : l.length + n < 2 ^ 61 := hn; omega)
    exact ⟨w2, s2, e1', v1, a, b, c, d⟩
  intro parts
  induction parts with
  | nil => intro w s l v g hb _ _; exact ⟨w, s, rfl, v, rfl, rfl⟩
  | cons p ps ih =>
    intro w s l v g hb h1 h2
    simp only [List.map_cons, List.sum_cons] at h1 h2
    obtain ⟨h', s', e, g', c, k⟩ := append_ok hb g (m := p) (by omega)
    obtain ⟨k1, k2⟩ := k (by omega)
    obtain ⟨w2, s2, a, b, c', d⟩ := ih (w.put h' i (some s')) s' (l ++ p) (by simp [World.put]) g' c.bound (by rw [k2]; simp; omega) (by simp; omega)
    have eg : w.get i = .ok s := by unfold World.get; rw [v]
    refine ⟨w2, s2, ?_, b, c'.trans k1, ?_⟩
    · show (do
        let (w, o) ← step junk w (.append i p)
        let (w, os) ← run junk w (ps.map (Op.append i))
        .ok (w, o :: os) : R (World × List Obs)) = _
      simp only [step]
      rw [eg, R.ok_bind, e, R.ok_bind]
      dsimp only
      rw [R.ok_bind, a, R.ok_bind]
      rfl
    · rw [d, g'.off, g.off]; simp; omega

example : ((run (fun _ => 7#8) .init [.make 0, .append 0 (txt "ab"), .reserve 0 40]).map fun r => (r.1.vars 0).map fun s => (s.data, s.off, s.cap)) = .ok (some (some 1, 2, 42)) ∧
    ((run (fun _ => 7#8) .init [.make 0, .append 0 (txt "ab"), .reserve 0 40, .append 0 (txt "cdefghijklmnopqrstuvwxyz"), .append 0 (txt "0123456789abcd")]).map fun r => (r.1.vars 0).map fun s => (s.data, s.off, s.cap))
      = .ok (some (some 1, 40, 42)) := by decide +kernel

end Verif.SStream
