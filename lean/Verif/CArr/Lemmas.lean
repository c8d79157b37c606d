import Verif.Capped.Lemmas
import Verif.CArr.Spec

/-! Lemmas about the operations of `capped_array`, on top of those about the loops shared with `capped_vector`. -/
namespace Verif.CArr
open Verif.Mem
open Verif.Capped (CV World construct copyLoop moveLoop copyAssignLoop moveAssignLoop selfMoveLoop destroyDown destroyExtra fillLoop Arg
  Rel RelB)

variable {α : Type}

theorem lt_sizeBits {N : Nat} (hN : N < 2 ^ 64) (al : Nat) : N < 2 ^ sizeBits N al := by
  unfold sizeBits
  split
  · rename_i h; exact h.1
  · split
    · rename_i h; exact h.1
    · split
      · rename_i h; exact h.1
      · exact hN

theorem cast_of_le {t : Ty} (hN : t.N < 2 ^ 64) {n : Nat} (hn : n ≤ t.N) : t.cast n = n :=
  Nat.mod_eq_of_lt (Nat.lt_of_le_of_lt hn (lt_sizeBits hN t.al))

section
variable {t : Ty} {strict : Prop} {v w : CV α} {l m : List α}

theorem fill_ok (t : Ty) (strict : Prop) {n : Nat} (hn : n ≤ t.N) (a : α) {b : Buf α} (hb : RelB t.triv strict t.N b []) :
    ∃ b' k, fillLoop t.triv (.val a) b 0 n = .ok (b', k) ∧ (strict → k = 0) ∧ RelB t.triv strict t.N b' (List.replicate n a) := by
  have := Capped.fillLoop_ok (triv := t.triv) (strict := strict) (N := t.N) (arg := .val a) (a := a) n hb rfl (by simpa using hn)
  simpa using this

theorem sized_ok (t : Ty) (strict : Prop) (hN : t.N < 2 ^ 64) {n : Nat} (hn : n ≤ t.N) (d : α) :
    ∃ v k, sized t n d = .ok (v, k) ∧ (strict → k = 0) ∧ Rel t.triv strict t.N v (List.replicate n d) := by
  unfold sized
  dsimp only
  rw [cast_of_le hN hn, ccAssert_true (by simpa using hn)]
  obtain ⟨b, k, e, hk, h⟩ := fill_ok t strict hn d (RelB.nil t.triv strict t.N)
  simp only [R.ok_bind]
  rw [e]
  exact ⟨_, k, rfl, hk, by simp, h⟩

theorem filled_ok (t : Ty) (strict : Prop) (hN : t.N < 2 ^ 64) {n : Nat} (hn : n ≤ t.N) (d : α) :
    ∃ v k, filled t n d = .ok (v, k) ∧ (strict → k = 0) ∧ Rel t.triv strict t.N v (List.replicate n d) := by
  unfold filled
  dsimp only
  rw [cast_of_le hN hn, ccAssert_true (by simpa using hn)]
  obtain ⟨b, k, e, hk, h⟩ := fill_ok t strict hn d (RelB.nil t.triv strict t.N)
  simp only [R.ok_bind, if_true]
  rw [e]
  exact ⟨_, k, rfl, hk, by simp, h⟩

theorem ofList_ok (t : Ty) (strict : Prop) (hN : t.N < 2 ^ 64) {as : List α} (hl : as.length ≤ t.N) :
    ∃ v k, ofList t as = .ok (v, k) ∧ (strict → k = 0) ∧ Rel t.triv strict t.N v as := by
  have h := Capped.rangeCtor_ok (N := t.N) t.triv strict hl
  unfold Capped.rangeCtor at h
  unfold ofList
  dsimp only
  rw [cast_of_le hN hl]
  exact h

theorem destroyReverse_ok (h : Rel t.triv strict t.N v l) (m : Nat) :
    ∃ b, destroyReverse t.triv v.buf v.size m = .ok b ∧ RelB t.triv strict t.N b (l.take m) := Capped.dropSuperfluous h m

theorem emplace_val_ok (hN : t.N < 2 ^ 64) (h : Rel t.triv strict t.N v l) {n : Nat} (hn : n ≤ t.N) (a : α) :
    ∃ v' k, emplace t v n (.val a) = .ok (v', k) ∧ (strict → k = 0) ∧ Rel t.triv strict t.N v' (List.replicate n a) := by
  unfold emplace
  dsimp only
  rw [ccAssert_true (by simpa using hn), cast_of_le hN hn]
  simp only [R.ok_bind]
  obtain ⟨b, e, hb⟩ := destroyReverse_ok h 0
  rw [e]
  simp only [R.ok_bind]
  obtain ⟨b', k, e', hk, h'⟩ := fill_ok t strict hn a (by simpa using hb)
  rw [e']
  exact ⟨_, k, rfl, hk, by simp, h'⟩

/-- For a trivial type the argument can be an own element: constructing `n` copies from slot `i` on. -/
theorem fillElem_ok {N : Nat} {k : Nat} {a : α} (n : Nat) : ∀ {i : Nat} {b : Buf α}, b.length = N → b[k]? = some (.live a) →
    (∀ j, j < i → b[j]? = some (.live a)) → i + n ≤ N →
    ∃ b', fillLoop true (.elem k) b i n = .ok (b', 0) ∧ b'.length = N ∧ ∀ j, j < i + n → b'[j]? = some (.live a) := by
  induction n with
  | zero => intro i b hl _ hi _; exact ⟨b, rfl, hl, hi⟩
  | succ n ih =>
    intro i b hl hk hi hn
    have hib : i < b.length := by omega
    have hset : ∀ j : Nat, b[j]? = some (.live a) → (b.set i (.live a))[j]? = some (.live a) := by
      intro j hj
      rw [List.getElem?_set]
      split
      · first | rfl | rw [if_pos hib]
      · exact hj
    obtain ⟨b', e, hl', hb'⟩ := ih (i := i + 1) (b := b.set i (.live a)) (by simpa using hl) (hset k hk)
      (by
        intro j hj
        by_cases hji : j = i
        · subst hji; rw [List.getElem?_set, if_pos rfl, if_pos hib]
        · exact hset j (hi j (by omega)))
      (by omega)
    refine ⟨b', ?_, hl', fun j hj => hb' j (by omega)⟩
    have hs := Buf.slot_ok (List.getElem?_eq_getElem hib)
    simp only [Capped.fillLoop, Capped.evalArg, Buf.read_ok hk, R.ok_bind, Capped.construct, hs, e, Bool.not_true, Bool.false_and,
      Bool.false_eq_true, if_false]

theorem emplace_elem_ok (hN : t.N < 2 ^ 64) (ht : t.triv = true) (h : Rel t.triv strict t.N v l) {n : Nat} (hn : n ≤ t.N) {k : Nat} {a : α}
    (ha : l[k]? = some a) :
    ∃ v', emplace t v n (.elem k) = .ok (v', 0) ∧ Rel t.triv strict t.N v' (List.replicate n a) := by
  have hk : k < l.length := by
    rcases Nat.lt_or_ge k l.length with h1 | h1
    · exact h1
    · rw [List.getElem?_eq_none h1] at ha; simp at ha
  rw [List.getElem?_eq_getElem hk, Option.some.injEq] at ha
  unfold emplace
  dsimp only
  rw [ccAssert_true (by simpa using hn), cast_of_le hN hn]
  simp only [R.ok_bind, destroyReverse, ht, if_true]
  obtain ⟨b', e, hl, hb⟩ := fillElem_ok (N := t.N) (k := k) (a := a) n (i := 0) (b := v.buf) h.buf.len
    (by rw [h.buf.live k hk, ha]) (by intro j hj; omega) (by omega)
  rw [e]
  refine ⟨{ size := n, buf := b' }, rfl, by simp, hl, by simpa using hn, ?_, fun _ _ _ _ _ => Or.inr rfl⟩
  intro j hj
  simp only [List.length_replicate] at hj
  rw [List.getElem_replicate]
  exact hb j (by omega)

/-- For a type with a destructor, an own element is gone when it is read. -/
theorem emplace_own_ub (ht : t.triv = false) (hN : t.N < 2 ^ 64) (h : Rel t.triv True t.N v l) {n : Nat} (hn : n ≤ t.N) (h0 : 0 < n)
    {k : Nat} (hk : k < l.length) : emplace t v n (.elem k) = .error .ub := by
  unfold emplace
  dsimp only
  rw [ccAssert_true (by simpa using hn), cast_of_le hN hn]
  obtain ⟨b, e, hb⟩ := destroyReverse_ok h 0
  rw [e]
  simp only [R.ok_bind]
  have hkb : k < b.length := by rw [hb.len]; have := h.buf.le; omega
  have hraw : b[k]? = some .raw := by
    rcases hb.rest trivial k _ (by simp) (List.getElem?_eq_getElem hkb) with h1 | h1
    · rw [List.getElem?_eq_getElem hkb, h1]
    · rw [ht] at h1; simp at h1
  cases n with
  | zero => omega
  | succ n =>
    simp only [Capped.fillLoop, Capped.evalArg, Buf.read, Buf.slot_ok hraw, R.ok_bind, R.error_bind]

theorem copyCtor_ok (h : Rel t.triv strict t.N v l) :
    ∃ v' k, copyCtor t v = .ok (v', k) ∧ (strict → k = 0) ∧ Rel t.triv strict t.N v' l := by
  have := Capped.copyCtor_ok h
  unfold Capped.copyCtor Capped.cap at this
  rw [h.buf.len] at this
  exact this

theorem moveCtor_ok (h : Rel t.triv strict t.N v l) (hs : strict → t.triv = true) :
    ∃ s v' k, moveCtor t v = .ok (s, v', k) ∧ (strict → k = 0) ∧ Rel t.triv strict t.N v' l ∧ Rel t.triv strict t.N s [] := by
  have := Capped.moveCtor_ok h hs
  unfold Capped.moveCtor Capped.cap at this
  rw [h.buf.len] at this
  exact this

theorem copyAssign_ok (h : Rel t.triv strict t.N v l) (src : Option (CV α)) (hsrc : ∀ s, src = some s → Rel t.triv strict t.N s m)
    (hself : src = none → m = l) :
    ∃ v' k, copyAssign t v src = .ok (v', k) ∧ (strict → k = 0) ∧ Rel t.triv strict t.N v' m := Capped.copyAssign_ok h src hsrc hself

theorem moveAssign_ok (h : Rel t.triv strict t.N v l) (h' : Rel t.triv strict t.N w m) (hs : strict → t.triv = true) :
    ∃ s v' k, moveAssign t v w = .ok (s, v', k) ∧ (strict → k = 0) ∧ Rel t.triv strict t.N v' m ∧ Rel t.triv strict t.N s [] :=
  Capped.moveAssignFrom_ok h h' hs

theorem selfMove_ok (h : Rel t.triv strict t.N v l) (hs : strict → t.triv = true) :
    ∃ v', selfMove t v = .ok v' ∧ Rel t.triv strict t.N v' [] := Capped.selfMoveAssign_ok h hs

theorem dtor_ok (h : Rel t.triv strict t.N v l) : ∃ k, dtor t v = .ok k ∧ (strict → k = 0) := by
  have := Capped.dtor_ok h
  unfold Capped.dtor at this
  unfold dtor destroyReverse
  cases ht : t.triv with
  | true => exact ⟨0, by simp [Buf.leak], fun _ => rfl⟩
  | false => rw [ht] at this; simpa using this

theorem readFrom_ok {N : Nat} {triv : Bool} {b : Buf α} (h : RelB triv strict N b l) (n : Nat) : ∀ i, i + n = l.length →
    readFrom b i n = .ok (l.drop i) := by
  induction n with
  | zero => intro i hi; rw [List.drop_eq_nil_of_le (by omega)]; rfl
  | succ n ih =>
    intro i hi
    have hlt : i < l.length := by omega
    rw [readFrom, h.read hlt]
    simp only [R.ok_bind]
    rw [ih (i + 1) (by omega), List.drop_eq_getElem_cons hlt]
    rfl

end
end Verif.CArr
