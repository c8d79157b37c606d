import Verif.Str.Model
import Verif.Own.Model
import Verif.Vector.Model
import Verif.Sort.SelfProps

/-!
Property C141, more of the library's types: `cc::swap(a, a)` (/repo/src/clean-core/utility.hh:6-20)
is `T tmp = move(a); a = move(a); a = move(tmp);` and the destruction of `tmp`.
-/
namespace Verif.Sort

/-! ### sbo_string -/

/-- `cc::swap(s, s)` of a `cc::sbo_string` (sbo_string.hh:163-179, 211-240): the string and what is
left of the temporary after its destructor. -/
def strSelfSwap (C : Nat) (s : Str.Str) : Str.Str × Str.Str :=
  let (tmp, s) := Str.moveCtor C s
  let s := Str.selfMoveAssign s
  let (s, tmp) := Str.moveAssign s tmp
  (s, tmp.destroy)

theorem leBytes_leVal (l : List StrView.Chr) : Str.leBytes l.length (Str.leVal l) = l := by
  induction l with
  | nil => rfl
  | cons x t ih =>
    have hx : x.toNat < 256 := x.isLt
    have h1 : (x.toNat + 256 * Str.leVal t) / 256 = Str.leVal t := by omega
    have h2 : BitVec.ofNat 8 (x.toNat + 256 * Str.leVal t) = x := by
      apply BitVec.eq_of_toNat_eq
      rw [BitVec.toNat_ofNat]
      omega
    simp only [List.length_cons, Str.leBytes, Str.leVal, h1, h2, ih]

theorem leBytes_length' (n c : Nat) : (Str.leBytes n c).length = n := by
  induction n generalizing c with
  | zero => rfl
  | succ n ih => simp [Str.leBytes, ih]

/-- **C141**: `swap(s, s)` leaves every `cc::string` exactly as it was (text, capacity and number of
blocks), although moving a string onto itself loses its text (C45). -/
theorem C141_string (C : Nat) (s : Str.Str) (hu : 8 ≤ s.un.length) :
    (strSelfSwap C s).1 = s := by
  obtain ⟨d, n, un, bal⟩ := s
  have h8 : (un.take 8).length = 8 := by rw [List.length_take]; simp only at hu; omega
  have hun : Str.leBytes 8 (Str.leVal (un.take 8)) = un.take 8 := by
    have := leBytes_leVal (un.take 8)
    rwa [h8] at this
  cases d with
  | sbo =>
    simp [strSelfSwap, Str.moveCtor, Str.moveInto, Str.selfMoveAssign, Str.moveAssign,
      Str.Str.dropForMove, Str.Str.isShort]
  | heap b =>
    simp [strSelfSwap, Str.moveCtor, Str.moveInto, Str.selfMoveAssign, Str.moveAssign,
      Str.Str.dropForMove, Str.Str.isShort, Str.Str.release, hun, List.take_left' h8, List.drop_left' (leBytes_length' 8 0)]
  | null =>
    simp [strSelfSwap, Str.moveCtor, Str.moveInto, Str.selfMoveAssign, Str.moveAssign,
      Str.Str.dropForMove, Str.Str.isShort, Str.Str.release, hun, List.take_left' h8, List.drop_left' (leBytes_length' 8 0)]

/-! ### unique_ptr and the types like it -/

/-- `cc::swap(p, p)` of a `unique_ptr`, `poly_unique_ptr`, `box` or `unique_function` in variable
`i`; `t` is the temporary, destroyed at the end. -/
def ownSelfSwap (w : Own.World) (i t : Nat) : R Own.World := do
  let w ← Own.uniqueMove w (.var t) (.var i)
  let w ← Own.uniqueMove w (.var i) (.var i)
  let w ← Own.uniqueMove w (.var i) (.var t)
  Own.destroyIf w (.var t)

theorem uniqueMove_null (w : Own.World) (d c : Nat) (q : Option Nat) (hd : w.vars[d]? = some none)
    (hc : w.vars[c]? = some q) :
    Own.uniqueMove w (.var d) (.var c) = .ok { w with vars := (w.vars.set d q).set c none } := by
  have h1 : Own.destroyIf w (.var d) = .ok w := by
    simp only [Own.destroyIf, Own.World.read]
    rw [hd]; rfl
  have h2 : w.read (.var c) = .ok q := by
    simp only [Own.World.read]
    rw [hc]
  have hld := (List.getElem?_eq_some_iff.1 hd).1
  have hlc := (List.getElem?_eq_some_iff.1 hc).1
  unfold Own.uniqueMove
  rw [h1, R.ok_bind, h2, R.ok_bind]
  simp only [Own.World.write, if_pos hld, R.ok_bind, List.length_set, if_pos hlc]

/-- **C141**: `swap(p, p)` of an owning pointer leaves the pointer and all objects as they were; no
destructor runs. -/
theorem C141_unique_ptr (w : Own.World) (i t : Nat) (p : Option Nat) (hi : w.vars[i]? = some p)
    (ht : w.vars[t]? = some none) (hne : i ≠ t) : ownSelfSwap w i t = .ok w := by
  obtain ⟨hli, hvi⟩ := List.getElem?_eq_some_iff.1 hi
  obtain ⟨hlt, hvt⟩ := List.getElem?_eq_some_iff.1 ht
  have hne' : t ≠ i := Ne.symm hne
  have e : (((((w.vars.set t p).set i none).set i none).set i none).set i p).set t none = w.vars := by
    apply List.ext_getElem?
    intro k
    by_cases h1 : t = k
    · subst h1; simp [hlt, hvt]
    · by_cases h2 : i = k
      · subst h2; simp [hli, hvi, h1]
      · simp [h1, h2]
  unfold ownSelfSwap
  rw [uniqueMove_null w t i p ht hi, R.ok_bind,
    uniqueMove_null _ i i none (by simp [hli]) (by simp [hli]), R.ok_bind,
    uniqueMove_null _ i t p (by simp [hli]) (by simp [hlt, hne]), R.ok_bind]
  simp only [e]
  simp only [Own.destroyIf, Own.World.read]
  rw [ht]; rfl

/-! ### vector -/

/-- `cc::swap(v, v)` of the vector in variable `i`; `t` is the temporary (move construction,
vector.hh:72-80, has the effect of move assignment, vector.hh:103-114, to an empty vector). -/
def vecSelfSwap {α : Type} (T : Vector.Ty α) (w : Vector.World α) (i t : Nat) :
    R (Vector.World α) := do
  let w ← Vector.moveAssign T w t i
  let w ← Vector.moveAssign T w i i
  let w ← Vector.moveAssign T w i t
  let h ← Vector.dtor T w.heap (w.vecs t)
  .ok (w.put h t Vector.Vec.empty)

theorem vec_dtor_empty {α : Type} (T : Vector.Ty α) (h : Mem.Heap α) :
    Vector.dtor T h Vector.Vec.empty = .ok h := by
  unfold Vector.dtor Mem.destroyReverse
  cases T.triv <;> rfl

theorem moveAssign_empty {α : Type} (T : Vector.Ty α) (w : Vector.World α) (d c : Nat)
    (hd : w.vecs d = Vector.Vec.empty) :
    Vector.moveAssign T w d c =
      .ok ((w.put w.heap d (w.vecs c)).put w.heap c Vector.Vec.empty) := by
  unfold Vector.moveAssign
  rw [hd, vec_dtor_empty]; rfl

/-- **C141**: `swap(v, v)` of a `cc::vector` leaves the vector, its elements and all memory as they
were; no element is moved or destroyed. -/
theorem C141_vector {α : Type} (T : Vector.Ty α) (w : Vector.World α) (i t : Nat) (hne : i ≠ t)
    (ht : w.vecs t = Vector.Vec.empty) : vecSelfSwap T w i t = .ok w := by
  have hne' : t ≠ i := Ne.symm hne
  unfold vecSelfSwap
  rw [moveAssign_empty T w t i ht, R.ok_bind,
    moveAssign_empty T _ i i (by simp [Vector.World.put]), R.ok_bind,
    moveAssign_empty T _ i t (by simp [Vector.World.put]), R.ok_bind]
  have hd : ∀ (u : Vector.World α) (h : Mem.Heap α),
      (u.put h t Vector.Vec.empty).vecs t = Vector.Vec.empty := by
    intro u h; simp [Vector.World.put]
  rw [hd, vec_dtor_empty, R.ok_bind]
  obtain ⟨h, vecs⟩ := w
  simp only [Vector.World.put, Except.ok.injEq, Vector.World.mk.injEq, true_and]
  funext k
  simp only at ht
  by_cases h1 : k = t
  · subst h1; simp [ht]
  · by_cases h2 : k = i
    · subst h2; simp [hne, hne']
    · simp [h1, h2]

/-- A text on the heap; a short text. -/
example : (strSelfSwap 15 ⟨.heap (List.replicate 30 65#8), 20, List.replicate 16 29#8, 1, 1⟩).1 =
      ⟨.heap (List.replicate 30 65#8), 20, List.replicate 16 29#8, 1, 1⟩ ∧
    (strSelfSwap 15 ⟨.sbo, 2, List.replicate 16 66#8, 0, 0⟩).1 =
      ⟨.sbo, 2, List.replicate 16 66#8, 0, 0⟩ := by decide +kernel

/-- A pointer to an object that owns another one. -/
example : ownSelfSwap { vars := [some 0, none], heap := [⟨1, [some 1], false⟩, ⟨1, [], false⟩], log := [] } 0 1 =
    .ok { vars := [some 0, none], heap := [⟨1, [some 1], false⟩, ⟨1, [], false⟩], log := [] } := by
  decide +kernel

/-- Vector 0 with two elements in block 0. -/
example : ∃ w : Vector.World Nat,
    Vector.moveAssign ⟨false, false, 0, fun a b => a == b⟩ w 1 0 ≠ .ok w ∧
    vecSelfSwap ⟨false, false, 0, fun a b => a == b⟩ w 0 1 = .ok w := by
  refine ⟨⟨Mem.Heap.init, fun k => if k = 0 then ⟨some 0, 2, 2⟩ else Vector.Vec.empty⟩, ?_,
    C141_vector _ _ 0 1 (by omega) rfl⟩
  intro h
  have := congrArg (fun w : Vector.World Nat => (w.vecs 1).size) (Except.ok.inj h)
  simp [Vector.World.put, Vector.Vec.empty] at this

end Verif.Sort
