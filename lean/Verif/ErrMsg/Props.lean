import Verif.ErrMsg.Rows

namespace Verif.ErrMsg
open Spec

/-- The lines are the pieces of the string between its line breaks, with their positions. -/
theorem C83_lines (str : Str) : ['\n'].intercalate ((lines 0 str).map (·.2)) = str ∧ ∀ l, l ∈ lines 0 str → '\n' ∉ l.2 ∧ ∃ p s, str = p ++ l.2 ++ s ∧ p.length = l.1 := by
  have key : ∀ (s : Str) (off : Nat), ['\n'].intercalate ((lines off s).map (·.2)) = s ∧ (∃ l r, lines off s = (off, l) :: r) ∧
      ∀ l, l ∈ lines off s → '\n' ∉ l.2 ∧ ∃ p t, s = p ++ l.2 ++ t ∧ off + p.length = l.1 := by
    intro s
    induction s with
    | nil => intro off; simp [lines, List.intercalate]
    | cons c s ih =>
      intro off
      obtain ⟨h1, ⟨l, r, h2⟩, h3⟩ := ih (off + 1)
      unfold lines
      by_cases hc : c = '\n'
      · rw [if_pos hc]
        subst hc
        refine ⟨?_, ⟨[], _, rfl⟩, ?_⟩
        · rw [h2] at h1 ⊢
          simp only [List.map_cons, List.intercalate, List.intersperse, List.flatten_cons, List.nil_append] at h1 ⊢
          rw [h1]; rfl
        · intro m hm
          rcases List.mem_cons.1 hm with rfl | hm
          · exact ⟨by simp, [], '\n' :: s, rfl, rfl⟩
          · obtain ⟨q1, p, t, q2, q3⟩ := h3 m hm
            exact ⟨q1, '\n' :: p, t, by simp [q2], by simp; omega⟩
      · rw [if_neg hc, h2]
        rw [h2] at h1 h3
        refine ⟨?_, ⟨_, _, rfl⟩, ?_⟩
        · cases r with
          | nil => simpa [List.intercalate] using h1
          | cons r0 r => simpa [List.intercalate, List.intersperse] using h1
        · intro m hm
          rcases List.mem_cons.1 hm with rfl | hm
          · obtain ⟨q1, p, t, q2, q3⟩ := h3 _ List.mem_cons_self
            have : p = [] := List.eq_nil_of_length_eq_zero (by dsimp only at q3; omega)
            subst this
            refine ⟨by simp only [List.mem_cons, not_or]; exact ⟨fun h => hc h.symm, q1⟩, [], t, by simp [q2], rfl⟩
          · obtain ⟨q1, p, t, q2, q3⟩ := h3 m (List.mem_cons_of_mem _ hm)
            exact ⟨q1, c :: p, t, by simp [q2], by simp; omega⟩
  obtain ⟨h1, -, h3⟩ := key str 0
  refine ⟨h1, fun l hl => ?_⟩
  obtain ⟨q1, p, t, q2, q3⟩ := h3 l hl
  exact ⟨q1, p, t, q2, by omega⟩

/-- For every non-empty string and targets that each lie in one line, the result is the lines of the string in order, each with a picture of its errors, and then the message. Missing: targets that
reach over several lines (`C83_several_lines`). -/
theorem C83_pictures_partial (str : Str) (errors : List Sub) (message : Str) (hne : str ≠ []) (hin : ∀ x, x ∈ errors → 0 ≤ x.b ∧ x.b ≤ x.e ∧ x.e ≤ str.length) (h1 : OneLine str errors) :
    ∃ gs : List (List Str), gs.length = (lines 0 str).length ∧ (∀ (k : Nat) l g, (lines 0 str)[k]? = some l → gs[k]? = some g → Good l.1 l.2 errors g) ∧
      make str errors message =
        some (.ok (['\n'].intercalate (List.zipWith (fun l g => block l.2 g) (lines 0 str) gs) ++ (if message = [] then [] else '\n' :: message))) := by
  obtain ⟨gs, l1, g1, e1⟩ := loop_ok (fun x hx => (hin x hx).2.1) (lines 0 str) true [] h1
  refine ⟨gs, l1, g1, ?_⟩
  have hall : errors.all (fun x => decide (0 ≤ x.b ∧ x.e ≤ str.length)) = true := by
    rw [List.all_eq_true]
    intro x hx
    rw [decide_eq_true_eq]
    exact ⟨(hin x hx).1, (hin x hx).2.2⟩
  unfold make
  rw [hall, if_neg (by simp), if_neg (by simpa using hne), e1]
  simp only [if_true, List.nil_append, glue_tail]
  show (some _ : Option (R Str)) = _
  congr 2
  cases message <;> simp

example : ∃ gs : List (List Str), make "ab cd\nef".toList [⟨0, 2, "one".toList⟩, ⟨3, 5, "two".toList⟩, ⟨6, 6, "x".toList⟩] "end".toList =
    some (.ok (['\n'].intercalate (List.zipWith (fun l g => block l.2 g) (lines 0 "ab cd\nef".toList) gs) ++ "\nend".toList)) := by
  obtain ⟨gs, -, -, h⟩ := C83_pictures_partial "ab cd\nef".toList [⟨0, 2, "one".toList⟩, ⟨3, 5, "two".toList⟩, ⟨6, 6, "x".toList⟩] "end".toList (by decide) (by decide) (by unfold OneLine; decide)
  exact ⟨gs, h⟩

example : make "ab cd\nef".toList [⟨0, 2, "one".toList⟩, ⟨3, 5, "two".toList⟩, ⟨6, 6, "x".toList⟩] "end".toList =
    some (.ok "> ab cd\n  ^^ ^^   \n  * one   \n     * two\n> ef\n  ^  \n  * x\nend".toList) := by decide +kernel

/-- For the empty string, all messages are listed. -/
theorem C83_empty_string (errors : List Sub) (message : Str) (hin : ∀ x, x ∈ errors → x.b = 0 ∧ x.e = 0) :
    make [] errors message = some (.ok ("<empty string>".toList ++ errors.flatMap (fun x => "\n* ".toList ++ x.msg) ++ (if message = [] then [] else '\n' :: message))) := by
  have hall : errors.all (fun x => decide (0 ≤ x.b ∧ x.e ≤ ([] : Str).length)) = true := by
    rw [List.all_eq_true]
    intro x hx
    rw [decide_eq_true_eq, (hin x hx).1, (hin x hx).2]
    simp
  unfold make
  rw [hall, if_neg (by simp), if_pos List.isEmpty_nil, addMessages_eq]
  show (some _ : Option (R Str)) = _
  congr 2
  cases message <;> simp

example : make [] [⟨0, 0, "a".toList⟩, ⟨0, 0, "b".toList⟩] "m".toList = some (.ok "<empty string>\n* a\n* b\nm".toList) := by decide +kernel

/-- A target outside of the string fails an assertion. -/
theorem C83_outside (str : Str) (errors : List Sub) (message : Str) (x : Sub) (hx : x ∈ errors) (h : x.b < 0 ∨ str.length < x.e) : make str errors message = some (.error .assert) := by
  have hall : errors.all (fun x => decide (0 ≤ x.b ∧ x.e ≤ str.length)) = false := by
    rw [List.all_eq_false]
    exact ⟨x, hx, by rw [decide_eq_true_eq]; omega⟩
  unfold make
  rw [hall]; rfl

example : make "abc".toList [⟨2, 4, "m".toList⟩] [] = some (.error .assert) := C83_outside _ _ _ ⟨2, 4, "m".toList⟩ (by decide) (by decide)

/-- The code violates the property for every target that reaches into a later line: an assertion of `operator[]` fails, for a negative index. -/
theorem C83_several_lines (str : Str) (errors : List Sub) (message : Str) (hne : str ≠ []) (h1 : ¬OneLine str errors) : make str errors message = some (.error .assert) := by
  have hb : ∃ x, x ∈ errors ∧ ∃ l, l ∈ lines 0 str ∧ x.b < l.1 ∧ (l.1 : Int) < x.e := by
    apply Classical.byContradiction
    intro hn
    apply h1
    intro x hx l hl hlt
    apply Classical.byContradiction
    intro hh
    exact hn ⟨x, hx, l, hl, hlt, by omega⟩
  unfold make
  split
  · rfl
  · rw [if_neg (by simpa using hne), loop_assert (lines 0 str) true [] hb]
    rfl

example : make "ab\ncd".toList [⟨0, 5, "bad".toList⟩] [] = some (.error .assert) := C83_several_lines _ _ _ (by decide) (by unfold OneLine; decide)

end Verif.ErrMsg
