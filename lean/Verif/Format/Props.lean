import Verif.Format.Lemmas
import Verif.Num.Model
/-!
# C51: `cc::format`

The model is `Verif/Format/Model.lean`, the specification `Verif/Format/Spec.lean`.
-/
namespace Verif.Format
open Verif.StrView (Chr)
open Verif.Num.Spec (IsDigit value)
open Spec (PrintfSpec Piece NameStart IsName renderSpec NoClose Denote Argument Formats render)

/-- `Sem` for a sequence of pieces. -/
inductive Run (args : List Arg) : Option Nat → List Piece → List Chr → List Nat → Prop
  | nil (k) : Run args k [] [] []
  | cons {k p t k' us ps out us'} : Sem args k p t k' us → Run args k' ps out us' → Run args k (p :: ps) (t ++ out) (us ++ us')

theorem toSpec_get (args : List Arg) (i : Nat) : (toSpec args)[i]? = (args[i]?).map fun a => (a.name, a.fmt) := by
  unfold toSpec
  rw [List.getElem?_map]

theorem toSpec_some {args : List Arg} {i : Nat} {a : Argument} (h : (toSpec args)[i]? = some a) : ∃ b, args[i]? = some b ∧ (b.name, b.fmt) = a := by
  rw [toSpec_get, Option.map_eq_some_iff] at h
  exact h

theorem run_of_denote {args : List Arg} (hl : args.length < 2 ^ 31) {k ps out us} (h : Denote (toSpec args) k ps out us) : Run args k ps out us := by
  induction h with
  | nil k => exact .nil k
  | lit _ ih => exact .cons (.lit _) ih
  | esc _ ih => exact .cons (.esc _) ih
  | auto h1 h2 _ ih =>
    obtain ⟨b, g1, rfl⟩ := toSpec_some h1
    exact .cons (.auto g1 h2) ih
  | @index k ds sp ps out us a t h1 h2 _ ih =>
    obtain ⟨b, g1, rfl⟩ := toSpec_some h1
    have : value 0 ds % 2 ^ 64 = value 0 ds := Nat.mod_eq_of_lt (by have := lt_of_get g1; omega)
    have h3 : Sem args k (.index ds sp) t none [value 0 ds % 2 ^ 64] := .index (by rw [this]; exact g1) h2
    rw [this] at h3
    exact .cons h3 ih
  | named h1 h2 h3 h4 _ ih =>
    obtain ⟨b, g1, rfl⟩ := toSpec_some h1
    refine .cons (.named g1 h2 (fun j c hj hc => ?_) h4) ih
    exact h3 j (c.name, c.fmt) hj (by rw [toSpec_get, hc]; rfl)
  | printf h1 h2 _ ih =>
    obtain ⟨b, g1, rfl⟩ := toSpec_some h1
    exact .cons (.printf g1 h2) ih

theorem denote_of_run {args : List Arg} {k ps out us} (h : Run args k ps out us) (hb : ∀ ds sp, Piece.index ds sp ∈ ps → value 0 ds < 2 ^ 64) :
    Denote (toSpec args) k ps out us := by
  induction h with
  | nil k => exact .nil k
  | @cons k p t k' us ps out us' hs _ ih =>
    have ih' := ih fun ds sp hm => hb ds sp (List.mem_cons_of_mem _ hm)
    cases hs with
    | lit c => exact .lit ih'
    | esc c => exact .esc ih'
    | auto h1 h2 => exact .auto (by rw [toSpec_get, h1]; rfl) h2 ih'
    | @index k ds sp a t h1 h2 =>
      have : value 0 ds % 2 ^ 64 = value 0 ds := Nat.mod_eq_of_lt (hb ds sp List.mem_cons_self)
      rw [this] at h1 ⊢
      exact .index (by rw [toSpec_get, h1]; rfl) h2 ih'
    | named h1 h2 h3 h4 =>
      refine .named (by rw [toSpec_get, h1]; rfl) h2 (fun j b hj hb' => ?_) h4 ih'
      obtain ⟨c, g1, rfl⟩ := toSpec_some hb'
      exact h3 j c hj g1
    | printf h1 h2 => exact .printf (by rw [toSpec_get, h1]; rfl) h2 ih'

theorem finish_ok {args : List Arg} {s : St} (h : ∀ i, i < args.length → i ∈ s.used) : finish args s = .ok (s.out ++ s.seg) := by
  unfold finish
  have : ((List.range args.length).all fun i => s.used.contains i) = true := by
    rw [List.all_eq_true]
    intro i hi
    rw [List.contains_iff_mem]
    exact h i (List.mem_range.mp hi)
  rw [this, ccAssert_true rfl]
  rfl

theorem finish_cases (args : List Arg) (s : St) : (∀ i, i < args.length → i ∈ s.used) ∨ finish args s = .error .assert := by
  cases h : ((List.range args.length).all fun i => s.used.contains i) with
  | true =>
    refine Or.inl fun i hi => ?_
    rw [List.all_eq_true] at h
    have := h i (List.mem_range.mpr hi)
    rwa [List.contains_iff_mem] at this
  | false =>
    refine Or.inr ?_
    unfold finish
    rw [h]
    rfl

theorem render_cons (p : Piece) (ps : List Piece) : render (p :: ps) = p.render ++ render ps := rfl

theorem render_cons_ne {pf py : Bool} (p : Piece) : p.Valid pf py → ∃ c x, p.render = c :: x := by
  intro _
  cases p <;> exact ⟨_, _, rfl⟩

theorem loop_ok {pf py : Bool} {args : List Arg} (hl : args.length < 2 ^ 31) (T : List Chr) {ps : List Piece} {k : Option Nat} {out : List Chr} {us : List Nat}
    (hr : Run args k ps out us) (hv : ∀ p ∈ ps, p.Valid pf py) (f : Nat) (s : St) (hs : s.pos = P T (render ps)) (hid : s.argId = enc k)
    (hu : ∀ i, i < args.length → i ∈ us ∨ i ∈ s.used) (hf : (render ps).length < f) : loop pf py args f s = .ok (s.out ++ s.seg ++ out) := by
  induction hr generalizing f s with
  | nil k =>
    cases f with
    | zero => exact absurd hf (by omega)
    | succ f =>
      rw [loop, hs, if_pos (show (P T (render [])).2 = 0 from rfl), List.append_nil]
      exact finish_ok fun i hi => (hu i hi).resolve_left (by simp)
  | @cons k p t k' us ps out us' hsem _ ih =>
    cases f with
    | zero => exact absurd hf (by omega)
    | succ f =>
      have hvp := hv p List.mem_cons_self
      obtain ⟨c, x, hc⟩ := render_cons_ne p hvp
      rw [render_cons] at hs hf
      obtain ⟨s', g1, g2⟩ := step_ok hl s T (render ps) hvp hsem hs hid
      rw [loop, hs, if_neg (by rw [hc]; exact P_snd_ne T c _), g1, R.ok_bind]
      rw [ih (fun q hq => hv q (List.mem_cons_of_mem _ hq)) f s' g2.pos g2.argId ?_ ?_, g2.out, List.append_assoc]
      · intro i hi
        rw [g2.used]
        rcases hu i hi with h | h
        · rcases List.mem_append.mp h with h | h
          · exact Or.inr (List.mem_append.mpr (Or.inl h))
          · exact Or.inl h
        · exact Or.inr (List.mem_append.mpr (Or.inr h))
      · rw [hc, List.length_append, List.length_cons] at hf
        omega

theorem sem_bound {args : List Arg} {k p t k' us} (h : Sem args k p t k' us) (hk : ∀ j, k = some j → j ≤ args.length) : ∀ j, k' = some j → j ≤ args.length := by
  intro j hj
  cases h with
  | lit c => exact hk j hj
  | esc c => exact hk j hj
  | auto h1 _ =>
    have := lt_of_get h1
    obtain rfl := Option.some.inj hj
    omega
  | index _ _ => cases hj
  | named _ _ _ _ => cases hj
  | printf h1 _ =>
    have := lt_of_get h1
    obtain rfl := Option.some.inj hj
    omega

theorem loop_cases (pf py : Bool) {args : List Arg} (hl : args.length < 2 ^ 31) (rest : List Chr) (f : Nat) (k : Option Nat) (s : St) (x : List Chr)
    (hs : s.pos = P (0#8 :: rest) x) (hid : s.argId = enc k) (hk : ∀ j, k = some j → j ≤ args.length) (hf : x.length < f) :
    (∃ ps out us, (∀ p ∈ ps, p.Valid pf py) ∧ render ps = x ∧ Run args k ps out us ∧ (∀ i, i < args.length → i ∈ us ∨ i ∈ s.used)) ∨
    ∃ e, loop pf py args f s = .error e ∧ (Good args → e = .assert) := by
  induction f generalizing k s x with
  | zero => exact absurd hf (by omega)
  | succ f ih =>
    cases x with
    | nil =>
      rcases finish_cases args s with h | h
      · exact Or.inl ⟨[], [], [], by simp, rfl, .nil k, fun i hi => Or.inr (h i hi)⟩
      · refine Or.inr ⟨.assert, ?_, fun _ => rfl⟩
        rw [loop, hs, if_pos (P_nil_snd _)]
        exact h
    | cons c x =>
      have hgo : loop pf py args (f + 1) s = step pf py args s >>= loop pf py args f := by
        rw [loop, hs, if_neg (P_snd_ne _ c x)]
      rw [hgo]
      rcases step_cases pf py hl k s rest c x hs hid hk with ⟨p, r, t, k', us, h1, h2, h3⟩ | ⟨e, h1, h2⟩
      · obtain ⟨s', g1, g2⟩ := step_ok hl s (0#8 :: rest) r h2 h3 (by rw [hs, h1]) hid
        obtain ⟨d, y, hd⟩ := render_cons_ne p h2
        have hlen : r.length < f := by
          have := congrArg List.length h1
          rw [hd, List.length_append, List.length_cons, List.length_cons] at this
          rw [List.length_cons] at hf
          omega
        rw [g1, R.ok_bind]
        rcases ih k' s' r g2.pos g2.argId (sem_bound h3 hk) hlen with ⟨ps, out, us', q1, q2, q3, q4⟩ | ⟨e, q1, q2⟩
        · refine Or.inl ⟨p :: ps, t ++ out, us ++ us', ?_, by rw [render_cons, q2, h1], .cons h3 q3, ?_⟩
          · intro q hq
            rcases List.mem_cons.mp hq with rfl | hq
            · exact h2
            · exact q1 q hq
          · intro i hi
            rcases q4 i hi with h | h
            · exact Or.inl (List.mem_append.mpr (Or.inr h))
            · rw [g2.used] at h
              rcases List.mem_append.mp h with h | h
              · exact Or.inl (List.mem_append.mpr (Or.inl h))
              · exact Or.inr h
        · exact Or.inr ⟨e, q1, q2⟩
      · exact Or.inr ⟨e, by rw [h1]; rfl, h2⟩

/-! ### The properties -/

/-- **C51 (meaning).** If the format string is a sequence of pieces that has a meaning for the arguments, and every argument is
used, then `cc::format` yields this meaning: literal text is copied, `{{`, `}}` and `%%` stand for one character, `{}` and `%` specifications
take the next argument, `{N}` the argument with this index, `{name}` the first with this name, each formatted with its specification.  `T` is whatever lies in memory
behind the format string. -/
theorem C51_format (pf py : Bool) (args : List Arg) (hl : args.length < 2 ^ 31) (s T out : List Chr) (h : Formats pf py (toSpec args) s out) :
    vformat pf py args (s ++ T) s.length = .ok out := by
  obtain ⟨ps, us, h1, rfl, h3, h4⟩ := h
  change loop pf py args ((render ps ++ T).length + 1) ⟨P T (render ps), [], [], 0, []⟩ = _
  rw [loop_ok hl T (run_of_denote hl h3) h1 _ ⟨P T (render ps), [], [], 0, []⟩ rfl rfl ?_ ?_]
  · rfl
  · intro i hi
    exact Or.inl (h4 i (by unfold toSpec; rw [List.length_map]; exact hi))
  · rw [List.length_append]; omega

/-- **C51 (rejection).** On a zero-terminated format string whose digit sequences are all below 2^64, formatting succeeds *only* if the format string
is such a sequence of pieces, and otherwise it is rejected by a contract failure: malformed format strings, missing and unused arguments
never give a result, and formatting is never undefined unless the formatting of an argument itself is. -/
theorem C51_reject_partial (pf py : Bool) (args : List Arg) (hl : args.length < 2 ^ 31) (hg : ∀ a ∈ args, ∀ sp, a.fmt sp ≠ .error .ub) (s rest : List Chr)
    (hd : ∀ a ds b, s = a ++ (ds ++ b) → (∀ c ∈ ds, IsDigit c) → value 0 ds < 2 ^ 64) :
    (∃ out, Formats pf py (toSpec args) s out ∧ vformat pf py args (s ++ 0#8 :: rest) s.length = .ok out) ∨
    ((¬ ∃ out, Formats pf py (toSpec args) s out) ∧ vformat pf py args (s ++ 0#8 :: rest) s.length = .error .assert) := by
  by_cases hex : ∃ out, Formats pf py (toSpec args) s out
  · obtain ⟨out, h⟩ := hex
    exact Or.inl ⟨out, h, C51_format pf py args hl s _ out h⟩
  · refine Or.inr ⟨hex, ?_⟩
    rcases loop_cases pf py hl rest ((s ++ 0#8 :: rest).length + 1) (some 0) ⟨P (0#8 :: rest) s, [], [], 0, []⟩ s rfl rfl
      (fun j hj => by obtain rfl := Option.some.inj hj; omega) (by rw [List.length_append]; omega) with ⟨ps, out, us, h1, h2, h3, h4⟩ | ⟨e, h1, h2⟩
    · refine absurd ⟨out, ps, us, h1, h2, denote_of_run h3 ?_, ?_⟩ hex
      · intro ds sp hm
        obtain ⟨l1, l2, rfl⟩ := List.append_of_mem hm
        obtain ⟨_, _, h5, _⟩ := h1 _ hm
        have hx : s = (render l1 ++ [123#8]) ++ (ds ++ (renderSpec sp ++ [125#8] ++ render l2)) := by
          rw [← h2]
          unfold render
          rw [List.map_append, List.flatten_append, List.map_cons, List.flatten_cons]
          simp only [Piece.render, List.cons_append, List.append_assoc, List.nil_append]
        exact hd _ ds _ hx h5
      · intro i hi
        exact (h4 i (by unfold toSpec at hi; rwa [List.length_map] at hi)).resolve_right (by simp)
    · have := h2 hg
      subst this
      exact h1

/-- **C51 (safety).** On a zero-terminated format string formatting is never undefined, whatever the string, unless the formatting of an argument itself is. -/
theorem C51_safe (pf py : Bool) (args : List Arg) (hl : args.length < 2 ^ 31) (hg : ∀ a ∈ args, ∀ sp, a.fmt sp ≠ .error .ub) (s rest : List Chr) :
    vformat pf py args (s ++ 0#8 :: rest) s.length ≠ .error .ub := by
  rcases loop_cases pf py hl rest ((s ++ 0#8 :: rest).length + 1) (some 0) ⟨P (0#8 :: rest) s, [], [], 0, []⟩ s rfl rfl
      (fun j hj => by obtain rfl := Option.some.inj hj; omega) (by rw [List.length_append]; omega) with ⟨ps, out, us, h1, h2, h3, h4⟩ | ⟨e, h1, h2⟩
  · have := loop_ok (pf := pf) (py := py) hl (0#8 :: rest) h3 h1 ((s ++ 0#8 :: rest).length + 1) ⟨P (0#8 :: rest) s, [], [], 0, []⟩ (by rw [h2]) rfl h4 (by rw [h2, List.length_append]; omega)
    unfold vformat
    intro h
    change loop pf py args ((s ++ 0#8 :: rest).length + 1) ⟨P (0#8 :: rest) s, [], [], 0, []⟩ = _ at h
    rw [this] at h
    cases h
  · unfold vformat
    intro h
    change loop pf py args ((s ++ 0#8 :: rest).length + 1) ⟨P (0#8 :: rest) s, [], [], 0, []⟩ = _ at h
    rw [h1, h2 hg] at h
    cases h

/-- **C51 (one result).** A format string has at most one meaning. -/
theorem C51_unique (pf py : Bool) (args : List Arg) (hl : args.length < 2 ^ 31) (s out out' : List Chr) (h : Formats pf py (toSpec args) s out)
    (h' : Formats pf py (toSpec args) s out') : out = out' := by
  have h1 := C51_format pf py args hl s [] out h
  rw [C51_format pf py args hl s [] out' h'] at h1
  exact (Except.ok.inj h1).symm

/-! ### Witnesses -/

open Verif.Num (txt)

/-- An argument that prints its text and the specification in brackets. -/
def echo (name text : String) : Arg := ⟨txt name, fun sp => .ok (txt text ++ if sp = [] then [] else 91#8 :: (sp ++ [93#8]))⟩

/-- `vformat` on a zero-terminated text. -/
def runZ (pf py : Bool) (args : List Arg) (s : String) : R (List Chr) := vformat pf py args (txt s ++ [0#8]) (txt s).length

-- sequential, escapes, literal text
example : runZ true true [echo "" "A", echo "" "B"] "x={}, {{{:4d}}} 100%%" = .ok (txt "x=A, {B[4d]} 100%") := by decide +kernel
-- by index and by name
example : runZ true true [echo "a" "A", echo "b" "B"] "{1}{0:x}{b}{a}" = .ok (txt "BA[x]BA") := by decide +kernel
-- printf-style
example : runZ true true [echo "" "A", echo "" "B"] "%s-%+04.2lld!" = .ok (txt "A-B[+04.2lld]!") := by decide +kernel
-- only one syntax
example : runZ true false [echo "" "A"] "{%s}" = .ok (txt "{A}") := by decide +kernel
example : runZ false true [echo "" "A"] "%{}" = .ok (txt "%A") := by decide +kernel
-- rejected: unused, missing, mixed, unknown name, unbalanced
example : runZ true true [echo "" "A"] "x" = .error .assert := by decide +kernel
example : runZ true true [] "{}" = .error .assert := by decide +kernel
example : runZ true true [echo "" "A", echo "" "B"] "{0}{}" = .error .assert := by decide +kernel
example : runZ true true [echo "" "A", echo "" "B"] "{0}{:d}" = .error .assert := by decide +kernel
example : runZ true true [echo "a" "A"] "{b}" = .error .assert := by decide +kernel
example : runZ true true [echo "" "A"] "{}}" = .error .assert := by decide +kernel
example : runZ true true [echo "" "A"] "{" = .error .assert := by decide +kernel
example : runZ true true [echo "" "A"] "%5" = .error .assert := by decide +kernel
-- the form given in the comment of format.hh is rejected
example : runZ true true [echo "" "A"] "{.2f}" = .error .assert := by decide +kernel

/-- The hypotheses of `C51_format` hold for a format string with all kinds of pieces. -/
example : Formats true true (toSpec [echo "a" "A", echo "" "B"]) (txt "x%%%s{:d}{1}{a}") (txt "x%AB[d]BA") := by
  refine ⟨[.lit 120#8, .esc 37#8, .printf [115#8], .auto (some [100#8]), .index [49#8] none, .named [97#8] none], [0, 1, 1, 0], ?_, rfl, ?_, ?_⟩
  · intro p hp
    simp only [List.mem_cons, List.not_mem_nil, or_false] at hp
    rcases hp with rfl | rfl | rfl | rfl | rfl | rfl
    · exact ⟨fun _ => by decide, fun _ => by decide⟩
    · exact Or.inl ⟨rfl, rfl⟩
    · exact ⟨rfl, [], [], [], [], 115#8, rfl, by simp, Or.inr ⟨by simp, by simp⟩, Or.inl rfl, by unfold Spec.Length; simp, by unfold Spec.Conv; simp⟩
    · refine ⟨rfl, fun l hl => ?_⟩
      rw [← Option.some.inj hl]
      decide
    · refine ⟨rfl, by simp, ?_, (fun l hl => nomatch hl)⟩
      intro c hc
      rw [List.mem_singleton.mp hc]
      unfold IsDigit
      decide
    · exact ⟨rfl, ⟨97#8, [], rfl, Or.inr (Or.inl (by decide)), by simp⟩, (fun l hl => nomatch hl)⟩
  · refine .lit (.esc ?_)
    refine Denote.printf (t := txt "A") (out := txt "B[d]BA") (a := ((echo "a" "A").name, (echo "a" "A").fmt)) rfl rfl ?_
    refine Denote.auto (t := txt "B[d]") (out := txt "BA") (a := ((echo "" "B").name, (echo "" "B").fmt)) rfl rfl ?_
    refine Denote.index (t := txt "B") (out := txt "A") (a := ((echo "" "B").name, (echo "" "B").fmt)) rfl rfl ?_
    refine Denote.named (t := txt "A") (out := []) (i := 0) (a := ((echo "a" "A").name, (echo "a" "A").fmt)) rfl rfl ?_ rfl (.nil _)
    intro j b hj
    exact absurd hj (by omega)
  · intro i hi
    have : i < 2 := hi
    rcases i with _ | _ | i
    · simp
    · simp
    · omega

/-! ### Where the code does something else -/

/-- The index is computed modulo 2^64: an index that is far too large selects an argument. -/
theorem C51_index_wraps : runZ true true [echo "" "A"] "{18446744073709551616}" = .ok (txt "A") ∧
    ¬ ∃ out, Formats true true (toSpec [echo "" "A"]) (txt "{18446744073709551616}") out := by
  refine ⟨by decide +kernel, ?_⟩
  rintro ⟨out, ps, us, h1, h2, h3, h4⟩
  -- the only way to read the text
  have key : ∀ (p : Piece) (qs : List Piece), p.Valid true true → render (p :: qs) = txt "{18446744073709551616}" →
      p = .index (txt "18446744073709551616") none := by
    intro p qs hv he
    rw [render_cons] at he
    cases p with
    | lit c =>
      have : c = 123#8 := (List.cons.inj he).1
      exact absurd this (hv.2 rfl).1
    | esc c =>
      obtain ⟨e1, e2⟩ := List.cons.inj he
      have e3 := (List.cons.inj e2).1
      rw [e1] at e3
      exact absurd e3 (by decide)
    | printf sp =>
      have := (List.cons.inj he).1
      exact absurd this (by decide)
    | auto sp =>
      have e2 := (List.cons.inj he).2
      cases sp with
      | none => exact absurd (List.cons.inj e2).1 (by decide)
      | some l => exact absurd (List.cons.inj e2).1 (by decide)
    | named nm sp =>
      have e2 := (List.cons.inj he).2
      obtain ⟨_, ⟨c, t, rfl, hc, _⟩, _⟩ := hv
      have e3 : c = 49#8 := (List.cons.inj e2).1
      subst e3
      exact absurd hc (by unfold NameStart; decide)
    | index ds sp =>
      obtain ⟨_, h0, hd, _⟩ := hv
      have e2 : ds ++ (renderSpec sp ++ [125#8]) ++ render qs = txt "18446744073709551616" ++ [125#8] := (List.cons.inj he).2
      have e3 : ds ++ (renderSpec sp ++ 125#8 :: render qs) = txt "18446744073709551616" ++ [125#8] := by
        rw [← e2]; simp only [List.append_assoc, List.cons_append, List.nil_append]
      obtain ⟨q1, q2, _⟩ := spec_head_props sp (render qs)
      have hds : ds = txt "18446744073709551616" := by
        rcases Nat.lt_trichotomy ds.length 20 with g | g | g
        · exfalso
          have h5 := congrArg (fun l => l[ds.length]?) e3
          rw [List.getElem?_append_right (Nat.le_refl _), Nat.sub_self, ← List.head?_eq_getElem?] at h5
          have h6 : ∀ n, n < 20 → ∃ c, (txt "18446744073709551616" ++ [125#8])[n]? = some c ∧ IsDigit c := by
            have : ∀ n : Fin 20, ∃ c, (txt "18446744073709551616" ++ [125#8])[n.1]? = some c ∧ Num.isDigit c = true := by
              intro n
              have : ∀ n : Fin 20, (((txt "18446744073709551616" ++ [125#8])[n.1]?).map Num.isDigit) = some true := by decide +kernel
              exact Option.map_eq_some_iff.mp (this n)
            intro n hn
            obtain ⟨c, hc, hd⟩ := this ⟨n, hn⟩
            exact ⟨c, hc, (Num.isDigit_iff c).mp hd⟩
          obtain ⟨c, hc, hcd⟩ := h6 _ g
          rw [hc] at h5
          exact q2 c h5 hcd
        · exact (List.append_inj e3 (by rw [g]; decide +kernel)).1
        · exfalso
          have h5 := congrArg (fun l => l[20]?) e3
          rw [List.getElem?_append_left g] at h5
          have h6 : (txt "18446744073709551616" ++ [125#8])[20]? = some 125#8 := by decide +kernel
          rw [h6] at h5
          have := hd 125#8 (List.mem_of_getElem? h5)
          unfold IsDigit at this
          exact absurd this (by decide)
      subst hds
      cases sp with
      | none => rfl
      | some l =>
        have e4 := List.append_cancel_left e3
        exact absurd (List.cons.inj e4).1 (by decide)
  cases ps with
  | nil => cases h2
  | cons p qs =>
    obtain rfl := key p qs (h1 p List.mem_cons_self) h2
    cases h3 with
    | @index _ _ _ _ _ _ a t g1 g2 g3 =>
      have := lt_of_get g1
      have hv : value 0 (txt "18446744073709551616") = 18446744073709551616 := by decide +kernel
      rw [hv] at this
      exact absurd this (by decide)

/-- The conversion character is read without a check for the end of the view: for the view `%5` of the text `%5d` the character behind the
view is read and taken for the conversion, and the loop then runs on behind the end of the array. -/
theorem C51_reads_past_view : vformat true true [echo "" "A"] (txt "%5d" ++ [0#8]) 2 = .error .ub := by decide +kernel

/-- `C51_reject_partial` does not hold without a zero behind the format string: the same view `%5` of an array with nothing behind it is undefined. -/
theorem C51_unterminated : vformat true true [echo "" "A"] (txt "%5") 2 = .error .ub := by decide +kernel

end Verif.Format
