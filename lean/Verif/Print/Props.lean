import Verif.Print.Spec
import Verif.Format.Props
/-!
# C106: `cc::print`, `cc::println`

The model is `Verif/Print/Model.lean`, the specification `Verif/Print/Spec.lean`.
-/
namespace Verif.Print
open Verif.StrView (Chr)
open Verif.Format (Arg vformat toSpec C51_format)
open Verif.Format.Spec (Formats Piece Denote PrintfSpec)
open Spec (Text CString line syntaxes)

theorem cread_append (l : List Chr) (rest : List Chr) (h : 0#8 ∉ l) : cread (l ++ 0#8 :: rest) = .ok l := by
  induction l with
  | nil => rfl
  | cons c t ih =>
    have hc : c ≠ 0#8 := fun e => h (by rw [e]; exact List.mem_cons_self)
    simp only [List.cons_append, cread, if_neg hc, ih (fun hm => h (List.mem_cons_of_mem _ hm)), R.ok_bind, R.pure_eq]

/-- The part of a text before its first zero. -/
theorem cread_cut (l rest : List Chr) : cread (l ++ 0#8 :: rest) = .ok (l.takeWhile (· ≠ 0#8)) := by
  induction l with
  | nil => rfl
  | cons c t ih =>
    by_cases hc : c = 0#8
    · subst hc; rfl
    · rw [List.takeWhile_cons, if_pos (by simpa using hc), List.cons_append, cread, if_neg hc, ih]
      rfl

theorem takeWhile_of_not_mem (l : List Chr) (h : 0#8 ∉ l) : l.takeWhile (· ≠ 0#8) = l := by
  induction l with
  | nil => rfl
  | cons c t ih =>
    have hc : c ≠ 0#8 := fun e => h (by rw [e]; exact List.mem_cons_self)
    rw [List.takeWhile_cons, if_pos (by simpa using hc), ih fun hm => h (List.mem_cons_of_mem _ hm)]

/-- `Formatter::vformat_to` is `impl_vformat_to` with the syntaxes of the formatter. -/
theorem vformatTo_eq (f : Formatter) (args : List Arg) (mem : List Chr) (n : Nat) : f.vformatTo args mem n = vformat (syntaxes f).1 (syntaxes f).2 args mem n := by
  cases f <;> rfl

theorem format_ok {f : Formatter} {args : List Arg} (hl : args.length < 2 ^ 31) {mem s out : List Chr} (hm : CString mem s)
    (h : Formats (syntaxes f).1 (syntaxes f).2 (toSpec args) s out) : format f args mem = .ok out := by
  obtain ⟨h0, rest, rfl⟩ := hm
  unfold format formatTo
  rw [cread_append _ _ h0, R.ok_bind, vformatTo_eq]
  exact C51_format _ _ args hl s _ out h

/-- `"%s"` with one argument is this argument's text. -/
theorem formats_percentS (v : Arg) {out : List Chr} (h : v.fmt [] = .ok out) : Formats true true (toSpec [v]) [37#8, 115#8] out := by
  refine ⟨[.printf [115#8]], [0], ?_, rfl, ?_, ?_⟩
  · intro p hp
    obtain rfl := List.mem_singleton.mp hp
    refine ⟨rfl, [], [], [], [], 115#8, rfl, fun _ h => (nomatch h), Or.inr ⟨fun _ h => (nomatch h), by decide⟩, Or.inl rfl, ?_, ?_⟩
    · unfold Format.Spec.Length; decide
    · unfold Format.Spec.Conv; decide
  · have := Denote.printf (args := toSpec [v]) (k := 0) (sp := [115#8]) (ps := []) (out := []) (us := []) (a := (v.name, v.fmt)) (t := out) rfl
      (by rw [if_pos rfl]; exact h) (.nil _)
    rwa [List.append_nil] at this
  · intro i hi
    have : i = 0 := by unfold toSpec at hi; simp only [List.map_cons, List.map_nil, List.length_singleton] at hi; omega
    subst this; exact List.mem_cons_self

/-- The calls for which the code keeps its promise, zeros in the text aside: a `cc::string` must be followed by a zero in its storage (it is not after `remove_prefix` and
`remove_suffix`, C46), and `print` and `println` with a format string must be used with their default formatter. -/
def Direct : Call → Prop
  | .str _ rest => ∃ r, rest = 0#8 :: r
  | .fmt f _ args => f = .default ∧ args.length < 2 ^ 31
  | _ => True

/-- What a call does to the stream: one access with the text, and for `println` a second one that flushes. -/
def code (ln : Bool) (t : List Chr) : List Micro := if ln then [.put true (line true t), .flush] else [.put false (line false t)]

/-- **C106 (what is written).** For every overload of `print` and `println`, and every text: exactly one access to the stream that appends the text up to its first zero
character, with the end of the line behind it for `println`, which also flushes. -/
theorem C106_cut (ln : Bool) (c : Call) (t : List Chr) (h : Text c t) (hd : Direct c) : c.micros ln = .ok (code ln (t.takeWhile (· ≠ 0#8))) := by
  have key : ∀ m, c.cstring = .ok m → (∃ r, m = t ++ 0#8 :: r) → c.micros ln = .ok (code ln (t.takeWhile (· ≠ 0#8))) := by
    rintro m hm ⟨r, rfl⟩
    unfold Call.micros
    rw [hm, R.ok_bind, cread_cut, R.ok_bind]
    cases ln <;> rfl
  cases h with
  | str text rest =>
    obtain ⟨r, rfl⟩ := hd
    exact key _ rfl ⟨r, rfl⟩
  | view text => exact key _ rfl ⟨[], rfl⟩
  | cstr hm =>
    obtain ⟨_, r, rfl⟩ := hm
    exact key _ rfl ⟨r, rfl⟩
  | @fmt f mem args s out hm hf =>
    obtain ⟨rfl, hl⟩ := hd
    refine key (t ++ [0#8]) ?_ ⟨[], rfl⟩
    simp only [Call.cstring, format_ok hl hm hf, R.ok_bind, R.pure_eq]
  | @val v out hv =>
    refine key (t ++ [0#8]) ?_ ⟨[], rfl⟩
    have : format .default [v] percentS = .ok t :=
      format_ok (f := .default) (args := [v]) (by show 1 < _; decide) (mem := percentS) (s := [37#8, 115#8]) ⟨by decide, [], rfl⟩ (formats_percentS v hv)
    simp only [Call.cstring, this, R.ok_bind, R.pure_eq]

/-- **C106 (exactly the text).** `print` writes exactly the text of its argument and `println` the text and the end of the line, whichever overload is used, if there is no zero
character in the text. Missing: texts with zero characters, strings without a zero behind them, other formatters; see `C106_zero_cuts`, `C106_stale_tail`, `C106_formatter_ignored`. -/
theorem C106_text_partial (ln : Bool) (c : Call) (t : List Chr) (h : Text c t) (hd : Direct c) (h0 : 0#8 ∉ t) : c.micros ln = .ok (code ln t) := by
  rw [C106_cut ln c t h hd, takeWhile_of_not_mem t h0]

/-! ### Several threads -/

/-- The accesses that append. -/
def putsOf : List Micro → List (Bool × List Chr)
  | [] => []
  | .put ln t :: ms => (ln, t) :: putsOf ms
  | .flush :: ms => putsOf ms

/-- Every `puts` is followed by a `fflush`. -/
def Flushes : List Micro → Prop
  | [] => True
  | .put true _ :: ms => (∃ ms', ms = .flush :: ms') ∧ Flushes ms
  | .put false _ :: ms => Flushes ms
  | .flush :: ms => Flushes ms

/-- The texts written so far. -/
def texts (log : List (Nat × Bool × List Chr)) : List Chr := (log.map (·.2.2)).flatten

/-- What thread `i` has written so far. -/
def textsOf (i : Nat) (log : List (Nat × Bool × List Chr)) : List (Bool × List Chr) := (log.filter (·.1 == i)).map (·.2)

/-- Everything up to and with each `puts` of a thread is on the device, unless the thread has not reached the `fflush` behind it yet. -/
def Covered (s : St) : Prop :=
  ∀ i pre t post, s.log = pre ++ (i, true, t) :: post → ((s.todo i).head? = some .flush ∧ textsOf i post = []) ∨ texts pre ++ t <+: s.out.dev

structure Inv (prog : Nat → List Micro) (s : St) : Prop where
  all : s.out.dev ++ s.out.buf = texts s.log
  own : ∀ i, textsOf i s.log ++ putsOf (s.todo i) = putsOf (prog i)
  fl : ∀ i, Flushes (s.todo i)
  cov : Covered s

theorem texts_append (a b : List (Nat × Bool × List Chr)) : texts (a ++ b) = texts a ++ texts b := by
  unfold texts; rw [List.map_append, List.flatten_append]

theorem textsOf_append (i : Nat) (a b : List (Nat × Bool × List Chr)) : textsOf i (a ++ b) = textsOf i a ++ textsOf i b := by
  unfold textsOf; rw [List.filter_append, List.map_append]

/-- Adding an entry behind a list that is split at an entry. -/
theorem split_snoc {α : Type} {l pre post : List α} {x y : α} (h : l ++ [y] = pre ++ x :: post) : (post = [] ∧ l = pre ∧ x = y) ∨ ∃ post', post = post' ++ [y] ∧ l = pre ++ x :: post' := by
  rcases List.eq_nil_or_concat post with rfl | ⟨p, z, rfl⟩
  · have := List.append_inj' h rfl
    exact Or.inl ⟨rfl, this.1, (List.cons.inj this.2).1.symm⟩
  · right
    rw [List.concat_eq_append] at h ⊢
    have h' : l ++ [y] = (pre ++ x :: p) ++ [z] := by rw [h]; simp
    have := List.append_inj' h' rfl
    obtain ⟨rfl⟩ := (List.cons.inj this.2).1
    exact ⟨p, rfl, this.1⟩

theorem step_inv {prog : Nat → List Micro} {s : St} (h : Inv prog s) (a : Act) : Inv prog (step s a) := by
  cases a with
  | drain n =>
    refine ⟨?_, h.own, h.fl, ?_⟩
    · show (s.out.dev ++ s.out.buf.take n) ++ s.out.buf.drop n = _
      rw [List.append_assoc, List.take_append_drop, h.all]; rfl
    · intro i pre t post e
      rcases h.cov i pre t post e with g | g
      · exact Or.inl g
      · exact Or.inr (g.trans (List.prefix_append _ _))
  | thread j =>
    unfold step
    dsimp only
    cases hj : s.todo j with
    | nil => exact h
    | cons m ms =>
      have hfj := h.fl j
      have hoj := h.own j
      rw [hj] at hfj hoj
      cases m with
      | flush =>
        refine ⟨?_, ?_, ?_, ?_⟩
        · show (s.out.dev ++ s.out.buf) ++ [] = _
          rw [List.append_nil, h.all]
        · intro i
          show textsOf i s.log ++ putsOf (if i = j then ms else s.todo i) = _
          by_cases hi : i = j
          · subst hi; rw [if_pos rfl]; exact hoj
          · rw [if_neg hi]; exact h.own i
        · intro i
          show Flushes (if i = j then ms else s.todo i)
          by_cases hi : i = j
          · rw [if_pos hi]; exact hfj
          · rw [if_neg hi]; exact h.fl i
        · intro i pre t post e
          right
          show texts pre ++ t <+: s.out.dev ++ s.out.buf
          rw [h.all]
          change s.log = _ at e
          rw [e, texts_append, show texts ((i, true, t) :: post) = t ++ texts post from rfl, ← List.append_assoc]
          exact List.prefix_append _ _
      | put ln t =>
        refine ⟨?_, ?_, ?_, ?_⟩
        · show s.out.dev ++ (s.out.buf ++ t) = texts (s.log ++ [(j, ln, t)])
          rw [texts_append, ← List.append_assoc, h.all]
          unfold texts
          simp
        · intro i
          show textsOf i (s.log ++ [(j, ln, t)]) ++ putsOf (if i = j then ms else s.todo i) = _
          rw [textsOf_append]
          by_cases hi : i = j
          · subst hi
            have e1 : textsOf i [(i, ln, t)] = [(ln, t)] := by unfold textsOf; simp
            rw [if_pos rfl, e1, List.append_assoc, ← hoj]; rfl
          · have e1 : textsOf i [(j, ln, t)] = [] := by
              unfold textsOf
              have : ((j, ln, t).1 == i) = false := by simpa using fun e => hi e.symm
              rw [List.filter_cons, this]; rfl
            rw [if_neg hi, e1, List.append_nil]; exact h.own i
        · intro i
          show Flushes (if i = j then ms else s.todo i)
          by_cases hi : i = j
          · rw [if_pos hi]
            cases ln with
            | true => exact hfj.2
            | false => exact hfj
          · rw [if_neg hi]; exact h.fl i
        · intro i pre t' post e
          show (((if i = j then ms else s.todo i) : List Micro).head? = some .flush ∧ _) ∨ _
          change s.log ++ [(j, ln, t)] = _ at e
          rcases split_snoc e with ⟨rfl, rfl, e2⟩ | ⟨post', rfl, e1⟩
          · left
            simp only [Prod.mk.injEq] at e2
            obtain ⟨rfl, rfl, rfl⟩ := e2
            obtain ⟨ms', rfl⟩ := hfj.1
            rw [if_pos rfl]
            exact ⟨rfl, rfl⟩
          · rcases h.cov i pre t' post' e1 with ⟨g1, g2⟩ | g
            · left
              have hi : i ≠ j := by
                rintro rfl
                rw [hj] at g1
                cases g1
              have hi' : (j == i) = false := by simpa using fun e => hi e.symm
              rw [if_neg hi]
              refine ⟨g1, ?_⟩
              rw [textsOf_append, g2]
              unfold textsOf
              rw [List.filter_cons]
              simp only [hi']
              rfl
            · exact Or.inr g

theorem run_inv {prog : Nat → List Micro} (acts : List Act) : ∀ s, Inv prog s → Inv prog (run s acts) := by
  induction acts with
  | nil => exact fun s h => h
  | cons a as ih => exact fun s h => ih _ (step_inv h a)

theorem init_inv (prog : Nat → List Micro) (h : ∀ i, Flushes (prog i)) : Inv prog { todo := prog } where
  all := rfl
  own _ := rfl
  fl := h
  cov i pre t post e := by
    have := congrArg List.length e
    simp at this

/-- One call of a thread of the program: `println` or `print`, the call, the text it is about. -/
abbrev Item := Bool × Call × List Chr

/-- The call is within the part of the property that holds. -/
def Item.Ok (x : Item) : Prop := Text x.2.1 x.2.2 ∧ Direct x.2.1 ∧ 0#8 ∉ x.2.2

/-- What the thread does. -/
def codes (xs : List Item) : List Micro := xs.flatMap fun x => code x.1 x.2.2

theorem compile_ok (xs : List Item) (h : ∀ x ∈ xs, Item.Ok x) : compile (xs.map fun x => (x.1, x.2.1)) = .ok (codes xs) := by
  induction xs with
  | nil => rfl
  | cons x xs ih =>
    obtain ⟨h1, h2, h3⟩ := h x List.mem_cons_self
    simp only [List.map_cons, compile, C106_text_partial x.1 x.2.1 x.2.2 h1 h2 h3, ih (fun y hy => h y (List.mem_cons_of_mem _ hy)), R.ok_bind, R.pure_eq]
    rfl

theorem flushes_codes (xs : List Item) : Flushes (codes xs) := by
  induction xs with
  | nil => exact True.intro
  | cons x xs ih =>
    show Flushes (code x.1 x.2.2 ++ codes xs)
    cases x.1 with
    | true => exact ⟨⟨codes xs, rfl⟩, ih⟩
    | false => exact ih

theorem puts_codes (xs : List Item) : putsOf (codes xs) = xs.map fun x => (x.1, line x.1 x.2.2) := by
  induction xs with
  | nil => rfl
  | cons x xs ih =>
    show putsOf (code x.1 x.2.2 ++ codes xs) = _
    rw [List.map_cons, ← ih]
    cases x.1 <;> rfl

theorem codes_head (xs : List Item) : (codes xs).head? ≠ some .flush := by
  cases xs with
  | nil => exact nofun
  | cons x xs =>
    show (code x.1 x.2.2 ++ codes xs).head? ≠ _
    cases x.1 <;> exact fun h => nomatch h

/-- **C106 (whole texts, in order, whatever the schedule).** Any number of threads, each with any sequence of `print` and `println`; any schedule, any behaviour of the
buffer, at any moment: no call is undefined or fails; what is on the device together with the buffer is a sequence of whole texts, one per call, so that lines of
different threads never mix, and of each thread it has the texts of its first `k` calls in their order, all of them once the thread has finished. -/
theorem C106_schedule_partial (th : Nat → List Item) (hok : ∀ i, ∀ x ∈ th i, Item.Ok x) :
    ∃ prog, (∀ i, compile ((th i).map fun x => (x.1, x.2.1)) = .ok (prog i)) ∧ ∀ acts, ∃ order : List (Nat × List Chr),
      (run { todo := prog } acts).out.dev ++ (run { todo := prog } acts).out.buf = (order.map (·.2)).flatten ∧
      ∀ i, ∃ k, (order.filter (·.1 == i)).map (·.2) = ((th i).map fun x => line x.1 x.2.2).take k ∧
        ((run { todo := prog } acts).todo i = [] → (order.filter (·.1 == i)).map (·.2) = (th i).map fun x => line x.1 x.2.2) := by
  refine ⟨fun i => codes (th i), fun i => compile_ok _ (hok i), fun acts => ?_⟩
  have h := run_inv acts _ (init_inv (fun i => codes (th i)) fun i => flushes_codes _)
  generalize run _ acts = s at h
  refine ⟨s.log.map fun e => (e.1, e.2.2), ?_, fun i => ?_⟩
  · rw [h.all, List.map_map]; rfl
  · have e : ((s.log.map fun e => (e.1, e.2.2)).filter (·.1 == i)).map (·.2) = (textsOf i s.log).map (·.2) := by
      unfold textsOf
      rw [List.filter_map, List.map_map, List.map_map]; rfl
    have h1 := congrArg (List.map (·.2)) (h.own i)
    rw [puts_codes, List.map_map, List.map_append] at h1
    change _ = (th i).map (fun x => line x.1 x.2.2) at h1
    refine ⟨((textsOf i s.log).map (·.2)).length, ?_, fun hd => ?_⟩
    · rw [e, ← h1, List.take_left']
      rfl
    · rw [hd] at h1
      rw [e, ← h1]
      exact (List.append_nil _).symm

/-- An element of a filtered list at its place in the list itself. -/
theorem filter_split {α : Type} (p : α → Bool) (l : List α) (n : Nat) (e : α) (h : (l.filter p)[n]? = some e) :
    ∃ pre post, l = pre ++ e :: post ∧ pre.filter p = (l.filter p).take n := by
  induction l generalizing n with
  | nil => simp at h
  | cons x l ih =>
    by_cases hx : p x = true
    · rw [List.filter_cons_of_pos hx] at h ⊢
      cases n with
      | zero =>
        obtain rfl := Option.some.inj h
        exact ⟨[], l, rfl, rfl⟩
      | succ n =>
        obtain ⟨pre, post, h1, h2⟩ := ih n h
        exact ⟨x :: pre, post, by rw [h1]; rfl, by rw [List.filter_cons_of_pos hx, h2]; rfl⟩
    · rw [List.filter_cons_of_neg hx] at h ⊢
      obtain ⟨pre, post, h1, h2⟩ := ih n h
      exact ⟨x :: pre, post, by rw [h1]; rfl, by rw [List.filter_cons_of_neg hx, h2]⟩

/-- **C106 (println flushes).** In the same setting, at any moment (so also if the program is killed then): if thread `i` has returned from its first `k` calls, and call number `n` among
them was a `println`, then its line and everything that any thread had written before it has reached the device. -/
theorem C106_flushed_partial (th : Nat → List Item) (hok : ∀ i, ∀ x ∈ th i, Item.Ok x) :
    ∃ prog, (∀ i, compile ((th i).map fun x => (x.1, x.2.1)) = .ok (prog i)) ∧ ∀ acts i k,
      compile (((th i).drop k).map fun x => (x.1, x.2.1)) = .ok ((run { todo := prog } acts).todo i) →
      ∀ n x, n < k → (th i)[n]? = some x → x.1 = true →
      ∃ pre post, (run { todo := prog } acts).log = pre ++ (i, true, line true x.2.2) :: post ∧
        (pre.filter (·.1 == i)).map (·.2) = ((th i).take n).map (fun x => (x.1, line x.1 x.2.2)) ∧
        (pre.map (·.2.2)).flatten ++ line true x.2.2 <+: (run { todo := prog } acts).out.dev := by
  refine ⟨fun i => codes (th i), fun i => compile_ok _ (hok i), fun acts i k hk n x hn hx h1 => ?_⟩
  have h := run_inv acts _ (init_inv (fun i => codes (th i)) fun i => flushes_codes _)
  generalize run _ acts = s at h hk ⊢
  rw [compile_ok _ fun y hy => hok i y (List.mem_of_mem_drop hy)] at hk
  have hk := Except.ok.inj hk
  have ho := h.own i
  rw [← hk, puts_codes, puts_codes] at ho
  have ho : textsOf i s.log = ((th i).take k).map fun x => (x.1, line x.1 x.2.2) := by
    apply List.append_cancel_right (bs := ((th i).drop k).map fun x => (x.1, line x.1 x.2.2))
    rw [ho, ← List.map_append, List.take_append_drop]
  have hget : (s.log.filter (·.1 == i))[n]? = some (i, true, line true x.2.2) := by
    have e1 : (textsOf i s.log)[n]? = some (true, line true x.2.2) := by
      rw [ho, List.getElem?_map, List.getElem?_take_of_lt hn, hx, Option.map_some, h1]
    unfold textsOf at e1
    rw [List.getElem?_map, Option.map_eq_some_iff] at e1
    obtain ⟨⟨a, b⟩, e2, e3⟩ := e1
    have e4 := (List.mem_filter.mp (List.mem_of_getElem? e2)).2
    have e5 : a = i := by simpa using e4
    dsimp only at e3
    rw [e2, e5, e3]
  obtain ⟨pre, post, e1, e2⟩ := filter_split _ _ _ _ hget
  refine ⟨pre, post, e1, ?_, ?_⟩
  · rw [e2, List.map_take]
    change (textsOf i s.log).take n = _
    rw [ho, ← List.map_take, List.take_take, Nat.min_eq_left (by omega)]
  · rcases h.cov i pre _ post e1 with ⟨g, _⟩ | g
    · rw [← hk] at g
      exact absurd g (codes_head _)
    · exact g

/-- **C106 (failing calls write nothing).** The text is complete before anything of it is written: a call with a format string that has no meaning for the arguments
(and no digit sequence of 2^64 or more) fails its contract without an access to the stream. -/
theorem C106_rejected (ln : Bool) (args : List Arg) (hl : args.length < 2 ^ 31) (hg : ∀ a ∈ args, ∀ sp, a.fmt sp ≠ .error .ub) (f : Formatter) (mem s : List Chr) (hm : CString mem s)
    (hd : ∀ a ds b, s = a ++ (ds ++ b) → (∀ c ∈ ds, Num.Spec.IsDigit c) → Num.Spec.value 0 ds < 2 ^ 64) (h : ¬ ∃ out, Formats true true (toSpec args) s out) :
    (Call.fmt f mem args).micros ln = .error .assert := by
  obtain ⟨h0, rest, rfl⟩ := hm
  rcases Format.C51_reject_partial true true args hl hg s rest hd with ⟨out, g, _⟩ | ⟨_, g⟩
  · exact absurd ⟨out, g⟩ h
  · have : format .default args (s ++ 0#8 :: rest) = .error .assert := by
      unfold format formatTo
      rw [cread_append _ _ h0, R.ok_bind]
      exact g
    simp only [Call.micros, Call.cstring, this, R.error_bind]

/-! ### Witnesses -/

open Verif.Num (txt)
open Verif.Format (echo)

/-- Two threads: the first prints a view and then a formatted line, the second a value and a line from a string. -/
def exTh : Nat → List Item
  | 0 => [(false, .view (txt "ab"), txt "ab"), (true, .cstr (txt "x%%" ++ [0#8]), txt "x%%")]
  | 1 => [(false, .val (echo "" "7"), txt "7"), (true, .str (txt "end") [0#8, 88#8], txt "end")]
  | _ => []

example : ∀ i, ∀ x ∈ exTh i, Item.Ok x := by
  intro i x hx
  match i, hx with
  | 0, hx =>
    rcases List.mem_cons.mp hx with rfl | hx
    · exact ⟨.view _, trivial, by decide +kernel⟩
    · obtain rfl := List.mem_singleton.mp hx
      exact ⟨.cstr ⟨by decide +kernel, [], rfl⟩, trivial, by decide +kernel⟩
  | 1, hx =>
    rcases List.mem_cons.mp hx with rfl | hx
    · exact ⟨.val (by decide +kernel), trivial, by decide +kernel⟩
    · obtain rfl := List.mem_singleton.mp hx
      exact ⟨.str _ _, ⟨_, rfl⟩, by decide +kernel⟩
  | _ + 2, hx => exact nomatch hx

/-- The threads take turns; the library hands over one character in between; the first `println` has returned, the second not yet. -/
example : (run { todo := fun i => codes (exTh i) } [.thread 0, .thread 1, .drain 1, .thread 0, .thread 0, .thread 1]).out = { dev := txt "ab7x%%\n", buf := txt "end\n" } := by decide +kernel

/-- A formatted line by way of a format string. -/
example : (Call.fmt .default (txt "{} is %s!" ++ [0#8]) [echo "" "x", echo "" "y"]).micros true = .ok [.put true (txt "x is y!\n"), .flush] := by decide +kernel

example : (Call.fmt .default (txt "{} is %s!" ++ [0#8]) [echo "" "x"]).micros true = .error .assert := by decide +kernel

/-! ### Where the code violates the property -/

/-- Whatever the overload, the text is cut at its first zero character. -/
theorem C106_zero_cuts : Text (.view [97#8, 0#8, 98#8]) [97#8, 0#8, 98#8] ∧ (Call.view [97#8, 0#8, 98#8]).micros true = .ok (code true [97#8]) ∧
    (Call.str [97#8, 0#8, 98#8] [0#8]).micros true = .ok (code true [97#8]) ∧
    (Call.fmt .default (txt "{}!" ++ [0#8]) [⟨[], fun _ => .ok [97#8, 0#8, 98#8]⟩]).micros true = .ok (code true [97#8]) :=
  ⟨.view _, by decide +kernel, by decide +kernel, by decide +kernel⟩

/-- A string whose end was removed is printed as if it had not been (`remove_suffix` leaves the characters, C46). -/
theorem C106_stale_tail : Text (.str (txt "hel") (txt "lo" ++ [0#8])) (txt "hel") ∧ (Call.str (txt "hel") (txt "lo" ++ [0#8])).micros false = .ok [.put false (txt "hello")] :=
  ⟨.str _ _, by decide +kernel⟩

/-- The formatter given to `print` and `println` is ignored: with the printf-style formatter `{%s}` is a text with braces, but the call fails. -/
theorem C106_formatter_ignored : Text (.fmt .printf (txt "{%s}" ++ [0#8]) [echo "" "5"]) (txt "{5}") ∧
    (Call.fmt .printf (txt "{%s}" ++ [0#8]) [echo "" "5"]).micros false = .error .assert := by
  refine ⟨.fmt (s := txt "{%s}") ⟨by decide +kernel, [], rfl⟩ ?_, by decide +kernel⟩
  have h : Formats true false (toSpec [echo "" "5"]) (txt "{%s}") (txt "{5}") := by
    refine ⟨[.lit 123#8, .printf [115#8], .lit 125#8], [0], ?_, by decide +kernel, ?_, ?_⟩
    · intro p hp
      simp only [List.mem_cons, List.not_mem_nil, or_false] at hp
      rcases hp with rfl | rfl | rfl
      · exact ⟨by decide, fun h => nomatch h⟩
      · refine ⟨rfl, [], [], [], [], 115#8, rfl, fun _ h => (nomatch h), Or.inr ⟨fun _ h => (nomatch h), by decide⟩, Or.inl rfl, ?_, ?_⟩
        · unfold Format.Spec.Length; decide
        · unfold Format.Spec.Conv; decide
      · exact ⟨by decide, fun h => nomatch h⟩
    · exact .lit (Denote.printf (args := toSpec [echo "" "5"]) (t := txt "5") rfl (by decide +kernel) (.lit (.nil _)))
    · intro i hi
      have : i = 0 := by unfold toSpec at hi; simp only [List.map_cons, List.map_nil, List.length_singleton] at hi; omega
      subst this; exact List.mem_cons_self
  exact h

/-- `format_to` into a string ignores its formatter in the same way. -/
theorem C106_format_to_ignores_formatter : formatTo .printf [echo "" "5"] (txt "{%s}" ++ [0#8]) = .ok (txt "{5}") ∧
    formatToString .printf (txt "x = ") [echo "" "5"] (txt "{%s}" ++ [0#8]) = .error .assert := by decide +kernel

/-- A format string without arguments is not a format string: `%%` and `{{` stay as they are. -/
theorem C106_no_arguments_no_escapes : (Call.cstr (txt "100%% {{}}" ++ [0#8])).micros false = .ok [.put false (txt "100%% {{}}")] ∧
    (Call.fmt .default (txt "100%% {{}}{}" ++ [0#8]) [echo "" "!"]).micros false = .ok [.put false (txt "100% {}!")] := by decide +kernel

end Verif.Print
