import Verif.Atom.Spec

/-!
# Atomic operations (C103)
-/
namespace Verif.Atom
open Spec

variable {w : Nat}

theorem call_ok (c : Compiler) (m : Mem w) (op : Op w) : (call c m op).1 = m op.dest ∧ (call c m op).2 op.dest = after (m op.dest) op ∧ ∀ a, a ≠ op.dest → (call c m op).2 a = m a := by
  cases c <;> cases op <;>
    simp only [call, cas, swap, add, or, Op.dest, after, interlockedCompareExchange, syncValCompareAndSwap, interlockedExchange, atomicExchange, interlockedExchangeAdd, syncFetchAndAdd, interlockedOr, syncFetchAndOr]
  all_goals
    refine ⟨trivial, ?_, ?_⟩
    · first
        | (split <;> simp_all [put])
        | simp [put]
    · intro a ha
      first
        | (split <;> simp_all [put])
        | simp [put, ha]

/-- C103: whatever the threads do and in whatever order, the calls on a variable are a chain: the first returns the initial value, each further one what the one before has left, and the last one leaves the final value. Nothing else changes the variable. -/
theorem C103_chain (c : Compiler) (threads : Nat → Thread w) (schedule : List Nat) (m : Mem w) (got : Nat → List (BitVec w)) (d : Nat) :
    Chain (m d) (on d (run c threads schedule m got).1) ((run c threads schedule m got).2 d) := by
  induction schedule generalizing m got with
  | nil => exact .nil _
  | cons t ts ih =>
    unfold run
    cases h : threads t (got t) with
    | none => exact ih m got
    | some op =>
      obtain ⟨h1, h2, h3⟩ := call_ok c m op
      have := ih (call c m op).2 (fun u => if u = t then (call c m op).1 :: got u else got u)
      dsimp only
      unfold on
      by_cases hd : op.dest = d
      · rw [List.filter_cons_of_pos (by simpa using hd)]
        subst hd
        refine .cons h1 ?_
        rw [h2] at this
        exact this
      · rw [List.filter_cons_of_neg (by simpa using hd)]
        rw [h3 d (Ne.symm hd)] at this
        exact this

/-- C103: each call is the one its thread makes next after what it has got. -/
theorem C103_program (c : Compiler) (threads : Nat → Thread w) (schedule : List Nat) (m : Mem w) (got : Nat → List (BitVec w)) (es es' : List (Event w)) (e : Event w)
    (h : (run c threads schedule m got).1 = es ++ e :: es') : threads e.thread (gotBy e.thread es ++ got e.thread) = some e.op := by
  induction schedule generalizing m got es with
  | nil => cases es <;> cases h
  | cons t ts ih =>
    unfold run at h
    cases ht : threads t (got t) with
    | none =>
      rw [ht] at h
      exact ih m got es h
    | some op =>
      rw [ht] at h
      dsimp only at h
      cases es with
      | nil =>
        injection h with h1 h2
        subst h1
        exact ht
      | cons e0 es =>
        injection h with h1 h2
        have := ih _ _ es h2
        subst h1
        unfold gotBy
        rw [List.append_assoc]
        dsimp only at this ⊢
        by_cases he : e.thread = t
        · rw [if_pos he] at this
          rw [if_pos he.symm]
          exact this
        · rw [if_neg he] at this
          rw [if_neg (Ne.symm he)]
          exact this

/-- C103: if only additions are made, no addition is lost, and each returns the sum of those before. -/
theorem C103_add_sum {x y : BitVec w} {es : List (Event w)} (h : Chain x es y) (ha : ∀ e ∈ es, IsAdd e) : y = x + sum es ∧ ∀ es1 e es2, es = es1 ++ e :: es2 → e.result = x + sum es1 := by
  induction h with
  | nil x => exact ⟨(BitVec.add_zero x).symm, fun es1 e es2 he => by cases es1 <;> cases he⟩
  | @cons x y e es hr hc ih =>
    obtain ⟨i1, i2⟩ := ih (fun e' he' => ha e' (List.mem_cons_of_mem _ he'))
    obtain ⟨d, v, hv⟩ := ha e List.mem_cons_self
    rw [hv] at i1 i2
    have ha : after x (.add d v) = x + v := rfl
    rw [ha] at i1 i2
    have hs : ∀ l, sum (e :: l) = v + sum l := fun l => by simp only [sum, hv]
    refine ⟨by rw [hs, ← BitVec.add_assoc]; exact i1, fun es1 e' es2 he => ?_⟩
    cases es1 with
    | nil =>
      injection he with h1 h2
      rw [← h1, hr]
      exact (BitVec.add_zero x).symm
    | cons e1 es1 =>
      injection he with h1 h2
      rw [← h1, hs, ← BitVec.add_assoc]
      exact i2 es1 e' es2 h2

theorem after_one (x : BitVec w) (k : Nat) : x + 1#w + BitVec.ofNat w k = x + BitVec.ofNat w (k + 1) := by
  rw [BitVec.add_assoc]
  congr 1
  apply BitVec.eq_of_toNat_eq
  simp [BitVec.toNat_add, Nat.add_comm]

/-- C103: counting: `n` additions of one return the `n` numbers from the initial value on, in order, whichever threads make them. -/
theorem C103_tickets {x y : BitVec w} {es : List (Event w)} (h : Chain x es y) (ha : ∀ e ∈ es, IsAddOf 1#w e) :
    es.map (·.result) = (List.range es.length).map (fun k => x + BitVec.ofNat w k) ∧ y = x + BitVec.ofNat w es.length := by
  induction h with
  | nil x => exact ⟨rfl, (BitVec.add_zero x).symm⟩
  | @cons x y e es hr hc ih =>
    obtain ⟨i1, i2⟩ := ih (fun e' he' => ha e' (List.mem_cons_of_mem _ he'))
    obtain ⟨d, hv⟩ := ha e List.mem_cons_self
    rw [hv] at i1 i2
    have ha : after x (.add d 1#w) = x + 1#w := rfl
    rw [ha] at i1 i2
    constructor
    · rw [List.map_cons, List.length_cons, List.range_succ_eq_map, List.map_cons, List.map_map, hr, i1]
      congr 1
      · exact (BitVec.add_zero x).symm
      · exact List.map_congr_left fun k _ => after_one x k
    · rw [i2, List.length_cons]
      exact after_one x _

/-- C103: so no two calls get the same number, up to `2^w` calls. -/
theorem C103_tickets_distinct {x y : BitVec w} {es : List (Event w)} (h : Chain x es y) (ha : ∀ e ∈ es, IsAddOf 1#w e) (hn : es.length ≤ 2 ^ w) : (es.map (·.result)).Nodup := by
  rw [(C103_tickets h ha).1, List.nodup_iff_pairwise_ne, List.pairwise_map]
  refine List.Pairwise.imp_of_mem ?_ List.nodup_range
  intro a b h1 h2 hab he
  have h1 := List.mem_range.1 h1
  have h2 := List.mem_range.1 h2
  have := congrArg BitVec.toNat ((BitVec.add_right_inj x).1 he)
  rw [BitVec.toNat_ofNat, BitVec.toNat_ofNat, Nat.mod_eq_of_lt (by omega), Nat.mod_eq_of_lt (by omega)] at this
  exact hab this

/-- C103: if only swaps are made, every value (the initial one included) is returned by exactly one call or is the final one: nothing is lost and nothing is given twice. -/
theorem C103_swap {x y : BitVec w} {es : List (Event w)} (h : Chain x es y) (ha : ∀ e ∈ es, IsSwap e) : x :: swapped es = es.map (·.result) ++ [y] := by
  induction h with
  | nil x => rfl
  | @cons x y e es hr hc ih =>
    have ih := ih (fun e' he' => ha e' (List.mem_cons_of_mem _ he'))
    obtain ⟨d, v, hv⟩ := ha e List.mem_cons_self
    rw [hv] at ih
    have ha : after x (.swap d v) = v := rfl
    rw [ha] at ih
    have hs : swapped (e :: es) = v :: swapped es := by simp only [swapped, hv, List.cons_append, List.nil_append]
    rw [hs, ih, List.map_cons, hr]
    rfl

/-- C103: if only bits are set, the final value has a bit exactly if it was set initially or by a call; -/
theorem C103_or {x y : BitVec w} {es : List (Event w)} (h : Chain x es y) (ha : ∀ e ∈ es, IsOr e) (i : Nat) : y.getLsbD i = true ↔ x.getLsbD i = true ∨ ∃ e ∈ es, SetsBit i e := by
  induction h with
  | nil x => simp
  | @cons x y e es hr hc ih =>
    rw [ih (fun e' he' => ha e' (List.mem_cons_of_mem _ he'))]
    obtain ⟨d, v, hv⟩ := ha e List.mem_cons_self
    rw [hv]
    show (x ||| v).getLsbD i = true ∨ _ ↔ _
    rw [BitVec.getLsbD_or, Bool.or_eq_true, or_assoc]
    have hs : SetsBit i e ↔ v.getLsbD i = true := by
      constructor
      · rintro ⟨d', v', h1, h2⟩
        rw [hv] at h1
        cases h1
        exact h2
      · exact fun h => ⟨d, v, hv, h⟩
    simp [hs]

/-- and a bit that was clear is seen clear by exactly one of the calls that set it: the first one. -/
theorem C103_or_once {x y : BitVec w} {es : List (Event w)} (h : Chain x es y) (ha : ∀ e ∈ es, IsOr e) (i : Nat) (hx : x.getLsbD i = false) (hs : ∃ e ∈ es, SetsBit i e) :
    ∃ es1 e es2, es = es1 ++ e :: es2 ∧ SetsBit i e ∧ e.result.getLsbD i = false ∧ (∀ e' ∈ es1, ¬ SetsBit i e') ∧ ∀ e' ∈ es2, e'.result.getLsbD i = true := by
  have keep : ∀ {x y : BitVec w} {es : List (Event w)}, Chain x es y → (∀ e ∈ es, IsOr e) → x.getLsbD i = true → ∀ e ∈ es, e.result.getLsbD i = true := by
    intro x y es h
    induction h with
    | nil x => intro _ _ e he; cases he
    | @cons x y e es hr hc ih =>
      intro ha hx e' he'
      obtain ⟨d, v, hv⟩ := ha e List.mem_cons_self
      rcases List.mem_cons.1 he' with rfl | he'
      · rw [hr]; exact hx
      · refine ih (fun e he => ha e (List.mem_cons_of_mem _ he)) ?_ e' he'
        rw [hv]
        show (x ||| v).getLsbD i = true
        rw [BitVec.getLsbD_or, hx]
        rfl
  induction h with
  | nil x => obtain ⟨e, he, _⟩ := hs; cases he
  | @cons x y e es hr hc ih =>
    obtain ⟨d, v, hv⟩ := ha e List.mem_cons_self
    have ha' := fun e' he' => ha e' (List.mem_cons_of_mem e he')
    cases hb : v.getLsbD i with
    | true =>
      refine ⟨[], e, es, rfl, ⟨d, v, hv, hb⟩, by rw [hr]; exact hx, (fun _ h => nomatch h), keep hc ha' ?_⟩
      rw [hv]
      show (x ||| v).getLsbD i = true
      rw [BitVec.getLsbD_or, hb, Bool.or_true]
    | false =>
      have hne : ¬ SetsBit i e := by
        rintro ⟨d', v', h1, h2⟩
        rw [hv] at h1
        cases h1
        rw [hb] at h2
        cases h2
      obtain ⟨e', he', hs'⟩ := hs
      have he'' : e' ∈ es := by
        rcases List.mem_cons.1 he' with rfl | h
        · exact absurd hs' hne
        · exact h
      have hx' : (after x e.op).getLsbD i = false := by
        rw [hv]
        show (x ||| v).getLsbD i = false
        rw [BitVec.getLsbD_or, hx, hb]
        rfl
      obtain ⟨es1, f, es2, i1, i2, i3, i4, i5⟩ := ih ha' hx' ⟨e', he'', hs'⟩
      refine ⟨e :: es1, f, es2, by rw [i1]; rfl, i2, i3, ?_, i5⟩
      intro g hg
      rcases List.mem_cons.1 hg with rfl | hg
      · exact hne
      · exact i4 g hg

/-- C103: if all calls try to replace the initial value by another one, exactly the first succeeds, and the others return the value that it has stored, which stays. -/
theorem C103_cas_claim {x y : BitVec w} {e : Event w} {es : List (Event w)} (h : Chain x (e :: es) y) (ha : ∀ e' ∈ e :: es, IsClaim x e') :
    Succeeded e ∧ (∀ e' ∈ es, ¬ Succeeded e' ∧ e'.result = y) ∧ ∃ d, e.op = .cas d x y := by
  have stay : ∀ {z y : BitVec w} {es : List (Event w)}, Chain z es y → (∀ e' ∈ es, IsClaim x e') → z ≠ x → y = z ∧ ∀ e' ∈ es, ¬ Succeeded e' ∧ e'.result = z := by
    intro z y es h
    induction h with
    | nil z => intro _ _; exact ⟨rfl, fun _ h => nomatch h⟩
    | @cons z y e es hr hc ih =>
      intro ha hz
      obtain ⟨d, v, hv, hne⟩ := ha e List.mem_cons_self
      have e1 : after z e.op = z := by
        rw [hv]
        exact if_neg hz
      rw [e1] at ih
      obtain ⟨i1, i2⟩ := ih (fun e' he' => ha e' (List.mem_cons_of_mem _ he')) hz
      refine ⟨i1, fun e' he' => ?_⟩
      rcases List.mem_cons.1 he' with rfl | he'
      · refine ⟨?_, hr⟩
        rintro ⟨d', x', y', h1, h2⟩
        rw [hv] at h1
        cases h1
        exact hz (hr ▸ h2)
      · exact i2 e' he'
  cases h with
  | cons hr hc =>
    obtain ⟨d, v, hv, hne⟩ := ha e List.mem_cons_self
    have e1 : after x e.op = v := by
      rw [hv]
      exact if_pos rfl
    rw [e1] at hc
    obtain ⟨i1, i2⟩ := stay hc (fun e' he' => ha e' (List.mem_cons_of_mem _ he')) hne
    subst i1
    exact ⟨⟨d, x, y, hv, hr⟩, i2, d, hv⟩

/-- C103: counting with compare-and-swap: if all calls try to replace a number by the next one, the final value counts the successful ones, and these return the numbers from the initial one on. -/
theorem C103_cas_count {x y : BitVec w} {es : List (Event w)} (h : Chain x es y) (ha : ∀ e ∈ es, IsIncrement e) :
    y = x + BitVec.ofNat w (es.filter (Succeeded ·)).length ∧
      (es.filter (Succeeded ·)).map (·.result) = (List.range (es.filter (Succeeded ·)).length).map (fun k => x + BitVec.ofNat w k) := by
  induction h with
  | nil x => exact ⟨(BitVec.add_zero x).symm, rfl⟩
  | @cons x y e es hr hc ih =>
    obtain ⟨i1, i2⟩ := ih (fun e' he' => ha e' (List.mem_cons_of_mem _ he'))
    obtain ⟨d, z, hv⟩ := ha e List.mem_cons_self
    by_cases hz : x = z
    · subst hz
      have hs : Succeeded e := ⟨d, x, _, hv, hr⟩
      have e1 : after x e.op = x + 1#w := by rw [hv]; exact if_pos rfl
      rw [e1] at i1 i2
      rw [List.filter_cons_of_pos (by simpa using hs), List.length_cons]
      refine ⟨by rw [i1]; exact after_one x _, ?_⟩
      rw [List.map_cons, List.range_succ_eq_map, List.map_cons, List.map_map, hr, i2]
      congr 1
      · exact (BitVec.add_zero x).symm
      · exact List.map_congr_left fun k _ => after_one x k
    · have hs : ¬ Succeeded e := by
        rintro ⟨d', x', y', h1, h2⟩
        rw [hv] at h1
        cases h1
        exact hz (hr ▸ h2)
      have e1 : after x e.op = x := by rw [hv]; exact if_neg hz
      rw [e1] at i1 i2
      rw [List.filter_cons_of_neg (by simpa using hs)]
      exact ⟨i1, i2⟩

/-! ### Witnesses -/

/-- Two threads: the first takes three tickets, the second one, in some order. -/
def demoThreads : Nat → Thread 8 := fun t got => if t = 0 then (if got.length < 3 then some (.add 5 1#8) else none) else if got.length < 1 then some (.add 5 1#8) else none

example : run .msvc demoThreads [0, 1, 1, 0, 0, 0] (fun _ => 254#8) (fun _ => []) =
    ([⟨0, .add 5 1#8, 254#8⟩, ⟨1, .add 5 1#8, 255#8⟩, ⟨0, .add 5 1#8, 0#8⟩, ⟨0, .add 5 1#8, 1#8⟩], (run .msvc demoThreads [0, 1, 1, 0, 0, 0] (fun _ => 254#8) (fun _ => [])).2) ∧
    (run .msvc demoThreads [0, 1, 1, 0, 0, 0] (fun _ => 254#8) (fun _ => [])).2 5 = 2#8 := ⟨rfl, by decide⟩

/-- Two threads increment with compare-and-swap; the second one fails first and tries again with what it got. -/
def casThread : Thread 32 := fun got => match got with
  | [] => some (.cas 0 7#32 8#32)
  | r :: _ => if r = 7#32 then none else if got.length < 2 then some (.cas 0 r (r + 1#32)) else none

example : (run .other (fun _ => casThread) [0, 1, 1, 0] (fun _ => 7#32) (fun _ => [])).1 = [⟨0, .cas 0 7#32 8#32, 7#32⟩, ⟨1, .cas 0 7#32 8#32, 8#32⟩, ⟨1, .cas 0 8#32 9#32, 8#32⟩] := by decide

example : Chain 7#32 [⟨0, .cas 0 7#32 8#32, 7#32⟩, ⟨1, .cas 0 7#32 9#32, 8#32⟩] 8#32 ∧ ∀ e ∈ [(⟨0, .cas 0 7#32 8#32, 7#32⟩ : Event 32), ⟨1, .cas 0 7#32 9#32, 8#32⟩], IsClaim 7#32 e :=
  ⟨.cons rfl (.cons rfl (.nil _)), by
    intro e he
    simp only [List.mem_cons, List.not_mem_nil, or_false] at he
    rcases he with rfl | rfl
    · exact ⟨0, 8#32, rfl, by decide⟩
    · exact ⟨0, 9#32, rfl, by decide⟩⟩

example : Chain 4#8 [⟨0, .or 0 3#8, 4#8⟩, ⟨1, .or 0 1#8, 7#8⟩] 7#8 ∧ Chain 4#8 [⟨0, .swap 0 3#8, 4#8⟩, ⟨1, .swap 0 1#8, 3#8⟩] 1#8 := ⟨.cons rfl (.cons rfl (.nil _)), .cons rfl (.cons rfl (.nil _))⟩

end Verif.Atom
