import Verif.Chunk.Model

/-! Property theorems for `cc::chunked_buffer`: C24 and C67. -/
namespace Verif.Chunk

variable {α : Type}

/-- Specification: the pushed values in order. -/
def pushed : List (Op α) → List α
  | [] => []
  | .push a :: ops => a :: pushed ops
  | .setChunkSize _ :: ops => pushed ops

/-- Specification: a history is in contract when it sets no chunk size of zero. -/
def InContract (ops : List (Op α)) : Prop := ∀ op ∈ ops, ∀ s, op = .setChunkSize s → 0 < s

/-- Reachable states hold the values `l`. -/
structure Inv (b : CB α) (l : List α) : Prop where
  elems : (b.full.map (·.elems)).flatten ++ (b.curr.elim [] (·.elems)) = l
  fullSize : b.fullSize = (b.full.map (·.elems)).flatten.length
  pos : 0 < b.chunkSize
  curr : ∀ c, b.curr = some c → c.elems ≠ [] ∧ c.elems.length ≤ c.cap
  full : ∀ c ∈ b.full, c.elems ≠ [] ∧ c.elems.length = c.cap
  null : b.curr = none → b.full = []

theorem inv_empty : Inv (CB.empty : CB α) [] := ⟨rfl, rfl, by simp [CB.empty], by simp [CB.empty], by simp [CB.empty], fun _ => rfl⟩

theorem push_ok {b : CB α} {l : List α} (h : Inv b l) (a : α) : ∃ b', emplaceBack b a = .ok b' ∧ Inv b' (l ++ [a]) := by
  obtain ⟨curr, full, fs, cs⟩ := b
  obtain ⟨h1, h2, h3, h4, h5, h6⟩ := h
  simp only at h1 h2 h3 h4 h5 h6
  unfold emplaceBack prepare
  cases curr with
  | none =>
    have e : full = [] := h6 rfl
    subst e
    have hv : isValid (some ({ cap := cs, elems := [] } : Chk α)) = true := by simp [isValid]; omega
    simp only [isValid, Bool.not_false, if_true]
    simp only [isValid] at hv
    rw [ccAssert_true hv]
    refine ⟨_, rfl, ?_, h2, h3, ?_, by simp, by simp⟩
    · simp only [← h1]; rfl
    · intro c hc; simp only [Option.some.injEq] at hc; subst hc; simp; omega
  | some c =>
    obtain ⟨hc1, hc2⟩ := h4 c rfl
    by_cases hf : c.elems.length = c.cap
    · have hv : isValid (some ({ cap := cs, elems := [] } : Chk α)) = true := by simp [isValid]; omega
      have hn : isValid (some c) = false := by simp [isValid, hf]
      simp only [hn, Bool.not_false, if_true]
      rw [ccAssert_true hv]
      refine ⟨_, rfl, ?_, ?_, h3, ?_, ?_, by simp⟩
      · simp only [← h1]; simp
      · simp [h2]
      · intro c hc; simp only [Option.some.injEq] at hc; subst hc; simp; omega
      · intro d hd
        simp only [List.mem_append, List.mem_singleton] at hd
        rcases hd with hd | hd
        · exact h5 d hd
        · subst hd; exact ⟨hc1, hf⟩
    · have hv : isValid (some c) = true := by simp [isValid, hf]
      simp only [hv, Bool.not_true, Bool.false_eq_true, if_false]
      rw [ccAssert_true rfl]
      refine ⟨_, rfl, ?_, h2, h3, ?_, h5, by simp⟩
      · simp only [← h1]; simp
      · intro d hd; simp only [Option.some.injEq] at hd; subst hd; simp; omega

theorem run_ok (ops : List (Op α)) : ∀ {b : CB α} {l : List α}, Inv b l → InContract ops →
    ∃ b', run b ops = .ok b' ∧ Inv b' (l ++ pushed ops) := by
  induction ops with
  | nil => intro b l h _; exact ⟨b, rfl, by simpa [pushed] using h⟩
  | cons op ops ih =>
    intro b l h hc
    have hc' : InContract ops := fun o ho => hc o (List.mem_cons_of_mem _ ho)
    cases op with
    | push a =>
      obtain ⟨b1, e1, h1⟩ := push_ok h a
      obtain ⟨b2, e2, h2⟩ := ih h1 hc'
      refine ⟨b2, ?_, by simpa [pushed] using h2⟩
      simp only [run, step, e1, R.ok_bind, e2]
    | setChunkSize s =>
      have hs := hc _ List.mem_cons_self s rfl
      have h1 : Inv { b with chunkSize := s } l := ⟨h.elems, h.fullSize, hs, h.curr, h.full, h.null⟩
      obtain ⟨b2, e2, h2⟩ := ih h1 hc'
      refine ⟨b2, ?_, by simpa [pushed] using h2⟩
      simp only [run, step, setChunkSize]
      rw [ccAssert_true (by simpa using hs)]
      simp only [R.ok_bind, e2]

theorem chunkLoop_ok (b : CB α) (c : Chk α) (hc : b.curr = some c) (n : Nat) : ∀ k, k + n = b.full.length →
    chunkLoop b (b.full.length : Int) (n + 1) (k : Int) = .ok ((b.full.drop k).map (·.elems) ++ [c.elems]) := by
  induction n with
  | zero =>
    intro k hk
    have hk' : k = b.full.length := by omega
    subst hk'
    rw [chunkLoop, if_pos (by omega)]
    have h0 : chunkLoop b (b.full.length : Int) 0 ((b.full.length : Int) + 1) = .ok [] := by simp [chunkLoop]
    rw [h0]
    simp [chunkDeref, hc]
  | succ n ih =>
    intro k hk
    rw [chunkLoop, if_pos (by omega)]
    have e : chunkDeref b (k : Int) (b.full.length : Int) = .ok (b.full[k]'(by omega)).elems := by
      unfold chunkDeref
      rw [if_neg (by omega), dif_pos (by refine ⟨by omega, ?_⟩; simp; omega)]
      rfl
    have := ih (k + 1) (by omega)
    rw [e]
    simp only [R.ok_bind]
    rw [show (k : Int) + 1 = ((k + 1 : Nat) : Int) by simp, this]
    simp only [R.ok_bind]
    rw [← List.getElem_cons_drop (show k < b.full.length by omega)]
    rfl

theorem chunks_ok {b : CB α} {l : List α} (h : Inv b l) :
    chunks b = .ok (b.full.map (·.elems) ++ (b.curr.elim [] fun c => [c.elems])) := by
  unfold chunks
  cases hc : b.curr with
  | none =>
    rw [h.null hc]
    rfl
  | some c =>
    have := chunkLoop_ok b c hc b.full.length 0 (by omega)
    simpa using this

/-- A history that fills one chunk of two exactly and then one more of size three partly. -/
def demoOps : List (Op Nat) := [.setChunkSize 2, .push 1, .push 2, .setChunkSize 3, .push 3, .push 4]

/-- **C24**, iteration with `chunks()` and `size()`: for every history the non-empty chunks visited, put together, are the pushed
values in order, and `size` is their number. -/
theorem C24_chunks_cover_all (ops : List (Op α)) (hc : InContract ops) :
    ∃ b cs, run CB.empty ops = .ok b ∧ chunks b = .ok cs ∧ cs.flatten = pushed ops ∧ (∀ c ∈ cs, c ≠ []) ∧
      size b = (pushed ops).length := by
  obtain ⟨b, e, h⟩ := run_ok ops inv_empty hc
  rw [List.nil_append] at h
  refine ⟨b, _, e, chunks_ok h, ?_, ?_, ?_⟩
  · rw [← h.elems]
    cases b.curr <;> simp
  · intro c hm
    simp only [List.mem_append, List.mem_map] at hm
    rcases hm with ⟨d, hd, rfl⟩ | hm
    · exact (h.full d hd).1
    · cases hcur : b.curr with
      | none => simp [hcur] at hm
      | some d => simp only [hcur, Option.elim, List.mem_singleton] at hm; subst hm; exact (h.curr d hcur).1
  · rw [← h.elems, size, h.fullSize]
    cases b.curr <;> simp

example : InContract demoOps ∧ (run CB.empty demoOps).bind chunks = .ok [[1, 2], [3, 4]] := by
  refine ⟨?_, by decide +kernel⟩
  intro op ho s e
  subst e
  simp [demoOps] at ho
  omega

/-- A history that sets a chunk size of zero stops at a contract failure. -/
theorem C24_zero_chunk_size_asserts (ops ops' : List (Op α)) (hc : InContract ops) :
    run CB.empty (ops ++ .setChunkSize 0 :: ops') = .error .assert := by
  obtain ⟨b, e, -⟩ := run_ok ops inv_empty hc
  have happ : ∀ (l₁ l₂ : List (Op α)) (b0 b1 : CB α), run b0 l₁ = .ok b1 → run b0 (l₁ ++ l₂) = run b1 l₂ := by
    intro l₁ l₂
    induction l₁ with
    | nil => intro b0 b1 h; simp only [run, Except.ok.injEq] at h; subst h; rfl
    | cons op l ih =>
      intro b0 b1 h
      simp only [run, List.cons_append] at h ⊢
      cases hs : step b0 op with
      | error er => rw [hs] at h; simp at h
      | ok b2 => rw [hs] at h; exact ih b2 b1 h
  rw [happ _ _ _ _ e]
  rfl

/-- The number of values in the last chunk is a full chunk (specification side of the defect): simulated by the fill level only.
`fill` is `(used, capacity)` of the current chunk, `(0, 0)` before the first push. -/
def lastFill : Nat × Nat × Nat → List (Op α) → Nat × Nat × Nat
  | s, [] => s
  | (used, cap, size), .push _ :: ops => if used = cap then lastFill (1, size, size) ops else lastFill (used + 1, cap, size) ops
  | (used, cap, _), .setChunkSize n :: ops => lastFill (used, cap, n) ops

theorem lastFill_ok (ops : List (Op α)) : ∀ {b b' : CB α} {l : List α}, Inv b l → InContract ops → run b ops = .ok b' →
    lastFill (b.curr.elim 0 (·.elems.length), b.curr.elim 0 (·.cap), b.chunkSize) ops =
      (b'.curr.elim 0 (·.elems.length), b'.curr.elim 0 (·.cap), b'.chunkSize) := by
  induction ops with
  | nil => intro b b' l _ _ h; simp only [run, Except.ok.injEq] at h; subst h; rfl
  | cons op ops ih =>
    intro b b' l h hc hr
    have hc' : InContract ops := fun o ho => hc o (List.mem_cons_of_mem _ ho)
    cases op with
    | push a =>
      obtain ⟨b1, e1, h1⟩ := push_ok h a
      simp only [run, step, e1, R.ok_bind] at hr
      rw [← ih h1 hc' hr, lastFill]
      unfold emplaceBack prepare at e1
      obtain ⟨curr, full, fs, cs⟩ := b
      cases curr with
      | none =>
        simp only [isValid, Bool.not_false, if_true] at e1
        rw [ccAssert_true (by have := h.pos; simp at this ⊢; omega)] at e1
        simp only [R.ok_bind, Except.ok.injEq] at e1
        subst e1
        simp
      | some c =>
        by_cases hf : c.elems.length = c.cap
        · have hn : isValid (some c) = false := by simp [isValid, hf]
          simp only [hn, Bool.not_false, if_true] at e1
          rw [ccAssert_true (by have := h.pos; simp [isValid] at this ⊢; omega)] at e1
          simp only [R.ok_bind, Except.ok.injEq] at e1
          subst e1
          simp [hf]
        · have hv : isValid (some c) = true := by simp [isValid, hf]
          simp only [hv, Bool.not_true, Bool.false_eq_true, if_false] at e1
          rw [ccAssert_true rfl] at e1
          simp only [R.ok_bind, Except.ok.injEq] at e1
          subst e1
          simp [hf]
    | setChunkSize s =>
      have hs := hc _ List.mem_cons_self s rfl
      have h1 : Inv { b with chunkSize := s } l := ⟨h.elems, h.fullSize, hs, h.curr, h.full, h.null⟩
      simp only [run, step, setChunkSize] at hr
      rw [ccAssert_true (by simpa using hs)] at hr
      simp only [R.ok_bind] at hr
      exact ih h1 hc' hr

/-- **C24 (partial).** `for_each_chunk` visits all pushed values exactly once in insertion order if the last chunk is not exactly
full. Missing: the case of an exactly full last chunk, where it is false (next theorems). -/
theorem C24_for_each_chunk_partial (ops : List (Op α)) (hc : InContract ops) (used cap size : Nat)
    (hf : lastFill (0, 0, 1024) ops = (used, cap, size)) (hne : used ≠ cap ∨ pushed ops = []) :
    ∃ b, run CB.empty ops = .ok b ∧ (forEachChunk b).flatten = pushed ops := by
  obtain ⟨b, e, h⟩ := run_ok ops inv_empty hc
  have hl := lastFill_ok ops inv_empty hc e
  rw [List.nil_append] at h
  refine ⟨b, e, ?_⟩
  simp only [CB.empty, Option.elim] at hl
  rw [hf] at hl
  rw [← h.elems, forEachChunk]
  cases hcur : b.curr with
  | none => simp [isValid]
  | some c =>
    simp only [hcur, Prod.mk.injEq, Option.elim] at hl
    rcases hne with hne | hne
    · have hv : isValid (some c) = true := by simp [isValid]; omega
      simp [hv]
    · exfalso
      have := h.elems
      rw [hne, hcur] at this
      exact (h.curr c hcur).1 (by simpa using (List.append_eq_nil_iff.1 this).2)

example : lastFill (0, 0, 1024) demoOps = (2, 3, 3) ∧ (2 ≠ 3 ∨ pushed demoOps = []) := by decide

/-- **C24**, the defect: whenever the last chunk is exactly full, `for_each_chunk` skips all of its (at least one) elements. -/
theorem C24_for_each_chunk_skips_full_chunk (ops : List (Op α)) (hc : InContract ops) (n size : Nat)
    (hf : lastFill (0, 0, 1024) ops = (n, n, size)) :
    ∃ b, run CB.empty ops = .ok b ∧ (forEachChunk b).flatten = (pushed ops).take ((pushed ops).length - n) ∧
      (pushed ops ≠ [] → 0 < n ∧ n ≤ (pushed ops).length) := by
  obtain ⟨b, e, h⟩ := run_ok ops inv_empty hc
  have hl := lastFill_ok ops inv_empty hc e
  rw [List.nil_append] at h
  refine ⟨b, e, ?_⟩
  simp only [CB.empty, Option.elim] at hl
  rw [hf] at hl
  rw [← h.elems, forEachChunk]
  cases hcur : b.curr with
  | none => simp [isValid, h.null hcur]
  | some c =>
    simp only [hcur, Prod.mk.injEq, Option.elim] at hl
    have hv : isValid (some c) = false := by simp [isValid]; omega
    have h0 := (h.curr c hcur).1
    have hpos := List.length_pos_iff.2 h0
    refine ⟨?_, fun _ => ⟨by omega, by simp; omega⟩⟩
    simp only [hv, Bool.false_eq_true, if_false, List.append_nil, Option.elim]
    rw [hl.1, List.length_append, Nat.add_sub_cancel, List.take_left]

/-- The defect with the default chunk size: after 1024 pushes `for_each_chunk` visits nothing. -/
theorem C24_for_each_chunk_default_size (a : α) :
    ∃ b, run CB.empty (List.replicate 1024 (.push a)) = .ok b ∧ (forEachChunk b).flatten = [] ∧ size b = 1024 := by
  have hc : InContract (List.replicate 1024 (Op.push a)) := by
    intro op ho s e
    rw [(List.mem_replicate.1 ho).2] at e
    simp at e
  have hp : ∀ n, pushed (List.replicate n (Op.push a)) = List.replicate n a := by
    intro n
    induction n with
    | zero => rfl
    | succ n ih => simp only [List.replicate_succ, pushed, ih]
  have hfill : ∀ n k, 0 < k → k + n ≤ 1024 → lastFill (k, 1024, 1024) (List.replicate n (Op.push a)) = (k + n, 1024, 1024) := by
    intro n
    induction n with
    | zero => intro k _ _; rfl
    | succ n ih =>
      intro k h1 h2
      rw [List.replicate_succ, lastFill, if_neg (by omega), ih (k + 1) (by omega) (by omega)]
      congr 1; omega
  have hf : lastFill (0, 0, 1024) (List.replicate 1024 (Op.push a)) = (1024, 1024, 1024) := by
    rw [List.replicate_succ, lastFill, if_pos rfl, hfill 1023 1 (by omega) (by omega)]
  obtain ⟨b, e, h, -⟩ := C24_for_each_chunk_skips_full_chunk _ hc _ _ hf
  obtain ⟨b', cs, e', -, -, -, h2⟩ := C24_chunks_cover_all _ hc
  rw [e] at e'
  simp only [Except.ok.injEq] at e'
  subst e'
  rw [hp] at h h2
  exact ⟨b, e, by rw [h, List.length_replicate, Nat.sub_self, List.take_zero], by rw [h2, List.length_replicate]⟩

/-- **C67 (partial).** The destructor leaks nothing if the element type is trivially destructible or nothing was pushed. -/
theorem C67_chunked_buffer_lifetimes_partial (triv : Bool) (ops : List (Op α)) (hc : InContract ops)
    (h : triv = true ∨ pushed ops = []) : ∃ b, run CB.empty ops = .ok b ∧ dtorLeak triv b = 0 := by
  obtain ⟨b, e, hi⟩ := run_ok ops inv_empty hc
  refine ⟨b, e, ?_⟩
  unfold dtorLeak
  rcases h with rfl | h
  · rfl
  · rw [h] at hi
    have := congrArg List.length hi.elems
    split
    · rfl
    · cases hb : b.curr with
      | none => simp [hi.null hb]
      | some c =>
        rw [hb] at this
        simp [List.length_flatten, List.map_map] at this
        exact absurd this.2 (hi.curr c hb).1

/-- **C67**, the defect: for a type with a destructor, the destructor of the buffer leaves every single element undestroyed. -/
theorem C67_chunked_buffer_never_destroys (ops : List (Op α)) (hc : InContract ops) :
    ∃ b, run CB.empty ops = .ok b ∧ dtorLeak false b = (pushed ops).length := by
  obtain ⟨b, e, hi⟩ := run_ok ops inv_empty hc
  refine ⟨b, e, ?_⟩
  rw [List.nil_append] at hi
  rw [← hi.elems]
  unfold dtorLeak
  cases hb : b.curr <;> simp [List.length_flatten, List.map_map, Function.comp_def]

example : (run CB.empty demoOps).map (dtorLeak false) = .ok 4 := by decide +kernel

end Verif.Chunk
