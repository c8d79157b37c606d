import Verif.FList.Spec

/-! Property theorems for `forward_list`: C62. -/
namespace Verif.FList

variable {α : Type}

/-! ### Chains of nodes -/

/-- From `p` the nodes `ns` with values `l` are reached, and then null. -/
def Chain (h : Heap α) : Option Nat → List Nat → List α → Prop
  | none, [], [] => True
  | some p, n :: ns, v :: l => p = n ∧ ∃ q, h[p]? = some (some { value := v, next := q }) ∧ Chain h q ns l
  | _, _, _ => False

theorem Chain.nil_inv {h : Heap α} {p : Option Nat} {ns : List Nat} (c : Chain h p ns []) : p = none ∧ ns = [] := by
  cases p <;> cases ns <;> simp_all [Chain]

theorem Chain.none_inv {h : Heap α} {ns : List Nat} {l : List α} (c : Chain h none ns l) : ns = [] ∧ l = [] := by
  cases ns <;> cases l <;> simp_all [Chain]

theorem Chain.cons_inv {h : Heap α} {p : Option Nat} {ns : List Nat} {v : α} {l : List α} (c : Chain h p ns (v :: l)) :
    ∃ a ms q, p = some a ∧ ns = a :: ms ∧ h[a]? = some (some { value := v, next := q }) ∧ Chain h q ms l := by
  cases p with
  | none => cases ns <;> simp [Chain] at c
  | some a =>
    cases ns with
    | nil => simp [Chain] at c
    | cons n ms =>
      obtain ⟨e, q, h1, h2⟩ := c
      exact ⟨a, ms, q, rfl, by rw [e], h1, h2⟩

theorem Chain.some_inv {h : Heap α} {a : Nat} {ns : List Nat} {l : List α} (c : Chain h (some a) ns l) :
    ∃ ms v m q, ns = a :: ms ∧ l = v :: m ∧ h[a]? = some (some { value := v, next := q }) ∧ Chain h q ms m := by
  cases l with
  | nil => have := c.nil_inv; simp at this
  | cons v l =>
    obtain ⟨b, ms, q, e1, e2, e3, e4⟩ := c.cons_inv
    cases e1
    exact ⟨ms, v, l, q, e2, rfl, e3, e4⟩

theorem Chain.length {h : Heap α} {p : Option Nat} {ns : List Nat} {l : List α} (c : Chain h p ns l) : ns.length = l.length := by
  induction l generalizing p ns with
  | nil => rw [c.nil_inv.2]; rfl
  | cons v l ih => obtain ⟨_, ms, q, _, rfl, _, c'⟩ := c.cons_inv; simp [ih c']

theorem Chain.live {h : Heap α} {p : Option Nat} {ns : List Nat} {l : List α} (c : Chain h p ns l) {x : Nat} (hx : x ∈ ns) :
    ∃ n, h[x]? = some (some n) := by
  induction l generalizing p ns with
  | nil => rw [c.nil_inv.2] at hx; simp at hx
  | cons v l ih =>
    obtain ⟨a, ms, q, _, rfl, e, c'⟩ := c.cons_inv
    rcases List.mem_cons.1 hx with rfl | hx
    · exact ⟨_, e⟩
    · exact ih c' hx

theorem Chain.frame {h h' : Heap α} {p : Option Nat} {ns : List Nat} {l : List α} (c : Chain h p ns l)
    (hf : ∀ x ∈ ns, h'[x]? = h[x]?) : Chain h' p ns l := by
  induction l generalizing p ns with
  | nil => obtain ⟨rfl, rfl⟩ := c.nil_inv; trivial
  | cons v l ih =>
    obtain ⟨a, ms, q, rfl, rfl, e, c'⟩ := c.cons_inv
    exact ⟨rfl, q, by rw [hf a List.mem_cons_self, e], ih c' (fun x hx => hf x (List.mem_cons_of_mem _ hx))⟩

theorem live_lt {h : Heap α} {x : Nat} {n : Node α} (e : h[x]? = some (some n)) : x < h.length := by
  obtain ⟨h1, _⟩ := List.getElem?_eq_some_iff.1 e
  exact h1

theorem nodup_len {n : Nat} : ∀ {ns : List Nat}, ns.Nodup → (∀ x ∈ ns, x < n) → ns.length ≤ n := by
  induction n with
  | zero =>
    intro ns _ h
    cases ns with
    | nil => simp
    | cons a _ => have := h a List.mem_cons_self; omega
  | succ n ih =>
    intro ns hd h
    have h1 := ih (ns := ns.erase n) (hd.erase n) (by
      intro x hx
      have := h x (List.mem_of_mem_erase hx)
      have := (List.Nodup.mem_erase_iff hd).1 hx
      omega)
    have := List.length_erase (a := n) (l := ns)
    split at this <;> omega

theorem Chain.fuel {h : Heap α} {p : Option Nat} {ns : List Nat} {l : List α} (c : Chain h p ns l) (hd : ns.Nodup) :
    l.length < h.length + 1 := by
  rw [← c.length]
  have := nodup_len (n := h.length) hd (fun x hx => by obtain ⟨n, e⟩ := c.live hx; exact live_lt e)
  omega

theorem deref_ok {h : Heap α} {a : Nat} {n : Node α} (e : h[a]? = some (some n)) : deref h (some a) = .ok (a, n) := by
  simp [deref, e]

theorem sizeLoop_ok {h : Heap α} (n : Nat) : ∀ {p : Option Nat} {ns : List Nat} {l : List α} {s : Nat}, Chain h p ns l → l.length < n →
    sizeLoop h p s n = .ok (s + l.length) := by
  induction n with
  | zero => intro p ns l s _ hn; omega
  | succ n ih =>
    intro p ns l s c hn
    cases l with
    | nil => obtain ⟨rfl, rfl⟩ := c.nil_inv; rfl
    | cons v l =>
      obtain ⟨a, ms, q, rfl, rfl, e, c'⟩ := c.cons_inv
      rw [sizeLoop]
      simp only [deref_ok e, R.ok_bind]
      rw [ih c' (by simp at hn; omega)]
      simp; omega

theorem iterLoop_ok {h : Heap α} (n : Nat) : ∀ {p : Option Nat} {ns : List Nat} {l : List α}, Chain h p ns l → l.length < n →
    iterLoop h p n = .ok l := by
  induction n with
  | zero => intro p ns l _ hn; omega
  | succ n ih =>
    intro p ns l c hn
    cases l with
    | nil => obtain ⟨rfl, rfl⟩ := c.nil_inv; rfl
    | cons v l =>
      obtain ⟨a, ms, q, rfl, rfl, e, c'⟩ := c.cons_inv
      rw [iterLoop]
      simp only [deref_ok e, R.ok_bind]
      rw [ih c' (by simp at hn; omega)]
      rfl

theorem getElem?_set' {β : Type} {l : List β} {i : Nat} {b : β} (h : i < l.length) (j : Nat) :
    (l.set i b)[j]? = if j = i then some b else l[j]? := by
  rw [List.getElem?_set]
  by_cases e : i = j
  · subst e; simp [h]
  · rw [if_neg e, if_neg (fun h' => e h'.symm)]

theorem clearLoop_ok (n : Nat) : ∀ {h : Heap α} {p : Option Nat} {ns : List Nat} {l : List α}, Chain h p ns l → ns.Nodup → l.length < n →
    ∃ h', clearLoop h p n = .ok h' ∧ h'.length = h.length ∧ ∀ x, h'[x]? = if x ∈ ns then some none else h[x]? := by
  induction n with
  | zero => intro h p ns l _ _ hn; omega
  | succ n ih =>
    intro h p ns l c hd hn
    cases l with
    | nil => obtain ⟨rfl, rfl⟩ := c.nil_inv; exact ⟨h, rfl, rfl, by simp⟩
    | cons v l =>
      obtain ⟨a, ms, q, rfl, rfl, e, c'⟩ := c.cons_inv
      rw [List.nodup_cons] at hd
      have ha := live_lt e
      have c'' : Chain (h.set a none) q ms l := c'.frame (fun x hx => by
        have hne : x ≠ a := fun h' => hd.1 (h' ▸ hx)
        rw [getElem?_set' ha, if_neg hne])
      obtain ⟨h', e1, e2, e3⟩ := ih c'' hd.2 (by simp at hn; omega)
      refine ⟨h', ?_, by rw [e2, List.length_set], ?_⟩
      · rw [clearLoop]
        simp only [deref_ok e, R.ok_bind, free]
        exact e1
      · intro x
        rw [e3, getElem?_set' ha]
        by_cases h1 : x ∈ ms
        · simp [h1]
        · by_cases h2 : x = a <;> simp [h1, h2]

theorem clear_ok {h : Heap α} {p : Option Nat} {ns : List Nat} {l : List α} (c : Chain h p ns l) (hd : ns.Nodup) :
    ∃ h', clear h p = .ok h' ∧ h'.length = h.length ∧ ∀ x, h'[x]? = if x ∈ ns then some none else h[x]? :=
  clearLoop_ok _ c hd (c.fuel hd)

theorem alloc_get (h : Heap α) (v : α) (x : Nat) :
    (alloc h v)[x]? = if x = h.length then some (some { value := v, next := none }) else h[x]? := by
  unfold alloc
  rcases Nat.lt_trichotomy x h.length with h1 | h1 | h1
  · rw [List.getElem?_append_left h1, if_neg (by omega)]
  · subst h1; simp
  · rw [List.getElem?_eq_none (by simp; omega), if_neg (by omega), List.getElem?_eq_none (by omega)]

theorem setNext_ok {h : Heap α} {p : Nat} {n : Node α} (e : h[p]? = some (some n)) (q : Option Nat) :
    setNext h p q = .ok (h.set p (some { value := n.value, next := q })) := by
  simp [setNext, deref_ok e]

/-- A chain that ends at node `last`, to which nodes can be attached. -/
theorem Chain.snoc {h h' : Heap α} {p : Option Nat} {ns : List Nat} {l : List α} {a : Nat} {v w : α} {b : Nat}
    (c : Chain h p (ns ++ [a]) (l ++ [v])) (hd : (ns ++ [a]).Nodup) (hf : ∀ x ∈ ns, h'[x]? = h[x]?)
    (ha : h'[a]? = some (some { value := v, next := some b })) (hb : h'[b]? = some (some { value := w, next := none })) :
    Chain h' p (ns ++ [a] ++ [b]) (l ++ [v] ++ [w]) := by
  induction ns generalizing p l with
  | nil =>
    cases l with
    | nil =>
      obtain ⟨a', ms, q, rfl, e2, _, _⟩ := Chain.cons_inv (by simpa using c)
      simp at e2
      obtain ⟨rfl, rfl⟩ := e2
      exact ⟨rfl, _, ha, rfl, _, hb, trivial⟩
    | cons x l =>
      have := c.length
      simp at this
  | cons n ns ih =>
    cases l with
    | nil => have := c.length; simp at this
    | cons x l =>
      change Chain h p (n :: (ns ++ [a])) (x :: (l ++ [v])) at c
      change Chain h' p (n :: (ns ++ [a] ++ [b])) (x :: (l ++ [v] ++ [w]))
      obtain ⟨a', ms, q, rfl, e2, e3, c'⟩ := c.cons_inv
      simp only [List.cons.injEq] at e2
      obtain ⟨rfl, rfl⟩ := e2
      simp only [List.cons_append, List.nodup_cons] at hd
      exact ⟨rfl, q, by rw [hf n List.mem_cons_self, e3], ih c' hd.2 (fun x hx => hf x (List.mem_cons_of_mem _ hx))⟩

/-- The last node of a chain has no successor. -/
theorem Chain.last {h : Heap α} {p : Option Nat} {ns : List Nat} {l : List α} {a : Nat} {v : α} (c : Chain h p (ns ++ [a]) (l ++ [v])) :
    h[a]? = some (some { value := v, next := none }) := by
  induction ns generalizing p l with
  | nil =>
    cases l with
    | nil =>
      obtain ⟨a', ms, q, rfl, e2, e3, c'⟩ := Chain.cons_inv (by simpa using c)
      simp at e2
      obtain ⟨rfl, rfl⟩ := e2
      rw [e3, c'.nil_inv.1]
    | cons x l => have := c.length; simp at this
  | cons n ns ih =>
    cases l with
    | nil => have := c.length; simp at this
    | cons x l =>
      obtain ⟨a', ms, q, rfl, e2, e3, c'⟩ := Chain.cons_inv c
      change n :: (ns ++ [a]) = a' :: ms at e2
      simp only [List.cons.injEq] at e2
      obtain ⟨rfl, rfl⟩ := e2
      exact ih c'

/-- The copy loop: the source chain `ns`/`l` is read, the chain `ms`/`done` built so far (all of it in cells behind `n0`) is extended. -/
theorem copyLoop_ok {n0 : Nat} (n : Nat) : ∀ {h : Heap α} {first rn : Option Nat} {ns ms : List Nat} {l done : List α},
    Chain h rn ns l → Chain h first ms done → (∀ x ∈ ns, x < n0) → (∀ x ∈ ms, n0 ≤ x) → ms.Nodup → n0 ≤ h.length → l.length < n →
    ∃ h' f ms', copyLoop h first ms.getLast? rn n = .ok (h', f) ∧ Chain h' f ms' (done ++ l) ∧ ms'.Nodup ∧ (∀ x ∈ ms', n0 ≤ x) ∧
      (∀ x, x < n0 → h'[x]? = h[x]?) ∧ (∀ x, n0 ≤ x → x ∉ ms' → x ∉ ms → h'[x]? = h[x]?) ∧ (∀ x ∈ ms, x ∈ ms') := by
  induction n with
  | zero => intro h first rn ns ms l done _ _ _ _ _ _ hn; omega
  | succ n ih =>
    intro h first rn ns ms l done c1 c2 hns hms hd hlen hn
    cases l with
    | nil =>
      obtain ⟨rfl, rfl⟩ := c1.nil_inv
      exact ⟨h, first, ms, rfl, by simpa using c2, hd, hms, fun _ _ => rfl, fun _ _ _ _ => rfl, fun x hx => hx⟩
    | cons v l =>
      obtain ⟨a, rest, q, rfl, rfl, e, c1'⟩ := c1.cons_inv
      have hane : ∀ x ∈ a :: rest, x ≠ h.length := fun x hx => by have := hns x hx; omega
      have hmlt : ∀ x ∈ ms, x < h.length := fun x hx => by obtain ⟨nn, e⟩ := c2.live hx; exact live_lt e
      have hmn : h.length ∉ ms := fun hx => by have := hmlt _ hx; omega
      rw [copyLoop]
      simp only [deref_ok e, R.ok_bind]
      -- the new heap after allocation and linking
      have key : ∃ h2 f2, link (alloc h v) first ms.getLast? h.length = .ok (h2, f2) ∧ h.length < h2.length ∧
          Chain h2 f2 (ms ++ [h.length]) (done ++ [v]) ∧ (∀ x, x ∉ ms → x ≠ h.length → h2[x]? = h[x]?) := by
        rcases List.eq_nil_or_concat ms with rfl | ⟨ms0, b, rfl⟩
        · have hdone : done = [] := by
            have := c2.length; simp at this; exact List.length_eq_zero_iff.1 this.symm
          subst hdone
          refine ⟨alloc h v, some h.length, rfl, by simp [alloc], ?_, ?_⟩
          · exact ⟨rfl, none, by rw [alloc_get, if_pos rfl], trivial⟩
          · intro x _ hx
            rw [alloc_get, if_neg hx]
        · rcases List.eq_nil_or_concat done with rfl | ⟨d0, u, rfl⟩
          · have := c2.length; simp at this
          · simp only [List.concat_eq_append] at *
            have hb := c2.last
            have hblt := live_lt hb
            have hb2 : (alloc h v)[b]? = some (some { value := u, next := none }) := by
              rw [alloc_get, if_neg (by omega), hb]
            have hla : b < (alloc h v).length := by simp [alloc]; omega
            refine ⟨(alloc h v).set b (some { value := u, next := some h.length }), first, ?_, by simp [alloc], ?_, ?_⟩
            · rw [List.getLast?_append]
              simp [link, setNext_ok hb2]
            · apply c2.snoc hd
              · intro x hx
                have hxb : x ≠ b := by
                  intro h'
                  rw [List.nodup_append] at hd
                  exact hd.2.2 x hx b (by simp) h'
                have := hmlt x (by simp [hx])
                rw [getElem?_set' hla, if_neg hxb, alloc_get, if_neg (by omega)]
              · rw [getElem?_set' hla, if_pos rfl]
              · rw [getElem?_set' hla, if_neg (by omega), alloc_get, if_pos rfl]
            · intro x h1 h2
              simp at h1
              rw [getElem?_set' hla, if_neg h1.2, alloc_get, if_neg h2]
      obtain ⟨h2, f2, e1, hl2, c3, hf⟩ := key
      have hdisj : ∀ x ∈ a :: rest, x ∉ ms := fun x hx hx' => by have := hns x hx; have := hms x hx'; omega
      have c1'' : Chain h2 (some a) (a :: rest) (v :: l) := c1.frame (fun x hx => hf x (hdisj x hx) (hane x hx))
      obtain ⟨_, _, q', e2, e3, e4, c5⟩ := c1''.cons_inv
      simp at e2 e3
      obtain ⟨rfl, rfl⟩ := e3
      simp only [e1, R.ok_bind, deref_ok e4]
      have hgl : (ms ++ [h.length]).getLast? = some h.length := by simp
      rw [← hgl]
      obtain ⟨h', f, ms', r1, r2, r3, r4, r5, r6, r7⟩ := ih c5 c3 (fun x hx => hns x (List.mem_cons_of_mem _ hx))
        (by intro x hx; rcases List.mem_append.1 hx with hx | hx
            · exact hms x hx
            · simp at hx; omega)
        (by rw [List.nodup_append]; refine ⟨hd, by simp, ?_⟩; intro x hx y hy h'; simp at hy; exact hmn (by rw [← hy, ← h']; exact hx))
        (by omega) (by simp at hn; omega)
      refine ⟨h', f, ms', r1, by simpa using r2, r3, r4, ?_, ?_, ?_⟩
      · intro x hx
        rw [r5 x hx, hf x (fun hx' => by have := hms x hx'; omega) (by omega)]
      · intro x hx1 hx2 hx3
        have hxh : x ≠ h.length := fun h' => hx2 (r7 x (by simp [h']))
        rw [r6 x hx1 hx2 (by simp [hx3, hxh]), hf x hx3 hxh]
      · intro x hx
        exact r7 x (by simp [hx])

theorem copyCtor_ok {h : Heap α} {rn : Option Nat} {ns : List Nat} {l : List α} (c : Chain h rn ns l) (hd : ns.Nodup) :
    ∃ h' f ms, copyCtor h rn = .ok (h', f) ∧ Chain h' f ms l ∧ ms.Nodup ∧ (∀ x ∈ ms, h.length ≤ x) ∧
      (∀ x, x ∉ ms → h'[x]? = h[x]?) := by
  obtain ⟨h', f, ms, e1, e2, e3, e4, e5, e6, _⟩ := copyLoop_ok (n0 := h.length) (h.length + 1) (first := none) (ms := []) (done := []) c
    trivial (fun x hx => by obtain ⟨n, e⟩ := c.live hx; exact live_lt e) (by simp) (by simp) (Nat.le_refl _) (c.fuel hd)
  refine ⟨h', f, ms, e1, by simpa using e2, e3, e4, ?_⟩
  intro x hx
  rcases Nat.lt_or_ge x h.length with h1 | h1
  · exact e5 x h1
  · exact e6 x h1 hx (by simp)

/-! ### The invariant -/

/-- Object `i` holds the chain `N i` with the specified values; the chains are disjoint and cover all live nodes. -/
structure Inv (w : World α) (s : Spec.State α) (N : Nat → List Nat) : Prop where
  objs : ∀ i, match s i with
    | none => w.objs i = none ∧ N i = []
    | some l => ∃ p, w.objs i = some p ∧ Chain w.heap p (N i) l
  nodup : ∀ i, (N i).Nodup
  disj : ∀ i j x, i ≠ j → x ∈ N i → x ∉ N j
  cover : ∀ x n, w.heap[x]? = some (some n) → ∃ i, x ∈ N i

theorem Inv.none {w : World α} {s : Spec.State α} {N : Nat → List Nat} (I : Inv w s N) {i : Nat} (h : s i = none) :
    w.objs i = none ∧ N i = [] := by have := I.objs i; rw [h] at this; exact this

theorem Inv.some {w : World α} {s : Spec.State α} {N : Nat → List Nat} (I : Inv w s N) {i : Nat} {l : List α} (h : s i = some l) :
    ∃ p, w.objs i = some p ∧ Chain w.heap p (N i) l := by have := I.objs i; rw [h] at this; exact this

theorem upd_same {β : Type} (f : Nat → β) (i : Nat) (b : β) : upd f i b i = b := by simp [upd]

theorem upd_other {β : Type} (f : Nat → β) {i j : Nat} (b : β) (h : j ≠ i) : upd f i b j = f j := by simp [upd, h]

/-- Changing one object: its new chain uses its old nodes or fresh ones; all other nodes are untouched. -/
theorem Inv.change {w : World α} {s : Spec.State α} {N : Nat → List Nat} (I : Inv w s N) {i : Nat} {h' : Heap α} {p : Option (Option Nat)}
    {l : Option (List α)} {ns : List Nat}
    (hobj : match l with | Option.none => p = Option.none ∧ ns = [] | Option.some l => ∃ q, p = Option.some q ∧ Chain h' q ns l)
    (hnd : ns.Nodup) (hfresh : ∀ x ∈ ns, x ∈ N i ∨ ∀ j, x ∉ N j)
    (hframe : ∀ x, x ∉ ns → x ∉ N i → h'[x]? = w.heap[x]?)
    (hfreed : ∀ x ∈ N i, x ∉ ns → ∀ n, h'[x]? ≠ Option.some (Option.some n)) :
    Inv { heap := h', objs := upd w.objs i p } (upd s i l) (upd N i ns) := by
  have hother : ∀ j, j ≠ i → ∀ x ∈ N j, x ∉ ns ∧ x ∉ N i := by
    intro j hj x hx
    refine ⟨?_, I.disj j i x hj hx⟩
    intro hx'
    rcases hfresh x hx' with h1 | h1
    · exact I.disj j i x hj hx h1
    · exact h1 j hx
  refine ⟨?_, ?_, ?_, ?_⟩
  · intro j
    by_cases hj : j = i
    · subst hj
      simp only [upd_same]
      exact hobj
    · simp only [upd_other _ _ hj]
      have := I.objs j
      revert this
      cases s j with
      | none => exact id
      | some m =>
        rintro ⟨q, e1, c⟩
        exact ⟨q, e1, c.frame (fun x hx => hframe x (hother j hj x hx).1 (hother j hj x hx).2)⟩
  · intro j
    by_cases hj : j = i
    · subst hj; rw [upd_same]; exact hnd
    · rw [upd_other _ _ hj]; exact I.nodup j
  · intro j k x hjk hx hx'
    by_cases hj : j = i
    · subst hj
      rw [upd_same] at hx
      rw [upd_other _ _ (fun h => hjk h.symm)] at hx'
      exact (hother k (fun h => hjk h.symm) x hx').1 hx
    · rw [upd_other _ _ hj] at hx
      by_cases hk : k = i
      · subst hk
        rw [upd_same] at hx'
        exact (hother j hj x hx).1 hx'
      · rw [upd_other _ _ hk] at hx'
        exact I.disj j k x hjk hx hx'
  · intro x n e
    by_cases hx : x ∈ ns
    · exact ⟨i, by rw [upd_same]; exact hx⟩
    · by_cases hx2 : x ∈ N i
      · exact absurd e (hfreed x hx2 hx n)
      · rw [hframe x hx hx2] at e
        obtain ⟨j, hj⟩ := I.cover x n e
        have : j ≠ i := fun h => hx2 (h ▸ hj)
        exact ⟨j, by rw [upd_other _ _ this]; exact hj⟩

/-- The assignments covered by the partial theorem. -/
def NotSelf : Op α → Prop
  | .copyAssign i j => i ≠ j
  | .moveAssign i j => i ≠ j
  | _ => True

/-- Clearing object `i`. -/
theorem Inv.clear {w : World α} {s : Spec.State α} {N : Nat → List Nat} (I : Inv w s N) {i : Nat} {l : List α} (h : s i = Option.some l) :
    ∃ p h', w.objs i = Option.some p ∧ FList.clear w.heap p = .ok h' ∧
      Inv { heap := h', objs := upd w.objs i (Option.some Option.none) } (upd s i (Option.some [])) (upd N i []) ∧
      Inv { heap := h', objs := upd w.objs i Option.none } (upd s i Option.none) (upd N i []) := by
  obtain ⟨p, e1, c⟩ := I.some h
  obtain ⟨h', e2, e3, e4⟩ := clear_ok c (I.nodup i)
  refine ⟨p, h', e1, e2, ?_, ?_⟩
  · refine I.change (l := Option.some []) ⟨Option.none, rfl, trivial⟩ (by simp) (by simp) ?_ ?_
    · intro x _ hx; rw [e4, if_neg hx]
    · intro x hx _ n; rw [e4, if_pos hx]; simp
  · refine I.change (l := Option.none) ⟨rfl, rfl⟩ (by simp) (by simp) ?_ ?_
    · intro x _ hx; rw [e4, if_neg hx]
    · intro x hx _ n; rw [e4, if_pos hx]; simp

theorem Inv.congr {w : World α} {s s' : Spec.State α} {N : Nat → List Nat} {h : Heap α} {o : Nat → Option (Option Nat)} (I : Inv w s N)
    (hs : s = s') (h1 : w.heap = h) (h2 : w.objs = o) : Inv { heap := h, objs := o } s' N := by
  subst hs h1 h2; exact I

theorem advance_ok {h : Heap α} : ∀ {k : Nat} {p : Option Nat} {ns : List Nat} {l : List α}, Chain h p ns l → k ≤ l.length →
    ∃ q, advance h p k = .ok q ∧ Chain h q (ns.drop k) (l.drop k) := by
  intro k
  induction k with
  | zero => intro p ns l c _; exact ⟨p, rfl, by simpa using c⟩
  | succ k ih =>
    intro p ns l c hk
    cases l with
    | nil => simp at hk
    | cons v l =>
      obtain ⟨a, ms, q, rfl, rfl, e, c'⟩ := c.cons_inv
      obtain ⟨r, e1, e2⟩ := ih c' (by simp at hk; omega)
      exact ⟨r, by rw [advance]; simp only [deref_ok e, R.ok_bind]; exact e1, by simpa using e2⟩

theorem advance_far {h : Heap α} : ∀ {k : Nat} {p : Option Nat} {ns : List Nat} {l : List α}, Chain h p ns l → l.length < k →
    advance h p k = .error .ub := by
  intro k
  induction k with
  | zero => intro p ns l c hk; omega
  | succ k ih =>
    intro p ns l c hk
    cases l with
    | nil => obtain ⟨rfl, rfl⟩ := c.nil_inv; rfl
    | cons v l =>
      obtain ⟨a, ms, q, rfl, rfl, e, c'⟩ := c.cons_inv
      rw [advance]; simp only [deref_ok e, R.ok_bind]
      exact ih c' (by simp at hk; omega)

/-- Removing the node after position `k`. -/
theorem Chain.erase {h h' : Heap α} : ∀ {k : Nat} {p : Option Nat} {ns : List Nat} {l : List α} {a b : Nat} {v : α} {q : Option Nat},
    Chain h p ns l → ns.Nodup → ns[k]? = some a → ns[k + 1]? = some b → l[k]? = some v →
    (∃ u, h[b]? = some (some { value := u, next := q })) →
    (∀ x, x ≠ a → x ≠ b → h'[x]? = h[x]?) → h'[a]? = some (some { value := v, next := q }) →
    Chain h' p (ns.eraseIdx (k + 1)) (l.eraseIdx (k + 1)) := by
  intro k
  induction k with
  | zero =>
    intro p ns l a b v q c hd h1 h2 h3 h4 h5 h6
    cases l with
    | nil => simp at h3
    | cons v' l =>
      obtain ⟨a', ms, q1, rfl, rfl, e, c'⟩ := c.cons_inv
      cases l with
      | nil => obtain ⟨rfl, rfl⟩ := c'.nil_inv; simp at h2
      | cons u l =>
        obtain ⟨b', ms', q2, rfl, rfl, e', c''⟩ := c'.cons_inv
        simp at h1 h2 h3
        subst h1 h2 h3
        obtain ⟨u', h4⟩ := h4
        rw [e'] at h4
        simp at h4
        obtain ⟨rfl, rfl⟩ := h4
        simp only [List.nodup_cons, List.mem_cons, not_or] at hd
        refine ⟨rfl, q2, h6, ?_⟩
        exact c''.frame (fun x hx => h5 x (fun h => hd.1.2 (h ▸ hx)) (fun h => hd.2.1 (h ▸ hx)))
  | succ k ih =>
    intro p ns l a b v q c hd h1 h2 h3 h4 h5 h6
    cases l with
    | nil => simp at h3
    | cons v' l =>
      obtain ⟨a', ms, q1, rfl, rfl, e, c'⟩ := c.cons_inv
      simp at h1 h2 h3
      rw [List.nodup_cons] at hd
      have ha : a' ≠ a := fun h => hd.1 (h ▸ List.mem_of_getElem? h1)
      have hb : a' ≠ b := fun h => hd.1 (h ▸ List.mem_of_getElem? h2)
      exact ⟨rfl, q1, by rw [h5 a' ha hb, e], ih c' hd.2 h1 h2 h3 h4 h5 h6⟩

theorem eraseAfter_ok {h : Heap α} {p : Option Nat} {ns : List Nat} {l : List α} (c : Chain h p ns l) (hd : ns.Nodup) (k : Nat) :
    if k + 1 < l.length then ∃ h', eraseAfter h p k = .ok h' ∧ Chain h' p (ns.eraseIdx (k + 1)) (l.eraseIdx (k + 1)) ∧
        (∀ x, x ∉ ns → h'[x]? = h[x]?) ∧ (∀ x ∈ ns, x ∉ ns.eraseIdx (k + 1) → h'[x]? = some none)
    else if k < l.length then eraseAfter h p k = .error .assert else eraseAfter h p k = .error .ub := by
  have hlen := c.length
  by_cases hk : k < l.length
  · obtain ⟨q, e1, c1⟩ := advance_ok c (k := k) (by omega)
    rw [List.drop_eq_getElem_cons hk] at c1
    obtain ⟨a, ms, q1, rfl, e3, e4, c2⟩ := c1.cons_inv
    have ea : ns[k]? = some a := by
      have := congrArg (fun x => x[0]?) e3
      simpa using this
    have ems : ms = ns.drop (k + 1) := by
      have := congrArg (fun x => x.drop 1) e3
      simpa [Nat.add_comm] using this.symm
    by_cases hk2 : k + 1 < l.length
    · rw [if_pos hk2]
      rw [List.drop_eq_getElem_cons hk2] at c2
      obtain ⟨b, ms2, q2, rfl, e5, e6, c3⟩ := c2.cons_inv
      have eb : ns[k + 1]? = some b := by
        have := congrArg (fun x => x[0]?) (ems.symm.trans e5)
        simpa using this
      have hab : a ≠ b := by
        intro h
        subst h
        obtain ⟨h1, h2⟩ := List.getElem?_eq_some_iff.1 ea
        obtain ⟨h3, h4⟩ := List.getElem?_eq_some_iff.1 eb
        have := List.getElem_inj (h₀ := h1) (h₁ := h3) hd |>.1 (h2.trans h4.symm)
        omega
      have ha := live_lt e4
      have hb := live_lt e6
      have e7 : (h.set a (some { value := l[k], next := q2 }))[b]? = some (some { value := l[k + 1], next := q2 }) := by
        rw [getElem?_set' ha, if_neg (fun h => hab h.symm), e6]
      refine ⟨(h.set a (some { value := l[k], next := q2 })).set b none, ?_, ?_, ?_, ?_⟩
      · unfold eraseAfter
        rw [e1]
        simp only [R.ok_bind, deref_ok e4]
        rw [ccAssert_true (c := (some b).isSome) rfl]
        simp only [R.ok_bind, deref_ok e6, setNext_ok e4, free, deref_ok e7]
      · apply c.erase hd ea eb (List.getElem?_eq_getElem hk) ⟨_, e6⟩
        · intro x h1 h2
          rw [getElem?_set' (by simpa using hb), if_neg h2, getElem?_set' ha, if_neg h1]
        · rw [getElem?_set' (by simpa using hb), if_neg hab, getElem?_set' ha, if_pos rfl]
      · intro x hx
        have h1 : x ≠ a := fun h => hx (h ▸ List.mem_of_getElem? ea)
        have h2 : x ≠ b := fun h => hx (h ▸ List.mem_of_getElem? eb)
        rw [getElem?_set' (by simpa using hb), if_neg h2, getElem?_set' ha, if_neg h1]
      · intro x hx hx2
        have : x = b := by
          obtain ⟨i, hi, rfl⟩ := List.getElem_of_mem hx
          by_cases hik : i = k + 1
          · subst hik
            rw [List.getElem?_eq_getElem hi] at eb
            simpa using eb
          · exfalso
            apply hx2
            rw [List.mem_eraseIdx_iff_getElem]
            exact ⟨i, hi, hik, rfl⟩
        subst this
        rw [getElem?_set' (by simpa using hb), if_pos rfl]
    · rw [if_neg hk2, if_pos hk]
      rw [List.drop_eq_nil_of_le (by omega)] at c2
      obtain ⟨rfl, _⟩ := c2.nil_inv
      unfold eraseAfter
      rw [e1]
      simp only [R.ok_bind, deref_ok e4]
      rfl
  · rw [if_neg (by omega), if_neg hk]
    unfold eraseAfter
    by_cases hk2 : k = l.length
    · obtain ⟨q, e1, c1⟩ := advance_ok c (k := k) (by omega)
      rw [List.drop_eq_nil_of_le (as := l) (by omega)] at c1
      obtain ⟨rfl, _⟩ := c1.nil_inv
      rw [e1]; rfl
    · rw [advance_far c (by omega)]; rfl

/-! ### The heap does not shrink -/

theorem setNext_len {h h' : Heap α} {p : Nat} {q : Option Nat} (e : setNext h p q = .ok h') : h'.length = h.length := by
  unfold setNext at e
  obtain ⟨x, -, e⟩ := (R.bind_eq_ok).1 e
  cases e
  simp

theorem free_len {h h' : Heap α} {p : Option Nat} (e : free h p = .ok h') : h'.length = h.length := by
  unfold free at e
  obtain ⟨x, -, e⟩ := (R.bind_eq_ok).1 e
  cases e
  simp

theorem clearLoop_len (n : Nat) : ∀ {h h' : Heap α} {p : Option Nat}, clearLoop h p n = .ok h' → h'.length = h.length := by
  induction n with
  | zero => intro h h' p e; cases e
  | succ n ih =>
    intro h h' p e
    cases p with
    | none => cases e; rfl
    | some a =>
      rw [clearLoop] at e
      obtain ⟨x, -, e⟩ := (R.bind_eq_ok).1 e
      obtain ⟨h1, e1, e⟩ := (R.bind_eq_ok).1 e
      rw [ih e, free_len e1]

theorem link_len {h : Heap α} {first pn : Option Nat} {n : Nat} {r : Heap α × Option Nat} (e : link h first pn n = .ok r) :
    r.1.length = h.length := by
  unfold link at e
  cases pn with
  | none => cases e; rfl
  | some p =>
    obtain ⟨h1, e1, e⟩ := (R.bind_eq_ok).1 e
    cases e
    exact setNext_len e1

theorem copyLoop_len (n : Nat) : ∀ {h : Heap α} {first pn rn : Option Nat} {r : Heap α × Option Nat},
    copyLoop h first pn rn n = .ok r → h.length ≤ r.1.length := by
  induction n with
  | zero => intro h first pn rn r e; cases e
  | succ n ih =>
    intro h first pn rn r e
    cases rn with
    | none => cases e; exact Nat.le_refl _
    | some a =>
      rw [copyLoop] at e
      obtain ⟨x, -, e⟩ := (R.bind_eq_ok).1 e
      obtain ⟨y, e1, e⟩ := (R.bind_eq_ok).1 e
      obtain ⟨z, -, e⟩ := (R.bind_eq_ok).1 e
      have h1 := ih e
      have h2 := link_len e1
      simp only [alloc, List.length_append, List.length_singleton] at h2
      omega

theorem eraseAfter_len {h h' : Heap α} {first : Option Nat} {k : Nat} (e : eraseAfter h first k = .ok h') : h'.length = h.length := by
  unfold eraseAfter at e
  obtain ⟨x, -, e⟩ := (R.bind_eq_ok).1 e
  obtain ⟨y, -, e⟩ := (R.bind_eq_ok).1 e
  obtain ⟨-, -, e⟩ := (R.bind_eq_ok).1 e
  obtain ⟨z, -, e⟩ := (R.bind_eq_ok).1 e
  obtain ⟨h1, e1, e⟩ := (R.bind_eq_ok).1 e
  rw [free_len e, setNext_len e1]

/-- Which nodes the lists have after a call that is carried out; `fresh` are new nodes. -/
def tagStep (s : Spec.State α) (N : Nat → List Nat) (fresh : List Nat) : Op α → Nat → List Nat
  | .create i => match s i with | none => upd N i [] | some _ => N
  | .copyCtor i j => match s i, s j with | none, some _ => upd N i fresh | _, _ => N
  | .moveCtor i j => match s i, s j with | none, some _ => upd (upd N i (N j)) j [] | _, _ => N
  | .copyAssign i j => match s i, s j with | some _, some _ => upd N i fresh | _, _ => N
  | .moveAssign i j => match s i, s j with | some _, some _ => upd (upd N i (N j)) j [] | _, _ => N
  | .destroy i => match s i with | some _ => upd N i [] | none => N
  | .pushFront i _ => match s i with | some _ => upd N i (fresh.headD 0 :: N i) | none => N
  | .popFront i => match s i with | some (_ :: _) => upd N i (N i).tail | _ => N
  | .eraseAfter i k => match s i with | some l => if k + 1 < l.length then upd N i ((N i).eraseIdx (k + 1)) else N | none => N
  | .clear i => match s i with | some _ => upd N i [] | none => N
  | _ => N

theorem upd_upd {β : Type} (f : Nat → β) (i : Nat) (a b : β) : upd (upd f i a) i b = upd f i b := by
  funext j; simp only [upd]; split <;> rfl

theorem step_ok {w : World α} {s : Spec.State α} {N : Nat → List Nat} (I : Inv w s N) (op : Op α) (hop : NotSelf op) :
    match Spec.step s op with
    | .error e => step w op = .error e
    | .ok (s', o) => ∃ w' N', step w op = .ok (w', o) ∧ Inv w' s' N' ∧
      ∃ fresh, N' = tagStep s N fresh op ∧ (∀ x ∈ fresh, w.heap.length ≤ x) ∧ w.heap.length ≤ w'.heap.length ∧
        (∀ i v, op = .pushFront i v → fresh ≠ [] ∨ N' = N) := by
  cases op with
  | create i =>
    simp only [Spec.step, step]
    cases hi : s i with
    | some l => obtain ⟨p, e, _⟩ := I.some hi; simp only [e]; exact ⟨w, N, rfl, I, [], by simp [tagStep, *], by simp, Nat.le_refl _, fun _ _ _ => .inr rfl⟩
    | none =>
      obtain ⟨e, e'⟩ := I.none hi
      simp only [e]
      refine ⟨_, upd N i [], rfl, I.change (l := some []) ⟨none, rfl, trivial⟩ (by simp) (by simp) (fun _ _ _ => rfl) ?_, [],
        by simp [tagStep, hi], by simp, Nat.le_refl _, nofun⟩
      rw [e']; simp
  | copyCtor i j =>
    simp only [Spec.step, step]
    cases hi : s i with
    | some l =>
      obtain ⟨p, e, _⟩ := I.some hi; simp only [e]
      exact ⟨w, N, rfl, I, [], by simp [tagStep, *], by simp, Nat.le_refl _, fun _ _ _ => .inr rfl⟩
    | none =>
      obtain ⟨e, e'⟩ := I.none hi
      cases hj : s j with
      | none => obtain ⟨f, _⟩ := I.none hj; simp only [e, f]; exact ⟨w, N, rfl, I, [], by simp [tagStep, *], by simp, Nat.le_refl _, fun _ _ _ => .inr rfl⟩
      | some l =>
        obtain ⟨q, f, c⟩ := I.some hj
        simp only [e, f]
        obtain ⟨h', p, ms, r1, r2, r3, r4, r5⟩ := copyCtor_ok c (I.nodup j)
        simp only [r1, R.ok_bind]
        refine ⟨_, upd N i ms, rfl, I.change (l := some l) ⟨p, rfl, r2⟩ r3 ?_ (fun x hx _ => r5 x hx) ?_, ms, by simp [tagStep, hi, hj], r4,
          copyLoop_len _ r1, nofun⟩
        · intro x hx
          refine Or.inr (fun k hk => ?_)
          have := r4 x hx
          have hk' := I.objs k
          revert hk'
          cases s k with
          | none => rintro ⟨_, e⟩; rw [e] at hk; simp at hk
          | some m => rintro ⟨_, _, c'⟩; obtain ⟨n, e⟩ := c'.live hk; have := live_lt e; omega
        · rw [e']; simp
  | moveCtor i j =>
    simp only [Spec.step, step]
    cases hi : s i with
    | some l => obtain ⟨p, e, _⟩ := I.some hi; simp only [e]; exact ⟨w, N, rfl, I, [], by simp [tagStep, *], by simp, Nat.le_refl _, fun _ _ _ => .inr rfl⟩
    | none =>
      obtain ⟨e, e'⟩ := I.none hi
      cases hj : s j with
      | none => obtain ⟨f, _⟩ := I.none hj; simp only [e, f]; exact ⟨w, N, rfl, I, [], by simp [tagStep, *], by simp, Nat.le_refl _, fun _ _ _ => .inr rfl⟩
      | some l =>
        obtain ⟨q, f, c⟩ := I.some hj
        simp only [e, f]
        have hij : i ≠ j := fun h => by subst h; rw [hi] at hj; cases hj
        refine ⟨_, upd (upd N i (N j)) j [], rfl, ⟨?_, ?_, ?_, ?_⟩, [], by simp [tagStep, hi, hj], by simp, Nat.le_refl _, nofun⟩
        · intro k
          by_cases hk : k = j
          · subst hk; simp only [upd_same]; exact ⟨none, rfl, trivial⟩
          · simp only [upd_other _ _ hk]
            by_cases hk2 : k = i
            · subst hk2; simp only [upd_same]; exact ⟨q, rfl, c⟩
            · simp only [upd_other _ _ hk2]; exact I.objs k
        · intro k
          by_cases hk : k = j
          · subst hk; rw [upd_same]; simp
          · rw [upd_other _ _ hk]
            by_cases hk2 : k = i
            · subst hk2; rw [upd_same]; exact I.nodup j
            · rw [upd_other _ _ hk2]; exact I.nodup k
        · intro a b x hab hx hx'
          by_cases ha : a = j
          · subst ha; rw [upd_same] at hx; simp at hx
          · by_cases hb : b = j
            · subst hb; rw [upd_same] at hx'; simp at hx'
            · rw [upd_other _ _ ha] at hx
              rw [upd_other _ _ hb] at hx'
              by_cases ha2 : a = i
              · subst ha2
                rw [upd_same] at hx
                rw [upd_other _ _ (fun h => hab h.symm)] at hx'
                exact I.disj j b x (fun h => hb h.symm) hx hx'
              · rw [upd_other _ _ ha2] at hx
                by_cases hb2 : b = i
                · subst hb2
                  rw [upd_same] at hx'
                  exact I.disj a j x ha hx hx'
                · rw [upd_other _ _ hb2] at hx'
                  exact I.disj a b x hab hx hx'
        · intro x n hx
          obtain ⟨k, hk⟩ := I.cover x n hx
          by_cases hkj : k = j
          · subst hkj; exact ⟨i, by rw [upd_other _ _ hij, upd_same]; exact hk⟩
          · have hki : k ≠ i := fun h => by subst h; rw [e'] at hk; simp at hk
            exact ⟨k, by rw [upd_other _ _ hkj, upd_other _ _ hki]; exact hk⟩
  | copyAssign i j =>
    simp only [Spec.step, step]
    cases hi : s i with
    | none => obtain ⟨e, _⟩ := I.none hi; simp only [e]; exact ⟨w, N, rfl, I, [], by simp [tagStep, *], by simp, Nat.le_refl _, fun _ _ _ => .inr rfl⟩
    | some li =>
      cases hj : s j with
      | none =>
        obtain ⟨f, _⟩ := I.none hj
        obtain ⟨p, e, _⟩ := I.some hi
        simp only [e, f]; exact ⟨w, N, rfl, I, [], by simp [tagStep, *], by simp, Nat.le_refl _, fun _ _ _ => .inr rfl⟩
      | some l =>
        obtain ⟨p, h1, e, e2, I1, _⟩ := I.clear hi
        obtain ⟨q, f, _⟩ := I.some hj
        simp only [e, f, e2, R.ok_bind]
        have hij : j ≠ i := fun h => hop h.symm
        obtain ⟨q', f', c⟩ := I1.some (i := j) (l := l) (by rw [upd_other _ _ hij]; exact hj)
        rw [upd_other _ _ hij] at c
        simp only at f'
        rw [upd_other _ _ hij, f] at f'
        cases f'
        rw [upd_other _ _ hij, f]
        simp only [Option.getD_some]
        obtain ⟨h', p2, ms, r1, r2, r3, r4, r5⟩ := copyCtor_ok c (I.nodup j)
        simp only [r1, R.ok_bind]
        refine ⟨_, upd (upd N i []) i ms, rfl, Inv.congr (I1.change (i := i) (h' := h') (p := some p2) (l := some l) (ns := ms) ⟨p2, rfl, r2⟩
          r3 ?_ (fun x hx _ => r5 x hx) ?_) ?_ rfl rfl, ms, by simp [tagStep, hi, hj, upd_upd], ?_, ?_, nofun⟩
        · intro x hx
          refine Or.inr (fun k hk => ?_)
          have := r4 x hx
          have hk' := I1.objs k
          revert hk'
          cases upd s i (some []) k with
          | none => rintro ⟨_, e⟩; rw [e] at hk; simp at hk
          | some m => rintro ⟨_, _, c'⟩; obtain ⟨n, e⟩ := c'.live hk; have : x < h1.length := live_lt e; have : h1.length ≤ x := r4 x hx; omega
        · rw [upd_same]; simp
        · funext k
          by_cases hk : k = i
          · subst hk; rw [upd_same, upd_same]
          · rw [upd_other _ _ hk, upd_other _ _ hk, upd_other _ _ hk]
        · intro x hx
          rw [← clearLoop_len _ e2]
          exact r4 x hx
        · rw [← clearLoop_len _ e2]
          exact copyLoop_len _ r1
  | moveAssign i j =>
    simp only [Spec.step, step]
    cases hi : s i with
    | none => obtain ⟨e, _⟩ := I.none hi; simp only [e]; exact ⟨w, N, rfl, I, [], by simp [tagStep, *], by simp, Nat.le_refl _, fun _ _ _ => .inr rfl⟩
    | some li =>
      cases hj : s j with
      | none =>
        obtain ⟨f, _⟩ := I.none hj
        obtain ⟨p, e, _⟩ := I.some hi
        simp only [e, f]; exact ⟨w, N, rfl, I, [], by simp [tagStep, *], by simp, Nat.le_refl _, fun _ _ _ => .inr rfl⟩
      | some l =>
        obtain ⟨p, h1, e, e2, I1, _⟩ := I.clear hi
        obtain ⟨q, f, _⟩ := I.some hj
        simp only [e, f, e2, R.ok_bind]
        have hij : j ≠ i := fun h => hop h.symm
        obtain ⟨q', f', c⟩ := I1.some (i := j) (l := l) (by rw [upd_other _ _ hij]; exact hj)
        rw [upd_other _ _ hij] at c
        simp only at f'
        rw [upd_other _ _ hij, f] at f'
        cases f'
        rw [upd_other w.objs _ hij, f, if_neg hop]
        simp only [Option.getD_some]
        refine ⟨_, upd (upd N i (N j)) j [], rfl, ⟨?_, ?_, ?_, ?_⟩, [], by simp [tagStep, hi, hj], by simp, Nat.le_of_eq (clearLoop_len _ e2).symm, nofun⟩
        · intro k
          by_cases hk : k = j
          · subst hk; simp only [upd_same]; exact ⟨none, rfl, trivial⟩
          · simp only [upd_other _ _ hk]
            by_cases hk2 : k = i
            · subst hk2; simp only [upd_same]; exact ⟨q, rfl, c⟩
            · simp only [upd_other _ _ hk2]
              have := I1.objs k
              simp only [upd_other _ _ hk2] at this
              exact this
        · intro k
          by_cases hk : k = j
          · subst hk; rw [upd_same]; simp
          · rw [upd_other _ _ hk]
            by_cases hk2 : k = i
            · subst hk2; rw [upd_same]; exact I.nodup j
            · rw [upd_other _ _ hk2]; exact I.nodup k
        · intro a b x hab hx hx'
          by_cases ha : a = j
          · subst ha; rw [upd_same] at hx; simp at hx
          · by_cases hb : b = j
            · subst hb; rw [upd_same] at hx'; simp at hx'
            · rw [upd_other _ _ ha] at hx
              rw [upd_other _ _ hb] at hx'
              by_cases ha2 : a = i
              · subst ha2
                rw [upd_same] at hx
                rw [upd_other _ _ (fun h => hab h.symm)] at hx'
                exact I.disj j b x (fun h => hb h.symm) hx hx'
              · rw [upd_other _ _ ha2] at hx
                by_cases hb2 : b = i
                · subst hb2
                  rw [upd_same] at hx'
                  exact I.disj a j x ha hx hx'
                · rw [upd_other _ _ hb2] at hx'
                  exact I.disj a b x hab hx hx'
        · intro x n hx
          obtain ⟨k, hk⟩ := I1.cover x n hx
          have hki : k ≠ i := fun h => by subst h; rw [upd_same] at hk; simp at hk
          rw [upd_other _ _ hki] at hk
          by_cases hkj : k = j
          · subst hkj; exact ⟨i, by rw [upd_other _ _ (fun h => hij h.symm), upd_same]; exact hk⟩
          · exact ⟨k, by rw [upd_other _ _ hkj, upd_other _ _ hki]; exact hk⟩
  | destroy i =>
    simp only [Spec.step, step]
    cases hi : s i with
    | none => obtain ⟨e, _⟩ := I.none hi; simp only [e]; exact ⟨w, N, rfl, I, [], by simp [tagStep, *], by simp, Nat.le_refl _, fun _ _ _ => .inr rfl⟩
    | some l =>
      obtain ⟨p, h', e, e2, _, I2⟩ := I.clear hi
      simp only [e, e2, R.ok_bind]
      exact ⟨_, _, rfl, I2, [], by simp [tagStep, hi], by simp, Nat.le_of_eq (clearLoop_len _ e2).symm, nofun⟩
  | clear i =>
    simp only [Spec.step, step]
    cases hi : s i with
    | none => obtain ⟨e, _⟩ := I.none hi; simp only [e]; exact ⟨w, N, rfl, I, [], by simp [tagStep, *], by simp, Nat.le_refl _, fun _ _ _ => .inr rfl⟩
    | some l =>
      obtain ⟨p, h', e, e2, I1, _⟩ := I.clear hi
      simp only [e, e2, R.ok_bind]
      exact ⟨_, _, rfl, I1, [], by simp [tagStep, hi], by simp, Nat.le_of_eq (clearLoop_len _ e2).symm, nofun⟩
  | pushFront i v =>
    simp only [Spec.step, step]
    cases hi : s i with
    | none => obtain ⟨e, _⟩ := I.none hi; simp only [e]; exact ⟨w, N, rfl, I, [], by simp [tagStep, *], by simp, Nat.le_refl _, fun _ _ _ => .inr rfl⟩
    | some l =>
      obtain ⟨p, e, c⟩ := I.some hi
      have hfresh : ∀ k, w.heap.length ∉ N k := by
        intro k hk
        have hk' := I.objs k
        revert hk'
        cases s k with
        | none => rintro ⟨_, e⟩; rw [e] at hk; simp at hk
        | some m => rintro ⟨_, _, c'⟩; obtain ⟨n, e⟩ := c'.live hk; have := live_lt e; omega
      have hlen : w.heap.length < (alloc w.heap v).length := by simp [alloc]
      have ha : (alloc w.heap v)[w.heap.length]? = some (some { value := v, next := none }) := by rw [alloc_get, if_pos rfl]
      have hget : ∀ x, x ≠ w.heap.length → ((alloc w.heap v).set w.heap.length (some { value := v, next := p }))[x]? = w.heap[x]? := by
        intro x hx
        rw [getElem?_set' hlen, if_neg hx, alloc_get, if_neg hx]
      simp only [e, pushFront, setNext_ok ha, R.ok_bind]
      refine ⟨_, upd N i (w.heap.length :: N i), rfl, I.change (l := some (v :: l)) ⟨some w.heap.length, rfl, ?_⟩ ?_ ?_ ?_ ?_,
        [w.heap.length], by simp [tagStep, hi], by simp, by simp [alloc], fun _ _ _ => .inl (by simp)⟩
      · refine ⟨rfl, p, by rw [getElem?_set' hlen, if_pos rfl], c.frame (fun x hx => hget x (fun h => hfresh i (h ▸ hx)))⟩
      · rw [List.nodup_cons]; exact ⟨hfresh i, I.nodup i⟩
      · intro x hx
        rcases List.mem_cons.1 hx with rfl | hx
        · exact Or.inr hfresh
        · exact Or.inl hx
      · intro x hx _
        exact hget x (fun h => hx (by simp [h]))
      · intro x hx hx'
        exact absurd (List.mem_cons_of_mem _ hx) hx'
  | popFront i =>
    simp only [Spec.step, step]
    cases hi : s i with
    | none => obtain ⟨e, _⟩ := I.none hi; simp only [e]; exact ⟨w, N, rfl, I, [], by simp [tagStep, *], by simp, Nat.le_refl _, fun _ _ _ => .inr rfl⟩
    | some l =>
      obtain ⟨p, e, c⟩ := I.some hi
      cases l with
      | nil =>
        obtain ⟨rfl, _⟩ := c.nil_inv
        simp only [e]
        rfl
      | cons v l =>
        obtain ⟨a, ms, q, rfl, e2, e3, c'⟩ := c.cons_inv
        have hnd := I.nodup i
        rw [e2, List.nodup_cons] at hnd
        have ha := live_lt e3
        simp only [e, popFront, empty]
        rw [ccAssert_true (c := !(some a).isNone) rfl]
        simp only [deref_ok e3, R.ok_bind, free]
        refine ⟨_, upd N i ms, rfl, I.change (l := some l) ⟨q, rfl, ?_⟩ hnd.2 ?_ ?_ ?_, [], by simp [tagStep, hi, e2], by simp,
          by simp, nofun⟩
        · exact c'.frame (fun x hx => by
            have hne : x ≠ a := fun h => hnd.1 (h ▸ hx)
            rw [getElem?_set' ha, if_neg hne])
        · intro x hx; rw [e2]; exact Or.inl (List.mem_cons_of_mem _ hx)
        · intro x _ hx
          rw [e2] at hx
          rw [getElem?_set' ha, if_neg (fun h => hx (by simp [h]))]
        · intro x hx hx' n
          rw [e2] at hx
          rcases List.mem_cons.1 hx with rfl | hx
          · rw [getElem?_set' ha, if_pos rfl]; simp
          · exact absurd hx hx'
  | eraseAfter i k =>
    simp only [Spec.step, step]
    cases hi : s i with
    | none => obtain ⟨e, _⟩ := I.none hi; simp only [e]; exact ⟨w, N, rfl, I, [], by simp [tagStep, *], by simp, Nat.le_refl _, fun _ _ _ => .inr rfl⟩
    | some l =>
      obtain ⟨p, e, c⟩ := I.some hi
      have := eraseAfter_ok c (I.nodup i) k
      simp only [e]
      by_cases h1 : k + 1 < l.length
      · rw [if_pos h1] at this ⊢
        obtain ⟨h', e2, c2, r1, r2⟩ := this
        simp only [e2, R.ok_bind]
        have hu : upd w.objs i (some p) = w.objs := by
          funext j
          by_cases hj : j = i
          · subst hj; rw [upd_same, e]
          · rw [upd_other _ _ hj]
        refine ⟨_, upd N i ((N i).eraseIdx (k + 1)), rfl, Inv.congr (I.change (h' := h') (p := some p) (l := some (l.eraseIdx (k + 1)))
          ⟨p, rfl, c2⟩ ?_ ?_ ?_ ?_) rfl rfl hu, [], by simp [tagStep, hi, h1], by simp, Nat.le_of_eq (eraseAfter_len e2).symm, nofun⟩
        · exact (I.nodup i).sublist (List.eraseIdx_sublist _ _)
        · intro x hx; exact Or.inl (List.mem_of_mem_eraseIdx hx)
        · intro x _ hx; exact r1 x hx
        · intro x hx hx' n
          rw [r2 x hx hx']; simp
      · rw [if_neg h1] at this ⊢
        by_cases h2 : k < l.length
        · rw [if_pos h2] at this ⊢; simp only [this, R.error_bind]
        · rw [if_neg h2] at this ⊢; simp only [this, R.error_bind]
  | front i =>
    simp only [Spec.step, step]
    cases hi : s i with
    | none => obtain ⟨e, _⟩ := I.none hi; simp only [e]; exact ⟨w, N, rfl, I, [], by simp [tagStep, *], by simp, Nat.le_refl _, fun _ _ _ => .inr rfl⟩
    | some l =>
      obtain ⟨p, e, c⟩ := I.some hi
      cases l with
      | nil => obtain ⟨rfl, _⟩ := c.nil_inv; simp only [e]; rfl
      | cons v l =>
        obtain ⟨a, ms, q, rfl, e2, e3, c'⟩ := c.cons_inv
        simp only [e, front, empty]
        rw [ccAssert_true (c := !(some a).isNone) rfl]
        simp only [deref_ok e3, R.ok_bind]
        exact ⟨w, N, rfl, I, [], by simp [tagStep, *], by simp, Nat.le_refl _, fun _ _ _ => .inr rfl⟩
  | size i =>
    simp only [Spec.step, step]
    cases hi : s i with
    | none => obtain ⟨e, _⟩ := I.none hi; simp only [e]; exact ⟨w, N, rfl, I, [], by simp [tagStep, *], by simp, Nat.le_refl _, fun _ _ _ => .inr rfl⟩
    | some l =>
      obtain ⟨p, e, c⟩ := I.some hi
      simp only [e, size]
      rw [sizeLoop_ok _ c (c.fuel (I.nodup i))]
      simp only [R.ok_bind, Nat.zero_add]
      exact ⟨w, N, rfl, I, [], by simp [tagStep, *], by simp, Nat.le_refl _, fun _ _ _ => .inr rfl⟩
  | empty i =>
    simp only [Spec.step, step]
    cases hi : s i with
    | none => obtain ⟨e, _⟩ := I.none hi; simp only [e]; exact ⟨w, N, rfl, I, [], by simp [tagStep, *], by simp, Nat.le_refl _, fun _ _ _ => .inr rfl⟩
    | some l =>
      obtain ⟨p, e, c⟩ := I.some hi
      simp only [e]
      refine ⟨w, N, ?_, I, [], by simp [tagStep], by simp, Nat.le_refl _, nofun⟩
      cases l with
      | nil => obtain ⟨rfl, _⟩ := c.nil_inv; rfl
      | cons v l => obtain ⟨a, ms, q, rfl, _, _, _⟩ := c.cons_inv; rfl
  | iterate i =>
    simp only [Spec.step, step]
    cases hi : s i with
    | none => obtain ⟨e, _⟩ := I.none hi; simp only [e]; exact ⟨w, N, rfl, I, [], by simp [tagStep, *], by simp, Nat.le_refl _, fun _ _ _ => .inr rfl⟩
    | some l =>
      obtain ⟨p, e, c⟩ := I.some hi
      simp only [e, iter]
      rw [iterLoop_ok _ c (c.fuel (I.nodup i))]
      exact ⟨w, N, rfl, I, [], by simp [tagStep, *], by simp, Nat.le_refl _, fun _ _ _ => .inr rfl⟩

theorem run_ok : ∀ {ops : List (Op α)} {w : World α} {s : Spec.State α} {N : Nat → List Nat}, Inv w s N → (∀ op ∈ ops, NotSelf op) →
    match Spec.run s ops with
    | .error e => run w ops = .error e
    | .ok (s', os) => ∃ w' N', run w ops = .ok (w', os) ∧ Inv w' s' N' := by
  intro ops
  induction ops with
  | nil => intro w s N I _; exact ⟨w, N, rfl, I⟩
  | cons op ops ih =>
    intro w s N I h
    have h1 := step_ok I op (h op List.mem_cons_self)
    rw [Spec.run, run]
    cases hs : Spec.step s op with
    | error e => rw [hs] at h1; simp only at h1; rw [h1]; simp
    | ok so =>
      obtain ⟨s', o⟩ := so
      rw [hs] at h1
      obtain ⟨w', N', e1, I', -⟩ := h1
      have h2 := ih I' (fun x hx => h x (List.mem_cons_of_mem _ hx))
      rw [e1]
      simp only [R.ok_bind]
      cases hr : Spec.run s' ops with
      | error e => rw [hr] at h2; simp only at h2; rw [h2]; simp
      | ok so =>
        obtain ⟨s'', os⟩ := so
        rw [hr] at h2
        obtain ⟨w'', N'', e2, I''⟩ := h2
        rw [e2]
        exact ⟨w'', N'', rfl, I''⟩

theorem inv_init : Inv (init : World α) Spec.init (fun _ => []) :=
  ⟨fun _ => ⟨rfl, rfl⟩, fun _ => by simp, fun _ _ _ _ h => by simp at h, fun x n h => by simp [init] at h⟩

/-- **C62 (partial)**: for every history of calls on any number of lists that does not assign a list to itself, every call returns what
the sequences say (copies and assignments take over the order and are independent of the source from then on), contract failures occur
exactly where specified, and no freed node is ever touched. Once all lists are destroyed no node is left alive. Missing: assignment of
a list to itself, where it is false (next theorem). -/
theorem C62_forward_list_partial (ops : List (Op α)) (h : ∀ op ∈ ops, NotSelf op) :
    match Spec.run Spec.init ops with
    | .error e => run init ops = .error e
    | .ok (s, os) => ∃ w, run init ops = .ok (w, os) ∧
      ((∀ i, s i = none) → ∀ (x : Nat) n, w.heap[x]? ≠ some (some n)) := by
  have := run_ok (inv_init (α := α)) h
  revert this
  cases Spec.run Spec.init ops with
  | error e => exact id
  | ok so =>
    obtain ⟨s, os⟩ := so
    rintro ⟨w, N, e, I⟩
    refine ⟨w, e, ?_⟩
    intro hs x n hx
    obtain ⟨i, hi⟩ := I.cover x n hx
    rw [(I.none (hs i)).2] at hi
    simp at hi

/-- A history with copies, moves and assignments. -/
def sample : List (Op Nat) :=
  [.create 0, .pushFront 0 3, .pushFront 0 2, .pushFront 0 1, .copyCtor 1 0, .eraseAfter 1 0, .iterate 1, .iterate 0, .create 2,
    .pushFront 2 9, .copyAssign 2 0, .popFront 0, .iterate 2, .moveAssign 1 2, .iterate 1, .size 2, .moveCtor 3 0, .iterate 3, .empty 0,
    .destroy 0, .destroy 1, .destroy 2, .destroy 3]

example : (∀ op ∈ sample, NotSelf op) ∧ (Spec.run Spec.init sample).map (·.2) =
    .ok [.unit, .unit, .unit, .unit, .unit, .unit, .list [1, 3], .list [1, 2, 3], .unit, .unit, .unit, .value 1, .list [1, 2, 3], .unit,
      .list [1, 2, 3], .nat 0, .unit, .list [2, 3], .bool true, .unit, .unit, .unit, .unit] := by
  constructor
  · simp [sample, NotSelf]
  · decide +kernel

/-- **C62**, defect: assigning a list to itself, by copy or by move, empties it, whatever it held (the nodes are freed, not leaked). -/
theorem C62_self_assignment_clears {w : World α} {s : Spec.State α} {N : Nat → List Nat} (I : Inv w s N) (i : Nat) (l : List α)
    (h : s i = some l) :
    (∃ w', step w (.copyAssign i i) = .ok (w', .unit) ∧ w'.objs i = some none) ∧
    (∃ w', step w (.moveAssign i i) = .ok (w', .unit) ∧ w'.objs i = some none) := by
  obtain ⟨p, h', e, e2, _, _⟩ := I.clear h
  constructor
  · refine ⟨{ heap := h', objs := upd (upd w.objs i (some none)) i (some none) }, ?_, upd_same _ _ _⟩
    simp only [step, e, e2, R.ok_bind, upd_same, Option.getD_some]
    rfl
  · refine ⟨_, by simp only [step, e, e2, R.ok_bind, upd_same, Option.getD_some]; rfl, by simp only [upd_same]⟩

/-- The same on a concrete program: after `l = l`, iterating yields nothing. -/
theorem C62_self_assignment_loses_elements :
    (run init [.create 0, .pushFront 0 2, .pushFront 0 1, .iterate 0, .copyAssign 0 0, .iterate 0] : R (World Nat × List (Out Nat))).map (·.2) =
      .ok [.unit, .unit, .unit, .list [1, 2], .unit, .list []] ∧
    (Spec.run Spec.init [.create 0, .pushFront 0 2, .pushFront 0 1, .iterate 0, .copyAssign 0 0, .iterate 0] :
      R (Spec.State Nat × List (Out Nat))).map (·.2) = .ok [.unit, .unit, .unit, .list [1, 2], .unit, .list [1, 2]] := by
  constructor <;> decide +kernel

end Verif.FList
