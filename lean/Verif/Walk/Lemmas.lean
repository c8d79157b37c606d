import Verif.Walk.Spec
import Verif.Walk.Model

/-! What the loop visits if its body leaves the nodes in place. -/
namespace Verif.Walk

variable {S N : Type _}

/-- A table whose nodes have addresses of their own, are where they belong, and are pairwise different. -/
structure Good (addr : N → Nat) (pl : N → Nat) (same : N → N → Prop) (es : List (List N)) : Prop where
  nodup : (es.flatten.map addr).Nodup
  placed : ∀ j l, es[j]? = some l → ∀ n ∈ l, pl n = j
  distinct : es.flatten.Pairwise (fun a b => ¬ same a b)

/-- Nodes are removed (only `gone` ones), changed in place, or added at the front of their chains. -/
def Evolves (addr : N → Nat) (same : N → N → Prop) (gone : N → Prop) (es es' : List (List N)) : Prop :=
  ∃ (f : N → Option N) (news : Nat → List N), (∀ n n', f n = some n' → addr n' = addr n ∧ same n n') ∧
    (∀ n ∈ es.flatten, f n = none → gone n) ∧ ∀ j, es'[j]? = es[j]?.map (fun l => news j ++ l.filterMap f)

structure Equiv (pl : N → Nat) (same : N → N → Prop) : Prop where
  refl : ∀ a, same a a
  symm : ∀ a b, same a b → same b a
  trans : ∀ a b c, same a b → same b c → same a c
  pl : ∀ a b, same a b → pl a = pl b

variable {addr : N → Nat} {pl : N → Nat} {same : N → N → Prop}

theorem Evolves.length {gone : N → Prop} {es es' : List (List N)} (h : Evolves addr same gone es es') : es'.length = es.length := by
  obtain ⟨f, news, _, _, h⟩ := h
  apply Nat.le_antisymm
  · have := h es.length
    rw [List.getElem?_eq_none (Nat.le_refl _)] at this
    exact List.getElem?_eq_none_iff.1 this
  · have := h es'.length
    rw [List.getElem?_eq_none (Nat.le_refl _)] at this
    cases e : es[es'.length]? with
    | none => exact List.getElem?_eq_none_iff.1 e
    | some l => rw [e] at this; cases this

theorem Evolves.refl {gone : N → Prop} (E : Equiv pl same) (es : List (List N)) : Evolves addr same gone es es := by
  refine ⟨some, fun _ => [], fun n n' h => ?_, fun n _ h => ?_, fun j => ?_⟩
  · cases h; exact ⟨rfl, E.refl _⟩
  · cases h
  · cases es[j]? with
    | none => rfl
    | some l => simp

theorem Evolves.trans {g1 g2 g : N → Prop} (E : Equiv pl same) {a b c : List (List N)} (h1 : Evolves addr same g1 a b) (h2 : Evolves addr same g2 b c)
    (i1 : ∀ n, g1 n → g n) (i2 : ∀ n n', same n n' → g2 n' → g n) : Evolves addr same g a c := by
  obtain ⟨f1, n1, p1, q1, r1⟩ := h1
  obtain ⟨f2, n2, p2, q2, r2⟩ := h2
  refine ⟨fun n => (f1 n).bind f2, fun j => n2 j ++ (n1 j).filterMap f2, ?_, ?_, ?_⟩
  · intro n n' h
    obtain ⟨x, hx, h⟩ := Option.bind_eq_some_iff.1 h
    obtain ⟨a1, a2⟩ := p1 _ _ hx
    obtain ⟨b1, b2⟩ := p2 _ _ h
    exact ⟨b1.trans a1, E.trans _ _ _ a2 b2⟩
  · intro n hn h
    cases hx : f1 n with
    | none => exact i1 _ (q1 n hn hx)
    | some x =>
      dsimp only at h
      rw [hx] at h
      obtain ⟨l, hl, hnl⟩ := List.mem_flatten.1 hn
      obtain ⟨j, hj⟩ := List.getElem?_of_mem hl
      have := r1 j
      rw [hj] at this
      refine i2 n x (p1 _ _ hx).2 (q2 x (List.mem_flatten.2 ⟨_, List.mem_of_getElem? this, ?_⟩) h)
      exact List.mem_append_right _ (List.mem_filterMap.2 ⟨n, hnl, hx⟩)
  · intro j
    rw [r2, r1]
    cases a[j]? with
    | none => rfl
    | some l => simp [List.filterMap_append, List.filterMap_filterMap]

theorem nextIn_none {a : Nat} {l : List N} (h : a ∉ l.map addr) : nextIn addr a l = none := by
  induction l with
  | nil => rfl
  | cons n ns ih =>
    simp only [List.map_cons, List.mem_cons, not_or] at h
    unfold nextIn
    rw [if_neg (fun e => h.1 e.symm), ih h.2]

theorem nextIn_at {pre post : List N} {cur : N} (h : addr cur ∉ pre.map addr) :
    nextIn addr (addr cur) (pre ++ cur :: post) = some (post.head?.map addr) := by
  induction pre with
  | nil => simp [nextIn]
  | cons n ns ih =>
    simp only [List.map_cons, List.mem_cons, not_or] at h
    rw [List.cons_append]
    unfold nextIn
    rw [if_neg (fun e => h.1 e.symm), ih h.2]

theorem split_at {es : List (List N)} {b : Nat} {l : List N} (h : es[b]? = some l) : es = es.take b ++ l :: es.drop (b + 1) := by
  obtain ⟨hb, e⟩ := List.getElem?_eq_some_iff.1 h
  rw [← e, List.getElem_cons_drop, List.take_append_drop]

theorem nextOf_at {es : List (List N)} (hd : (es.flatten.map addr).Nodup) {b : Nat} {pre post : List N} {cur : N}
    (h : es[b]? = some (pre ++ cur :: post)) : nextOf addr es (addr cur) = .ok (post.head?.map addr) := by
  have e := split_at h
  unfold nextOf
  rw [e] at hd ⊢
  simp only [List.flatten_append, List.flatten_cons, List.map_append, List.map_cons, List.append_assoc, List.cons_append] at hd
  rw [List.nodup_append] at hd
  obtain ⟨_, hd2, hd3⟩ := hd
  rw [List.nodup_append] at hd2
  have h1 : (es.take b).findSome? (nextIn addr (addr cur)) = none := by
    rw [List.findSome?_eq_none_iff]
    intro l hl
    refine nextIn_none (fun hm => ?_)
    obtain ⟨x, hx, hx'⟩ := List.mem_map.1 hm
    exact hd3 (addr x) (List.mem_map_of_mem (List.mem_flatten.2 ⟨l, hl, hx⟩)) (addr cur) (by simp) hx'
  rw [List.findSome?_append, h1, Option.none_or, List.findSome?_cons, nextIn_at]
  intro hm
  exact hd2.2.2 (addr cur) hm (addr cur) (by simp) rfl

theorem nodeAt_mem {es : List (List N)} (hd : (es.flatten.map addr).Nodup) {n : N} (h : n ∈ es.flatten) : nodeAt addr es (addr n) = .ok n := by
  unfold nodeAt
  have key : ∀ l : List N, (l.map addr).Nodup → n ∈ l → l.find? (fun x => addr x == addr n) = some n := by
    intro l
    induction l with
    | nil => intro _ h; cases h
    | cons x xs ih =>
      intro hd hm
      simp only [List.map_cons, List.nodup_cons] at hd
      rcases List.mem_cons.1 hm with e | hm
      · rw [e, List.find?_cons_of_pos (by simp)]
      · rw [List.find?_cons_of_neg, ih hd.2 hm]
        simp only [beq_iff_eq]
        intro e
        exact hd.1 (e ▸ List.mem_map_of_mem hm)
  rw [key _ hd h]

theorem nodeAt_gone {es : List (List N)} {a : Nat} (h : a ∉ es.flatten.map addr) : nodeAt addr es a = .error .ub := by
  unfold nodeAt
  rw [List.find?_eq_none.2]
  intro x hx e
  exact h (by rw [← beq_iff_eq.1 e]; exact List.mem_map_of_mem hx)

theorem nextOf_gone {es : List (List N)} {a : Nat} (h : a ∉ es.flatten.map addr) : nextOf addr es a = .error .ub := by
  unfold nextOf
  rw [List.findSome?_eq_none_iff.2]
  intro l hl
  refine nextIn_none (fun hm => h ?_)
  obtain ⟨x, hx, e⟩ := List.mem_map.1 hm
  exact e ▸ List.mem_map_of_mem (List.mem_flatten.2 ⟨l, hl, hx⟩)

/-- Either all remaining chains are empty, or the first that is not is found. -/
theorem findNext_ok (es : List (List N)) (k : Nat) (hk : k ≤ es.length) :
    (findNext addr true es es.length k = .ok (es.length, none) ∧ (es.drop (es.length - k)).flatten = []) ∨
    ∃ c n ns, findNext addr true es es.length k = .ok (c, some (addr n)) ∧ es.length - k ≤ c ∧ es[c]? = some (n :: ns) ∧
      (es.drop (es.length - k)).flatten = n :: ns ++ (es.drop (c + 1)).flatten := by
  induction k with
  | zero => exact Or.inl ⟨rfl, by simp⟩
  | succ k ih =>
    have hlt : es.length - (k + 1) < es.length := by omega
    have hg := List.getElem?_eq_getElem hlt
    have hdrop : es.drop (es.length - (k + 1)) = es[es.length - (k + 1)] :: es.drop (es.length - k) := by
      rw [← List.getElem_cons_drop (h := hlt), show es.length - (k + 1) + 1 = es.length - k by omega]
    unfold findNext
    rw [if_pos rfl, hg, hdrop]
    cases e : es[es.length - (k + 1)] with
    | nil =>
      rcases ih (by omega) with ⟨h1, h2⟩ | ⟨c, n, ns, h1, h2, h3, h4⟩
      · exact Or.inl ⟨h1, by simpa using h2⟩
      · exact Or.inr ⟨c, n, ns, h1, by omega, h3, by simpa using h4⟩
    | cons n ns =>
      refine Or.inr ⟨_, n, ns, rfl, Nat.le_refl _, by rw [hg, e], ?_⟩
      rw [show es.length - (k + 1) + 1 = es.length - k by omega, List.flatten_cons]

/-- The loop stands at `cur`, with `post` behind it in its chain. -/
structure Stand (addr : N → Nat) (pl : N → Nat) (same : N → N → Prop) (W : N → Prop) (vis : List N) (es : List (List N)) (arr : Nat) (i : Live)
    (pre : List N) (cur : N) (post : List N) : Prop where
  arr_eq : i.arr = arr
  last_eq : i.last = es.length
  it_eq : i.it = some (addr cur)
  chain : es[i.curr]? = some (pre ++ cur :: post)
  once : vis.Pairwise (fun a b => ¬ same a b)
  behind : ∀ v ∈ vis, pl v < i.curr ∨ (pl v = i.curr ∧ ∀ n ∈ cur :: post, ¬ same n v)
  cover : ∀ w, W w → (∃ v ∈ vis, same v w) ∨ ∃ n ∈ cur :: post ++ (es.drop (i.curr + 1)).flatten, same n w

/-- The loop has ended. -/
structure Ended (same : N → N → Prop) (W : N → Prop) (vis : List N) (i : Live) : Prop where
  more : i.more = false
  once : vis.Pairwise (fun a b => ¬ same a b)
  cover : ∀ w, W w → ∃ v ∈ vis, same v w

theorem Stand.more {W : N → Prop} {vis : List N} {es : List (List N)} {arr : Nat} {i : Live} {pre post : List N} {cur : N}
    (h : Stand addr pl same W vis es arr i pre cur post) : i.more = true := by
  obtain ⟨hb, _⟩ := List.getElem?_eq_some_iff.1 h.chain
  unfold Live.more
  rw [h.last_eq, bne_iff_ne]
  omega

theorem Stand.mem {W : N → Prop} {vis : List N} {es : List (List N)} {arr : Nat} {i : Live} {pre post : List N} {cur : N}
    (h : Stand addr pl same W vis es arr i pre cur post) : cur ∈ es.flatten :=
  List.mem_flatten.2 ⟨_, List.mem_of_getElem? h.chain, by simp⟩

theorem Stand.deref {T : Table S N} {s : S} {W : N → Prop} {vis : List N} {i : Live} {pre post : List N} {cur : N}
    (G : Good T.addr pl same (T.entries s)) (h : Stand T.addr pl same W vis (T.entries s) (T.arr s) i pre cur post) :
    deref T s i = .ok cur := by
  unfold Walk.deref
  rw [h.it_eq]
  exact nodeAt_mem G.nodup h.mem

/-- One step, after a body that leaves the node in place. -/
theorem Stand.step {T : Table S N} {s s' : S} {W : N → Prop} {vis : List N} {i : Live} {pre post : List N} {cur : N} (E : Equiv pl same)
    (G : Good T.addr pl same (T.entries s)) (G' : Good T.addr pl same (T.entries s'))
    (h : Stand T.addr pl same W vis (T.entries s) (T.arr s) i pre cur post) (harr : T.arr s' = T.arr s) {gone : N → Prop}
    (ev : Evolves T.addr same gone (T.entries s) (T.entries s')) (hcur : ¬ gone cur) (hW : ∀ w, W w → ∀ n, same n w → ¬ gone n) :
    ∃ i', inc T s' i = .ok i' ∧
      (Ended same W (vis ++ [cur]) i' ∨
       ∃ pre' cur' post', Stand T.addr pl same W (vis ++ [cur]) (T.entries s') (T.arr s') i' pre' cur' post' ∧
         (i.curr < i'.curr ∨ (i'.curr = i.curr ∧ post'.length < post.length)) ∧ i'.last = i.last) := by
  have hlen := ev.length
  obtain ⟨f, news, hf, hg, hj⟩ := ev
  have hb := (List.getElem?_eq_some_iff.1 h.chain).1
  have hcm := h.mem
  obtain ⟨cur', hc'⟩ : ∃ c, f cur = some c := by
    cases e : f cur with
    | none => exact absurd (hg cur hcm e) hcur
    | some c => exact ⟨c, rfl⟩
  obtain ⟨ha', hs'⟩ := hf _ _ hc'
  have hchain' : (T.entries s')[i.curr]? = some ((news i.curr ++ pre.filterMap f) ++ cur' :: post.filterMap f) := by
    rw [hj, h.chain]
    simp [hc']
  have hnext := nextOf_at G'.nodup hchain'
  rw [ha'] at hnext
  -- what is known of all visited entries
  have hpc : pl cur = i.curr := G.placed _ _ h.chain cur (by simp)
  have once' : (vis ++ [cur]).Pairwise (fun a b => ¬ same a b) := by
    rw [List.pairwise_append]
    refine ⟨h.once, by simp, fun v hv w hw => ?_⟩
    rw [List.mem_singleton] at hw
    subst hw
    intro hs
    rcases h.behind v hv with h1 | ⟨_, h2⟩
    · have := E.pl _ _ hs; omega
    · exact h2 w (by simp) (E.symm _ _ hs)
  have hpost : ∀ n' ∈ post.filterMap f, ∃ n ∈ post, same n n' := by
    intro n' hn'
    obtain ⟨n, hn, e⟩ := List.mem_filterMap.1 hn'
    exact ⟨n, hn, (hf _ _ e).2⟩
  have hflat : (T.entries s).flatten = ((T.entries s).take i.curr).flatten ++ (pre ++ cur :: post) ++ ((T.entries s).drop (i.curr + 1)).flatten := by
    conv => lhs; rw [split_at h.chain]
    simp
  have hcp : ∀ n ∈ post, ¬ same cur n := by
    have hd := G.distinct
    rw [hflat, List.append_assoc, List.pairwise_append] at hd
    have hd := hd.2.1
    rw [List.pairwise_append] at hd
    have hd := hd.1
    rw [List.pairwise_append] at hd
    exact (List.pairwise_cons.1 hd.2.1).1
  have behind' : ∀ v ∈ vis ++ [cur], pl v < i.curr ∨ (pl v = i.curr ∧ ∀ n ∈ post.filterMap f, ¬ same n v) := by
    intro v hv
    rcases List.mem_append.1 hv with hv | hv
    · rcases h.behind v hv with h1 | ⟨h1, h2⟩
      · exact Or.inl h1
      · refine Or.inr ⟨h1, fun n' hn' hs => ?_⟩
        obtain ⟨n, hn, hs2⟩ := hpost n' hn'
        exact h2 n (List.mem_cons_of_mem _ hn) (E.trans _ _ _ hs2 hs)
    · rw [List.mem_singleton] at hv
      subst hv
      refine Or.inr ⟨hpc, fun n' hn' hs => ?_⟩
      obtain ⟨n, hn, hs2⟩ := hpost n' hn'
      exact hcp n hn (E.symm _ _ (E.trans _ _ _ hs2 hs))
  have cover' : ∀ w, W w → (∃ v ∈ vis ++ [cur], same v w) ∨ ∃ n ∈ post.filterMap f ++ ((T.entries s').drop (i.curr + 1)).flatten, same n w := by
    intro w hw
    rcases h.cover w hw with ⟨v, hv, hs⟩ | ⟨n, hn, hs⟩
    · exact Or.inl ⟨v, List.mem_append_left _ hv, hs⟩
    · rcases List.mem_append.1 hn with hn | hn
      · rcases List.mem_cons.1 hn with e | hn
        · subst e
          exact Or.inl ⟨n, by simp, hs⟩
        · right
          obtain ⟨n', hn'⟩ : ∃ c, f n = some c := by
            cases e : f n with
            | none =>
              refine absurd (hg n ?_ e) (hW w hw n hs)
              rw [hflat]; simp [hn]
            | some c => exact ⟨c, rfl⟩
          exact ⟨n', List.mem_append_left _ (List.mem_filterMap.2 ⟨n, hn, hn'⟩), E.trans _ _ _ (E.symm _ _ (hf _ _ hn').2) hs⟩
      · right
        obtain ⟨n', hn'⟩ : ∃ c, f n = some c := by
          cases e : f n with
          | none =>
            refine absurd (hg n ?_ e) (hW w hw n hs)
            rw [hflat]; simp only [List.mem_append]; exact Or.inr hn
          | some c => exact ⟨c, rfl⟩
        refine ⟨n', List.mem_append_right _ ?_, E.trans _ _ _ (E.symm _ _ (hf _ _ hn').2) hs⟩
        obtain ⟨l, hl, hnl⟩ := List.mem_flatten.1 hn
        obtain ⟨j, hjl⟩ := List.getElem?_of_mem hl
        rw [List.getElem?_drop] at hjl
        have := hj (i.curr + 1 + j)
        rw [hjl] at this
        refine List.mem_flatten.2 ⟨_, List.mem_of_getElem? (i := j) (by rw [List.getElem?_drop]; exact this), ?_⟩
        exact List.mem_append_right _ (List.mem_filterMap.2 ⟨n, hnl, hn'⟩)
  unfold inc
  rw [h.it_eq]
  dsimp only
  rw [hnext, R.ok_bind]
  cases hpf : post.filterMap f with
  | cons n ns =>
    rw [hpf] at hchain' behind' cover'
    refine ⟨_, rfl, Or.inr ⟨(news i.curr ++ pre.filterMap f) ++ [cur'], n, ns, ⟨h.arr_eq.trans harr.symm, h.last_eq.trans hlen.symm, rfl, ?_, once', behind', cover'⟩, ?_, rfl⟩⟩
    · change (T.entries s')[i.curr]? = _
      rw [hchain']; simp
    · refine Or.inr ⟨rfl, ?_⟩
      have := List.length_filterMap_le f post
      rw [hpf, List.length_cons] at this
      omega
  | nil =>
    rw [hpf] at behind' cover'
    dsimp only [List.head?_nil, Option.map_none]
    rw [show (i.arr == T.arr s') = true by rw [h.arr_eq, harr]; exact beq_self_eq_true _, h.last_eq, ← hlen]
    have hk : (T.entries s').length - ((T.entries s').length - (i.curr + 1)) = i.curr + 1 := by omega
    rcases findNext_ok (addr := T.addr) (T.entries s') ((T.entries s').length - (i.curr + 1)) (by omega) with ⟨h1, h2⟩ | ⟨c, n, ns, h1, h2, h3, h4⟩
    · rw [h1, R.ok_bind]
      refine ⟨_, rfl, Or.inl ⟨?_, once', fun w hw => ?_⟩⟩
      · unfold Live.more
        exact bne_self_eq_false' ..
      · rw [hk] at h2
        rcases cover' w hw with h | ⟨n, hn, _⟩
        · exact h
        · rw [h2] at hn; cases hn
    · rw [h1, R.ok_bind]
      rw [hk] at h2 h4
      refine ⟨_, rfl, Or.inr ⟨[], n, ns, ⟨h.arr_eq.trans harr.symm, rfl, rfl, h3, once', ?_, ?_⟩, Or.inl ?_, rfl⟩⟩
      · intro v hv
        left
        change pl v < c
        rcases behind' v hv with h | ⟨h, _⟩ <;> omega
      · intro w hw
        rcases cover' w hw with h | ⟨x, hx, hs⟩
        · exact Or.inl h
        · rw [h4] at hx
          exact Or.inr ⟨x, hx, hs⟩
      · change i.curr < c
        omega

/-- The rounds of a loop whose body leaves in place the entry the loop stands at. -/
def Calm (T : Table S N) (pl : N → Nat) (same : N → N → Prop) (gone : List N → N → Prop) (W : N → Prop) (body : List N → S → R S)
    (c0 : List N × S × Live) : Prop :=
  ∀ k vis s i n, rounds T body k c0 = .ok (vis, s, i) → i.more = true → deref T s i = .ok n → Good T.addr pl same (T.entries s) →
    i.last = (T.entries s).length → (∀ w, W w → ∀ x, same x w → ¬ gone (vis ++ [n]) x) ∧ ¬ gone (vis ++ [n]) n ∧
    ∃ s', body (vis ++ [n]) s = .ok s' ∧ Good T.addr pl same (T.entries s') ∧ T.arr s' = T.arr s ∧
      Evolves T.addr same (gone (vis ++ [n])) (T.entries s) (T.entries s')

theorem Stand.ends {T : Table S N} {W : N → Prop} {gone : List N → N → Prop} {body : List N → S → R S} (E : Equiv pl same) (d : Nat) :
    ∀ (m : Nat) (vis : List N) (s : S) (i : Live) (pre : List N) (cur : N) (post : List N), i.last - i.curr = d → post.length = m →
      Good T.addr pl same (T.entries s) → Stand T.addr pl same W vis (T.entries s) (T.arr s) i pre cur post →
      Calm T pl same gone W body (vis, s, i) →
      ∃ k vis' s' i', rounds T body k (vis, s, i) = .ok (vis', s', i') ∧ Ended same W vis' i' ∧ Good T.addr pl same (T.entries s') := by
  induction d using Nat.strongRecOn with
  | ind d ihd =>
    intro m
    induction m using Nat.strongRecOn with
    | ind m ihm =>
      intro vis s i pre cur post hd hm G h hc
      obtain ⟨c1, c2, s', hb, G', harr, ev⟩ := hc 0 vis s i cur rfl h.more (h.deref G) G h.last_eq
      obtain ⟨i', hi, hcase⟩ := h.step E G G' harr ev c2 c1
      have hround : round T body (vis, s, i) = .ok (vis ++ [cur], s', i') := by
        unfold round
        dsimp only
        rw [h.deref G, R.ok_bind, hb, R.ok_bind, hi, R.ok_bind]
      have hrs : ∀ k, rounds T body (k + 1) (vis, s, i) = rounds T body k (vis ++ [cur], s', i') := by
        intro k
        rw [rounds, if_pos h.more, hround, R.ok_bind]
      have hc' : Calm T pl same gone W body (vis ++ [cur], s', i') := by
        intro k v t j n hk
        exact hc (k + 1) v t j n ((hrs k).trans hk)
      rcases hcase with he | ⟨pre', cur', post', h', hdec, hlast⟩
      · exact ⟨1, _, s', i', by rw [hrs 0]; rfl, he, G'⟩
      · have hlt : i.curr < i.last := by rw [h.last_eq]; exact (List.getElem?_eq_some_iff.1 h.chain).1
        obtain ⟨k, r⟩ : ∃ k vis'' s'' i'', rounds T body k (vis ++ [cur], s', i') = .ok (vis'', s'', i'') ∧ Ended same W vis'' i'' ∧
            Good T.addr pl same (T.entries s'') := by
          rcases hdec with hdec | ⟨h1, h2⟩
          · exact ihd (i'.last - i'.curr) (by omega) _ _ _ _ _ _ _ rfl rfl G' h' hc'
          · exact ihm post'.length (by omega) _ _ _ _ _ _ (by omega) rfl G' h' hc'
        obtain ⟨v, t, j, r1, r2⟩ := r
        exact ⟨k + 1, v, t, j, (hrs k).trans r1, r2⟩

/-- The whole loop. -/
theorem loop_ok {T : Table S N} {W : N → Prop} {gone : List N → N → Prop} {body : List N → S → R S} (E : Equiv pl same) (s : S)
    (G : Good T.addr pl same (T.entries s)) (hW : ∀ w, W w → ∃ n ∈ (T.entries s).flatten, same n w) :
    ∃ i, first T s = .ok i ∧ (Calm T pl same gone W body ([], s, i) →
      ∃ k vis' s' i', rounds T body k ([], s, i) = .ok (vis', s', i') ∧ Ended same W vis' i' ∧ Good T.addr pl same (T.entries s')) := by
  unfold first
  rcases findNext_ok (addr := T.addr) (T.entries s) (T.entries s).length (Nat.le_refl _) with ⟨h1, h2⟩ | ⟨c, n, ns, h1, h2, h3, h4⟩
  · rw [h1, R.ok_bind]
    refine ⟨_, rfl, fun _ => ⟨0, [], s, _, rfl, ⟨bne_self_eq_false' .., List.Pairwise.nil, fun w hw => ?_⟩, G⟩⟩
    rw [Nat.sub_self, List.drop_zero] at h2
    obtain ⟨n, hn, _⟩ := hW w hw
    rw [h2] at hn; cases hn
  · rw [h1, R.ok_bind]
    refine ⟨_, rfl, fun hc => ?_⟩
    refine Stand.ends E _ _ [] s _ [] n ns rfl rfl G ⟨rfl, rfl, rfl, h3, List.Pairwise.nil, (fun v hv => by cases hv), fun w hw => ?_⟩ hc
    obtain ⟨x, hx, hs⟩ := hW w hw
    rw [Nat.sub_self, List.drop_zero] at h4
    rw [h4] at hx
    exact Or.inr ⟨x, hx, hs⟩

theorem inc_last {T : Table S N} {s : S} {i i' : Live} (h : inc T s i = .ok i') : i'.last = i.last ∧ i'.arr = i.arr := by
  unfold inc at h
  cases e : i.it with
  | none => rw [e] at h; cases h
  | some a =>
    rw [e] at h
    obtain ⟨r, _, h⟩ := R.bind_eq_ok.1 h
    cases r with
    | some b => cases h; exact ⟨rfl, rfl⟩
    | none =>
      obtain ⟨p, _, h⟩ := R.bind_eq_ok.1 h
      cases h; exact ⟨rfl, rfl⟩

theorem round_ok {T : Table S N} {body : List N → S → R S} {vis vis' : List N} {s s' : S} {i i' : Live}
    (h : round T body (vis, s, i) = .ok (vis', s', i')) :
    ∃ n, deref T s i = .ok n ∧ vis' = vis ++ [n] ∧ body (vis ++ [n]) s = .ok s' ∧ inc T s' i = .ok i' := by
  unfold round at h
  obtain ⟨n, h1, h⟩ := R.bind_eq_ok.1 h
  obtain ⟨t, h2, h⟩ := R.bind_eq_ok.1 h
  obtain ⟨j, h3, h⟩ := R.bind_eq_ok.1 h
  cases h
  exact ⟨n, h1, rfl, h2, h3⟩

/-- What every round preserves holds after all rounds. -/
theorem rounds_inv {T : Table S N} {body : List N → S → R S} {P : List N → S → Prop}
    (hP : ∀ vis n s s', P vis s → body (vis ++ [n]) s = .ok s' → P (vis ++ [n]) s') (k : Nat) :
    ∀ {vis vis' : List N} {s s' : S} {i i' : Live}, P vis s → rounds T body k (vis, s, i) = .ok (vis', s', i') →
      P vis' s' ∧ i'.last = i.last ∧ i'.arr = i.arr := by
  induction k with
  | zero => intro vis vis' s s' i i' p h; cases h; exact ⟨p, rfl, rfl⟩
  | succ k ih =>
    intro vis vis' s s' i i' p h
    rw [rounds] at h
    split at h
    · obtain ⟨⟨v, t, j⟩, h1, h2⟩ := R.bind_eq_ok.1 h
      obtain ⟨n, _, rfl, hb, hi⟩ := round_ok h1
      obtain ⟨a, b, c⟩ := ih (hP _ _ _ _ p hb) h2
      obtain ⟨d, e⟩ := inc_last hi
      exact ⟨a, b.trans d, c.trans e⟩
    · cases h; exact ⟨p, rfl, rfl⟩

theorem rounds_add (T : Table S N) (body : List N → S → R S) (a b : Nat) (c : List N × S × Live) :
    rounds T body (a + b) c = rounds T body a c >>= rounds T body b := by
  induction a generalizing c with
  | zero => rw [Nat.zero_add]; rfl
  | succ a ih =>
    rw [Nat.add_right_comm, rounds, rounds]
    split
    · cases round T body c with
      | error f => rfl
      | ok c' => rw [R.ok_bind, R.ok_bind, ih]
    · rename_i h
      rw [R.ok_bind]
      cases b with
      | zero => rfl
      | succ b => rw [rounds, if_neg h]

theorem rounds_ended {T : Table S N} {body : List N → S → R S} {c : List N × S × Live} (h : c.2.2.more = false) (k : Nat) :
    rounds T body k c = .ok c := by
  cases k with
  | zero => rfl
  | succ k => rw [rounds, if_neg (by rw [h]; exact Bool.false_ne_true)]

/-- There is only one end. -/
theorem rounds_end_unique {T : Table S N} {body : List N → S → R S} {c c1 c2 : List N × S × Live} {a b : Nat}
    (h1 : rounds T body a c = .ok c1) (e1 : c1.2.2.more = false) (h2 : rounds T body b c = .ok c2) (e2 : c2.2.2.more = false) : c1 = c2 := by
  have x : rounds T body (a + b) c = .ok c1 := by rw [rounds_add, h1, R.ok_bind, rounds_ended e1]
  have y : rounds T body (b + a) c = .ok c2 := by rw [rounds_add, h2, R.ok_bind, rounds_ended e2]
  rw [Nat.add_comm, x] at y
  exact Except.ok.inj y

theorem rounds_prefix {T : Table S N} {body : List N → S → R S} (k : Nat) : ∀ {vis vis' : List N} {s s' : S} {i i' : Live},
    rounds T body k (vis, s, i) = .ok (vis', s', i') → vis <+: vis' := by
  induction k with
  | zero => intro vis vis' s s' i i' h; cases h; exact List.prefix_rfl
  | succ k ih =>
    intro vis vis' s s' i i' h
    rw [rounds] at h
    split at h
    · obtain ⟨⟨v, t, j⟩, h1, h2⟩ := R.bind_eq_ok.1 h
      obtain ⟨n, _, rfl, hb, hi⟩ := round_ok h1
      exact (List.prefix_append _ _).trans (ih h2)
    · cases h; exact List.prefix_rfl

/-- What has been shown when a round begins is the beginning of all that is shown. -/
theorem round_prefix {T : Table S N} {body : List N → S → R S} {c0 : List N × S × Live} {k a : Nat} {vis v : List N} {s t : S} {i j : Live} {n : N}
    (h : rounds T body k c0 = .ok (vis, s, i)) (e : i.more = false) (h' : rounds T body a c0 = .ok (v, t, j)) (m : j.more = true)
    (d : deref T t j = .ok n) : v ++ [n] <+: vis := by
  have hk : rounds T body (a + (k + 1)) c0 = .ok (vis, s, i) := by
    rw [show a + (k + 1) = k + (a + 1) by omega, rounds_add, h, R.ok_bind, rounds_ended e]
  rw [rounds_add, h', R.ok_bind, rounds, if_pos m] at hk
  obtain ⟨⟨v2, t2, j2⟩, h1, h2⟩ := R.bind_eq_ok.1 hk
  obtain ⟨n', d', rfl, _, _⟩ := round_ok h1
  cases d.symm.trans d'
  exact rounds_prefix _ h2

/-- A loop whose body leaves the current entry in place ends, shows nothing twice, and shows everything that is not removed. -/
theorem loop_total {T : Table S N} {gone : List N → N → Prop} {body : List N → S → R S} (E : Equiv pl same) (s : S) {i : Live}
    (G : Good T.addr pl same (T.entries s)) (hi : first T s = .ok i) (hc : Calm T pl same gone (fun _ => False) body ([], s, i)) :
    ∃ k vis s' i', rounds T body k ([], s, i) = .ok (vis, s', i') ∧ i'.more = false ∧ vis.Pairwise (fun a b => ¬ same a b) ∧
      ∀ w, (∃ n ∈ (T.entries s).flatten, same n w) → (∀ v, v ≠ [] → v <+: vis → ∀ x, same x w → ¬ gone v x) → ∃ v ∈ vis, same v w := by
  obtain ⟨i1, e1, h1⟩ := loop_ok (gone := gone) (body := body) (W := fun _ => False) E s G (fun _ h => h.elim)
  cases e1.symm.trans hi
  obtain ⟨k, vis, s', i', hr, he, _⟩ := h1 hc
  refine ⟨k, vis, s', i', hr, he.more, he.once, fun w hw hg => ?_⟩
  obtain ⟨i2, e2, h2⟩ := loop_ok (gone := gone) (body := body) (W := fun x => x = w) E s G (fun x h => h ▸ hw)
  cases e2.symm.trans hi
  obtain ⟨k2, vis2, s2, i2', hr2, he2, _⟩ := h2 (by
    intro a v t j n h3 h4 h5 h6 h7
    refine ⟨fun x hx y hy => ?_, (hc a v t j n h3 h4 h5 h6 h7).2⟩
    subst hx
    exact hg _ (by simp) (round_prefix hr he.more h3 h4 h5) y hy)
  cases rounds_end_unique hr he.more hr2 he2.more
  exact he2.cover w rfl

theorem calls_snoc {E O : Type _} (prog : List E → List O) (l : List E) (x : E) : calls prog (l ++ [x]) = calls prog l ++ prog (l ++ [x]) := by
  unfold calls
  rw [List.length_append, List.length_singleton, List.range_succ, List.flatMap_append]
  congr 1
  · rw [List.flatMap_def, List.flatMap_def]
    congr 1
    apply List.map_congr_left
    intro j hj
    rw [List.mem_range] at hj
    rw [List.take_append_of_le_length (by omega)]
  · rw [List.flatMap_singleton, List.take_of_length_le (by simp)]

theorem mem_calls {E O : Type _} {prog : List E → List O} {v l : List E} (h : v <+: l) (hv : v ≠ []) {o : O} (ho : o ∈ prog v) : o ∈ calls prog l := by
  unfold calls
  rw [List.mem_flatMap]
  have hpos : 0 < v.length := List.length_pos_iff.2 hv
  refine ⟨v.length - 1, List.mem_range.2 (by have := h.length_le; omega), ?_⟩
  rw [show v.length - 1 + 1 = v.length by omega, ← List.prefix_iff_eq_take.1 h]
  exact ho

theorem Evolves.mono {N : Type _} {addr : N → Nat} {same : N → N → Prop} {g g' : N → Prop} {a b : List (List N)} (h : Evolves addr same g a b)
    (hg : ∀ n, g n → g' n) : Evolves addr same g' a b := by
  obtain ⟨f, news, h1, h2, h3⟩ := h
  exact ⟨f, news, h1, fun n hn e => hg n (h2 n hn e), h3⟩

end Verif.Walk
