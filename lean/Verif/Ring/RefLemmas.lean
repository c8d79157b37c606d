import Verif.Ring.Ref

/-! Lemmas for C139: the model with memory does what `Ring.Model` does, and where the elements are. -/
namespace Verif.Ring.Ref
open Verif.Mem Verif.Ring

variable {α : Type}

theorem ringOf_inv {mem : List (Option (Buf α))} {h : Hdr} {r : Ring α} (e : ringOf mem h = .ok r) :
    (h.data = none ∧ r = ⟨h.begin_, h.end_, h.mask, none⟩) ∨
      ∃ b buf, h.data = some b ∧ mem[b]? = some (some buf) ∧ r = ⟨h.begin_, h.end_, h.mask, some buf⟩ := by
  unfold ringOf at e
  split at e
  · rename_i hd; exact Or.inl ⟨hd, (Except.ok.inj e).symm⟩
  · rename_i b hd
    split at e
    · rename_i buf hb; exact Or.inr ⟨b, buf, hd, hb, (Except.ok.inj e).symm⟩
    · cases e

theorem ringOf_some {mem : List (Option (Buf α))} {h : Hdr} {b : Nat} {buf : Buf α} (hd : h.data = some b)
    (hb : mem[b]? = some (some buf)) : ringOf mem h = .ok ⟨h.begin_, h.end_, h.mask, some buf⟩ := by
  unfold ringOf; rw [hd]; simp only [hb]

theorem ringOf_congr {mem mem' : List (Option (Buf α))} {h : Hdr} (e : ∀ b, h.data = some b → mem'[b]? = mem[b]?) :
    ringOf mem' h = ringOf mem h := by
  unfold ringOf
  cases hd : h.data with
  | none => rfl
  | some b => simp only [e b hd]

/-- The world with memory holds the ringbuffers of the world without. -/
structure Sim (m : World α) (w : Ring.World α) : Prop where
  ring : ∀ i, ringOf m.mem (m.rings i) = .ok (w.rings i)
  inj : ∀ i j b, (m.rings i).data = some b → (m.rings j).data = some b → i = j

theorem Sim.init : Sim (World.init : World α) Ring.World.init where
  ring := fun _ => rfl
  inj := fun i j b h => by cases h

theorem Sim.hdr {m : World α} {w : Ring.World α} (S : Sim m w) (i : Nat) :
    (w.rings i).begin_ = (m.rings i).begin_ ∧ (w.rings i).end_ = (m.rings i).end_ ∧ (w.rings i).mask = (m.rings i).mask ∧
      (w.rings i).data.isSome = (m.rings i).data.isSome := by
  rcases ringOf_inv (S.ring i) with ⟨hd, e⟩ | ⟨b, buf, hd, -, e⟩ <;> rw [e, hd] <;> exact ⟨rfl, rfl, rfl, rfl⟩

theorem Sim.lt {m : World α} {w : Ring.World α} (S : Sim m w) {i b : Nat} (h : (m.rings i).data = some b) :
    b < m.mem.length ∧ ∃ buf, m.mem[b]? = some (some buf) ∧ (w.rings i).data = some buf := by
  rcases ringOf_inv (S.ring i) with ⟨hd, e⟩ | ⟨b', buf, hd, hb, e⟩
  · rw [hd] at h; cases h
  · rw [hd] at h
    cases h
    refine ⟨?_, buf, hb, by rw [e]⟩
    exact (List.getElem?_eq_some_iff.1 hb).1

theorem Sim.inPlace {m : World α} {w : Ring.World α} (S : Sim m w) (i : Nat) {r : Ring α} (l : Nat)
    (hr : r.data.isSome = (w.rings i).data.isSome) : Sim (inPlace m i r) (w.put i r l) where
  ring := by
    intro j
    unfold Ref.inPlace World.put
    by_cases hj : j = i
    · subst hj
      simp only [upd, if_true]
      rcases ringOf_inv (S.ring j) with ⟨hd, e⟩ | ⟨b, buf, hd, hb, e⟩
      · rw [e] at hr
        have : r.data = none := by simpa using hr
        simp only [hd]
        unfold ringOf
        simp only
        cases r; simp_all
      · rw [e] at hr
        obtain ⟨buf', hb'⟩ : ∃ buf', r.data = some buf' := Option.isSome_iff_exists.1 hr
        simp only [hd]
        have hlt := (List.getElem?_eq_some_iff.1 hb).1
        rw [ringOf_some (b := b) (buf := buf') rfl (by rw [List.getElem?_set_self hlt, hb'])]
        cases r; simp_all
    · simp only [upd, if_neg hj]
      rw [← S.ring j]
      apply ringOf_congr
      intro b hb
      cases hd : (m.rings i).data with
      | none => rfl
      | some b' =>
        simp only
        have : b' ≠ b := fun h => hj (S.inj j i b hb (by rw [hd, h]))
        rw [List.getElem?_set_ne this]
  inj := by
    intro x y b hx hy
    unfold Ref.inPlace at hx hy
    simp only [upd] at hx hy
    have hx' : (m.rings x).data = some b := by
      split at hx
      · rename_i h; rw [h]; exact hx
      · exact hx
    have hy' : (m.rings y).data = some b := by
      split at hy
      · rename_i h; rw [h]; exact hy
      · exact hy
    exact S.inj x y b hx' hy'

theorem Sim.free {m : World α} {w : Ring.World α} (S : Sim m w) (i : Nat) :
    ∃ mem, free m.mem (m.rings i).data = .ok mem ∧ mem.length = m.mem.length ∧
      (∀ j, j ≠ i → ringOf mem (m.rings j) = .ok (w.rings j)) ∧
      (∀ b, (m.rings i).data = some b → mem[b]? = some none) ∧
      (∀ b, (m.rings i).data ≠ some b → mem[b]? = m.mem[b]?) := by
  cases hd : (m.rings i).data with
  | none => exact ⟨m.mem, rfl, rfl, fun j _ => S.ring j, fun b h => (by cases h), fun _ _ => rfl⟩
  | some b =>
    obtain ⟨hlt, buf, hb, -⟩ := S.lt hd
    refine ⟨m.mem.set b none, ?_, by simp, ?_, ?_, ?_⟩
    · unfold Ref.free; simp only [hb]
    · intro j hj
      rw [← S.ring j]
      apply ringOf_congr
      intro b' hb'
      have : b ≠ b' := fun h => hj (S.inj j i b' hb' (by rw [hd, h]))
      rw [List.getElem?_set_ne this]
    · intro b' hb'
      cases hb'
      rw [List.getElem?_set_self hlt]
    · intro b' hb'
      rw [List.getElem?_set_ne fun h => hb' (by rw [h])]

theorem Sim.replaced {m : World α} {w : Ring.World α} (S : Sim m w) (i : Nat) {r : Ring α} (l : Nat) (hr : r.data.isSome = true) :
    ∃ m', replaced m i r = .ok m' ∧ Sim m' (w.put i r l) ∧
      m'.rings = upd m.rings i ⟨r.begin_, r.end_, r.mask, some m.mem.length⟩ ∧
      (∀ b, (m.rings i).data = some b → m'.mem[b]? = some none) := by
  obtain ⟨mem, e, hlen, ho, hf, -⟩ := S.free i
  unfold Ref.replaced
  rw [e]
  simp only [R.ok_bind]
  obtain ⟨buf, hbuf⟩ := Option.isSome_iff_exists.1 hr
  refine ⟨_, rfl, ⟨?_, ?_⟩, by simp only [hlen], ?_⟩
  · intro j
    unfold World.put
    by_cases hj : j = i
    · subst hj
      simp only [upd, if_true]
      rw [ringOf_some (b := mem.length) (buf := buf) rfl (by rw [List.getElem?_append_right (Nat.le_refl _), Nat.sub_self]; simp [hbuf])]
      cases r; simp_all
    · simp only [upd, if_neg hj]
      rw [← ho j hj]
      apply ringOf_congr
      intro b hb
      rw [List.getElem?_append_left (by rw [hlen]; exact (S.lt hb).1)]
  · intro x y b hx hy
    simp only [upd] at hx hy
    split at hx <;> split at hy
    · omega
    · cases hx; have := (S.lt hy).1; omega
    · cases hy; have := (S.lt hx).1; omega
    · exact S.inj x y b hx hy
  · intro b hb
    simp only
    rw [List.getElem?_append_left (by rw [hlen]; exact (S.lt hb).1)]
    exact hf b hb

/-! ### What the functions do to the members -/

theorem buf_inv {r : Ring α} {b : Buf α} (h : buf r = .ok b) : r.data = some b := by
  unfold buf at h
  split at h
  · rename_i hd; rw [hd, Except.ok.inj h]
  · cases h

theorem grow_inv {triv : Bool} {r r' : Ring α} {np off l : Nat} {arg : Arg α} (h : grow triv r np off arg = .ok (r', l)) :
    r'.data.isSome = true ∧ r'.begin_ = 0 ∧ r'.end_ = size r + 1 := by
  unfold grow at h
  simp only [R.bind_eq_ok] at h
  obtain ⟨-, -, a, -, new, -, ⟨old, new'⟩, -, h⟩ := h
  have := congrArg Prod.fst (Except.ok.inj h)
  simp only at this
  rw [← this]
  exact ⟨rfl, rfl, rfl⟩

theorem emplaceBack_inv {triv : Bool} {r r' : Ring α} {l : Nat} {arg : Arg α} (h : emplaceBack triv r arg = .ok (r', l)) :
    if growsBack r then r'.data.isSome = true ∧ r'.begin_ = 0 ∧ r'.end_ = size r + 1
    else r'.data.isSome = r.data.isSome ∧ r'.begin_ = r.begin_ ∧ r'.mask = r.mask := by
  unfold emplaceBack at h
  unfold growsBack
  simp only at h
  by_cases hg : addMask r.end_ 1 r.mask = r.begin_
  · rw [if_neg (by simpa using hg)] at h
    rw [if_pos (by simpa using hg)]
    exact grow_inv h
  · rw [if_pos hg] at h
    rw [if_neg (by simpa using hg)]
    simp only [R.bind_eq_ok] at h
    obtain ⟨b, hb, a, -, b', -, h⟩ := h
    have := congrArg Prod.fst (Except.ok.inj h)
    simp only at this
    rw [← this, buf_inv hb]
    exact ⟨rfl, rfl, rfl⟩

theorem emplaceFront_inv {triv : Bool} {r r' : Ring α} {l : Nat} {arg : Arg α} (h : emplaceFront triv r arg = .ok (r', l)) :
    if growsFront r then r'.data.isSome = true ∧ r'.begin_ = 0 ∧ r'.end_ = size r + 1
    else r'.data.isSome = r.data.isSome ∧ r'.begin_ = subMask r.begin_ 1 r.mask ∧ r'.mask = r.mask := by
  unfold emplaceFront at h
  unfold growsFront
  simp only at h
  by_cases hg : subMask r.begin_ 1 r.mask = r.end_
  · rw [if_neg (by simpa using hg)] at h
    rw [if_pos (by simpa using hg)]
    exact grow_inv h
  · rw [if_pos hg] at h
    rw [if_neg (by simpa using hg)]
    simp only [R.bind_eq_ok] at h
    obtain ⟨b, hb, a, -, b', -, h⟩ := h
    have := congrArg Prod.fst (Except.ok.inj h)
    simp only at this
    rw [← this, buf_inv hb]
    exact ⟨rfl, rfl, rfl⟩

theorem emplaceBackStable_inv {triv : Bool} {r r' : Ring α} {l : Nat} {arg : Arg α}
    (h : emplaceBackStable triv r arg = .ok (r', l)) :
    r'.data.isSome = r.data.isSome ∧ r'.begin_ = r.begin_ ∧ r'.mask = r.mask := by
  unfold emplaceBackStable at h
  simp only [R.bind_eq_ok] at h
  obtain ⟨-, -, b, hb, a, -, b', -, h⟩ := h
  have := congrArg Prod.fst (Except.ok.inj h)
  simp only at this
  rw [← this, buf_inv hb]
  exact ⟨rfl, rfl, rfl⟩

theorem emplaceFrontStable_inv {triv : Bool} {r r' : Ring α} {l : Nat} {arg : Arg α}
    (h : emplaceFrontStable triv r arg = .ok (r', l)) :
    r'.data.isSome = r.data.isSome ∧ r'.begin_ = subMask r.begin_ 1 r.mask ∧ r'.mask = r.mask := by
  unfold emplaceFrontStable at h
  simp only [R.bind_eq_ok] at h
  obtain ⟨-, -, b, hb, a, -, b', -, h⟩ := h
  have := congrArg Prod.fst (Except.ok.inj h)
  simp only at this
  rw [← this, buf_inv hb]
  exact ⟨rfl, rfl, rfl⟩

theorem popBack_inv {triv : Bool} {r r' : Ring α} {a : α} (h : popBack triv r = .ok (a, r')) :
    r'.data.isSome = r.data.isSome ∧ r'.begin_ = r.begin_ ∧ r'.mask = r.mask := by
  unfold popBack at h
  simp only [R.bind_eq_ok] at h
  obtain ⟨-, -, b, hb, ⟨a', b'⟩, -, b'', -, h⟩ := h
  have := congrArg Prod.snd (Except.ok.inj h)
  simp only at this
  rw [← this, buf_inv hb]
  exact ⟨rfl, rfl, rfl⟩

theorem popFront_inv {triv : Bool} {r r' : Ring α} {a : α} (h : popFront triv r = .ok (a, r')) :
    r'.data.isSome = r.data.isSome ∧ r'.begin_ = addMask r.begin_ 1 r.mask ∧ r'.mask = r.mask := by
  unfold popFront at h
  simp only [R.bind_eq_ok] at h
  obtain ⟨-, -, b, hb, ⟨a', b'⟩, -, b'', -, h⟩ := h
  have := congrArg Prod.snd (Except.ok.inj h)
  simp only at this
  rw [← this, buf_inv hb]
  exact ⟨rfl, rfl, rfl⟩

theorem set_inv {r r' : Ring α} {k : Nat} {a : α} (h : set r k a = .ok r') :
    r'.data.isSome = r.data.isSome ∧ r'.begin_ = r.begin_ ∧ r'.mask = r.mask := by
  unfold set at h
  simp only [R.bind_eq_ok] at h
  obtain ⟨-, -, b, hb, b', -, h⟩ := h
  have := Except.ok.inj h
  rw [← this, buf_inv hb]
  exact ⟨rfl, rfl, rfl⟩

theorem clear_inv {triv : Bool} {r r' : Ring α} (h : clear triv r = .ok r') : r'.data.isSome = r.data.isSome := by
  unfold clear at h
  simp only [R.bind_eq_ok] at h
  obtain ⟨d, hd, h⟩ := h
  have := Except.ok.inj h
  rw [← this]
  simp only
  unfold destroyAll at hd
  split at hd
  · rw [Except.ok.inj hd]
  · split at hd
    · rename_i b hb
      simp only [R.bind_eq_ok] at hd
      obtain ⟨b', -, hd⟩ := hd
      rw [hb, ← Except.ok.inj hd]; rfl
    · rename_i hb
      split at hd
      · rw [hb, ← Except.ok.inj hd]
      · cases hd

theorem copy_inv {triv : Bool} {r r' : Ring α} (h : copy triv r = .ok r') : r'.data.isSome = true := by
  unfold copy at h
  simp only [R.bind_eq_ok] at h
  obtain ⟨n, -, h⟩ := h
  rw [← Except.ok.inj h]; rfl

/-! ### Simulation -/

/-- The call does what it does without memory. -/
def Agree (y : R (World α × Obs α × Option Place)) : R (Ring.World α × Obs α) → Prop
  | .ok (w', o) => ∃ m' p, y = .ok (m', o, p) ∧ Sim m' w'
  | .error e => y = .error e

theorem push_sim {m : World α} {w : Ring.World α} (S : Sim m w) (i : Nat) (a : PushArg α) {f : Ring α → Arg α → R (Ring α × Nat)}
    {grows : Ring α → Bool} (slot : Ring α → Nat)
    (hf : ∀ r arg r' l, f r arg = .ok (r', l) → if grows r then r'.data.isSome = true else r'.data.isSome = r.data.isSome) :
    Agree (push m i a f grows slot) (w.push i a f) := by
  unfold World.push push
  rw [S.ring i]
  simp only [R.ok_bind]
  cases hp : pushArg (w.rings i) a with
  | error e => rfl
  | ok arg =>
    simp only [R.ok_bind]
    cases hq : f (w.rings i) arg with
    | error e => rfl
    | ok q =>
      obtain ⟨r', l⟩ := q
      simp only [R.ok_bind]
      have h := hf _ _ _ _ hq
      by_cases hg : grows (w.rings i) = true
      · rw [if_pos hg] at h
        obtain ⟨m', e, S', -⟩ := S.replaced i l h
        rw [if_pos hg, e]
        exact ⟨m', _, rfl, S'⟩
      · rw [if_neg hg] at h
        rw [if_neg hg]
        exact ⟨_, _, rfl, S.inPlace i l h⟩

theorem pop_sim {m : World α} {w : Ring.World α} (S : Sim m w) (i : Nat) {f : Ring α → R (α × Ring α)}
    (hf : ∀ r a r', f r = .ok (a, r') → r'.data.isSome = r.data.isSome) :
    Agree (pop m i f) (w.pop i f) := by
  unfold World.pop pop
  rw [S.ring i]
  simp only [R.ok_bind]
  cases hq : f (w.rings i) with
  | error e => rfl
  | ok q =>
    obtain ⟨a, r'⟩ := q
    exact ⟨_, _, rfl, S.inPlace i 0 (hf _ _ _ hq)⟩

theorem copy_sim {m : World α} {w : Ring.World α} (S : Sim m w) (i j : Nat) (cp : Ring α → R (Ring α)) (dt : Ring α → R Nat)
    (hcp : ∀ r r', cp r = .ok r' → r'.data.isSome = true) :
    Agree (do
      let src ← ringOf m.mem (m.rings j)
      let t ← cp src
      let r ← ringOf m.mem (m.rings i)
      let _ ← dt r
      let m' ← replaced m i t
      .ok (m', .none, none)) (do
      let t ← cp (w.rings j)
      let l ← dt (w.rings i)
      .ok (w.put i t l, .none)) := by
  rw [S.ring i, S.ring j]
  simp only [R.ok_bind]
  cases hq : cp (w.rings j) with
  | error e => rfl
  | ok t =>
    simp only [R.ok_bind]
    cases hd : dt (w.rings i) with
    | error e => rfl
    | ok l =>
      simp only [R.ok_bind]
      obtain ⟨m', e, S', -⟩ := S.replaced i l (hcp _ _ hq)
      rw [e]
      exact ⟨m', none, rfl, S'⟩

theorem step_sim {triv : Bool} {m : World α} {w : Ring.World α} (S : Sim m w) (op : Op α) :
    Agree (step triv m op) (Ring.step triv w op) := by
  cases op with
  | pushBack i a =>
    simp only [Ring.step, step]
    refine push_sim S i a _ fun r arg r' l h => ?_
    have := emplaceBack_inv h
    split at this
    · rename_i hg; rw [if_pos hg]; exact this.1
    · rename_i hg; rw [if_neg hg]; exact this.1
  | pushBackStable i a =>
    simp only [Ring.step, step]
    refine push_sim S i a _ fun r arg r' l h => ?_
    rw [if_neg (by decide)]
    exact (emplaceBackStable_inv h).1
  | pushFront i a =>
    simp only [Ring.step, step]
    refine push_sim S i a _ fun r arg r' l h => ?_
    have := emplaceFront_inv h
    split at this
    · rename_i hg; rw [if_pos hg]; exact this.1
    · rename_i hg; rw [if_neg hg]; exact this.1
  | pushFrontStable i a =>
    simp only [Ring.step, step]
    refine push_sim S i a _ fun r arg r' l h => ?_
    rw [if_neg (by decide)]
    exact (emplaceFrontStable_inv h).1
  | popBack i =>
    simp only [Ring.step, step]
    exact pop_sim S i fun r a r' h => (popBack_inv h).1
  | popFront i =>
    simp only [Ring.step, step]
    exact pop_sim S i fun r a r' h => (popFront_inv h).1
  | clear i =>
    simp only [Ring.step]
    cases hq : clear triv (w.rings i) with
    | error e => simp only [R.error_bind, Agree, step, S.ring i, R.ok_bind, hq]
    | ok r =>
      simp only [R.ok_bind, Agree, step, S.ring i, hq]
      exact ⟨_, _, rfl, S.inPlace i 0 (clear_inv hq)⟩
  | set i k a =>
    simp only [Ring.step]
    cases hq : set (w.rings i) k a with
    | error e => simp only [R.error_bind, Agree, step, S.ring i, R.ok_bind, hq]
    | ok r =>
      simp only [R.ok_bind, Agree, step, S.ring i, hq]
      exact ⟨_, _, rfl, S.inPlace i 0 (set_inv hq).1⟩
  | front i =>
    simp only [Ring.step]
    cases hq : front (w.rings i) with
    | error e => simp only [R.error_bind, Agree, step, look, S.ring i, R.ok_bind, hq]
    | ok r =>
      simp only [R.ok_bind, Agree, step, look, S.ring i, hq]
      exact ⟨_, _, rfl, S⟩
  | back i =>
    simp only [Ring.step]
    cases hq : back (w.rings i) with
    | error e => simp only [R.error_bind, Agree, step, look, S.ring i, R.ok_bind, hq]
    | ok r =>
      simp only [R.ok_bind, Agree, step, look, S.ring i, hq]
      exact ⟨_, _, rfl, S⟩
  | get i k =>
    simp only [Ring.step]
    cases hq : get (w.rings i) k with
    | error e => simp only [R.error_bind, Agree, step, look, S.ring i, R.ok_bind, hq]
    | ok r =>
      simp only [R.ok_bind, Agree, step, look, S.ring i, hq]
      exact ⟨_, _, rfl, S⟩
  | size i =>
    simp only [Ring.step, Agree, step, look, S.ring i, R.ok_bind]
    exact ⟨_, _, rfl, S⟩
  | empty i =>
    simp only [Ring.step, Agree, step, look, S.ring i, R.ok_bind]
    exact ⟨_, _, rfl, S⟩
  | assignCopy i j =>
    simp only [Ring.step, step]
    exact copy_sim S i j (copy triv) (dtor triv) fun r r' h => copy_inv h
  | assignMove i j =>
    simp only [Ring.step]
    cases hd : dtor triv (w.rings i) with
    | error e => simp only [R.error_bind, Agree, step, S.ring i, R.ok_bind, hd]
    | ok l =>
      simp only [R.ok_bind, Agree, step, S.ring i, hd]
      obtain ⟨mem, e, hlen, ho, -, -⟩ := S.free i
      rw [e]
      refine ⟨_, _, rfl, ⟨?_, ?_⟩⟩
      · intro x
        simp only [World.put, upd]
        by_cases hx : x = j
        · subst hx; simp only [if_true]; rfl
        · rw [if_neg hx, if_neg hx]
          by_cases hi : x = i
          · rw [if_pos hi, if_pos hi]
            exact ho j fun h => hx (by omega)
          · rw [if_neg hi, if_neg hi]
            exact ho x hi
      · intro x y b hx hy
        simp only [upd] at hx hy
        by_cases hxj : x = j
        · rw [if_pos hxj] at hx; cases hx
        by_cases hyj : y = j
        · rw [if_pos hyj] at hy; cases hy
        rw [if_neg hxj] at hx
        rw [if_neg hyj] at hy
        by_cases hxi : x = i
        · by_cases hyi : y = i
          · omega
          · rw [if_pos hxi] at hx
            rw [if_neg hyi] at hy
            exact absurd (S.inj _ _ _ hx hy) (fun h => hyj h.symm)
        · by_cases hyi : y = i
          · rw [if_neg hxi] at hx
            rw [if_pos hyi] at hy
            exact absurd (S.inj _ _ _ hx hy) hxj
          · rw [if_neg hxi] at hx
            rw [if_neg hyi] at hy
            exact S.inj _ _ _ hx hy

/-! ### Growth, in terms of the specification -/

theorem growsBack_ok {triv : Bool} {r : Ring α} {q : Spec.Q α} (h : Rel triv r q) :
    growsBack r = decide (q.elems.length = q.cap) := by
  obtain ⟨k, hk, hc, hm, hb, he, hl, -⟩ := h.ex
  unfold growsBack
  rw [hm, addMask_eq (by omega), he, hc]
  have : ((r.begin_ + q.elems.length) % 2 ^ k + 1) % 2 ^ k = (r.begin_ + (q.elems.length + 1)) % 2 ^ k := by
    rw [Nat.add_mod, Nat.mod_mod, ← Nat.add_mod]; rfl
  rw [this]
  by_cases hf : q.elems.length = 2 ^ k - 1
  · have : q.elems.length + 1 = 2 ^ k := by omega
    rw [this, Nat.add_mod_right, Nat.mod_eq_of_lt hb]
    simp [hf]
  · rw [phys_eq hb (by omega)]
    simp only [hf, decide_false, beq_eq_false_iff_ne]
    split <;> omega

theorem growsFront_ok {triv : Bool} {r : Ring α} {q : Spec.Q α} (h : Rel triv r q) :
    growsFront r = decide (q.elems.length = q.cap) := by
  obtain ⟨k, hk, hc, hm, hb, he, hl, -⟩ := h.ex
  unfold growsFront
  rw [hm, subMask_eq (by omega) Nat.one_le_two_pow, he, hc]
  by_cases hf : q.elems.length = 2 ^ k - 1
  · have : r.begin_ + q.elems.length = r.begin_ + 2 ^ k - 1 := by omega
    rw [this]
    simp [hf]
  · have h1 : 1 < 2 ^ k := by omega
    rw [(prev_phys hb h1).1, phys_eq hb (by omega), phys_eq hb hl]
    simp only [hf, decide_false, beq_eq_false_iff_ne]
    split <;> split <;> omega

/-! ### Where an element is -/

/-- Element `k` of ringbuffer `i` is at the place `p`. -/
structure At (m : World α) (s : Spec.Lists α) (p : Place) (i k : Nat) : Prop where
  lt : k < (s i).elems.length
  blk : (m.rings i).data = some p.1
  slot : addMask (m.rings i).begin_ k (m.rings i).mask = p.2

theorem At.load {triv : Bool} {n : Nat} {m : World α} {w : Ring.World α} {s : Spec.Lists α} (S : Sim m w) (I : Inv triv n w s)
    {p : Place} {i k : Nat} (h : At m s p i k) : load m p = .ok ((s i).elems[k]'h.lt) := by
  obtain ⟨-, buf, hb, hd⟩ := S.lt h.blk
  have hg := get_ok (I.rel i) h.lt
  unfold get at hg
  rw [size_ok (I.rel i), ccAssert_true (by simpa using h.lt)] at hg
  unfold Ring.buf at hg
  rw [hd] at hg
  simp only [R.ok_bind] at hg
  obtain ⟨h1, -, h3, -⟩ := S.hdr i
  rw [h1, h3, h.slot] at hg
  unfold Ref.load
  simp only [hb]
  exact hg

theorem address_ok {triv : Bool} {n : Nat} {m : World α} {w : Ring.World α} {s : Spec.Lists α} (S : Sim m w) (I : Inv triv n w s)
    {p : Place} {i k : Nat} : address m i k = .ok p ↔ At m s p i k := by
  unfold address
  rw [S.ring i]
  simp only [R.ok_bind]
  rw [size_ok (I.rel i)]
  obtain ⟨h1, -, h3, -⟩ := S.hdr i
  by_cases hk : k < (s i).elems.length
  · rw [ccAssert_true (by simpa using hk)]
    simp only [R.ok_bind, h1, h3]
    constructor
    · intro h
      split at h
      · rename_i b hb
        have := Except.ok.inj h
        exact ⟨hk, by rw [hb, ← this], by rw [← this]⟩
      · cases h
    · intro h
      rw [h.blk, h.slot]
  · rw [ccAssert_false (by simpa using hk)]
    constructor
    · intro h; cases h
    · intro h; exact absurd h.lt hk

theorem slot_pushFront {triv : Bool} {r : Ring α} {q : Spec.Q α} (h : Rel triv r q) {k : Nat} (hk : k < q.elems.length) :
    addMask (subMask r.begin_ 1 r.mask) (k + 1) r.mask = addMask r.begin_ k r.mask := by
  obtain ⟨K, hK, hc, hm, hb, he, hl, -⟩ := h.ex
  rw [hm, subMask_eq (by omega) Nat.one_le_two_pow, addMask_eq (by omega), addMask_eq (by omega)]
  exact (front_end hb (by omega)).symm

theorem slot_popFront {triv : Bool} {r : Ring α} {q : Spec.Q α} (h : Rel triv r q) {k : Nat} (hk : 0 < k) :
    addMask (addMask r.begin_ 1 r.mask) (k - 1) r.mask = addMask r.begin_ k r.mask := by
  obtain ⟨K, hK, hc, hm, hb, he, hl, -⟩ := h.ex
  rw [hm, addMask_eq (by omega), addMask_eq (by omega), addMask_eq (by omega)]
  rw [Nat.add_mod, Nat.mod_mod, ← Nat.add_mod]
  congr 1; omega

end Verif.Ring.Ref
