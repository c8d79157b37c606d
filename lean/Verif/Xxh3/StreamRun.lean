import Verif.Xxh3.StreamLemmas

/-! Histories of streaming calls. -/
namespace Verif.Xxh3
open Spec

theorem le32_congr {m m' : Mem} {i i' : Nat} (h : ∀ j, j < 4 → at' m (i + j) = at' m' (i' + j)) : le32 m i = le32 m' i' := by
  have h0 := h 0 (by omega)
  rw [Nat.add_zero, Nat.add_zero] at h0
  unfold le32
  rw [h 3 (by omega), h 2 (by omega), h 1 (by omega), h0]

theorem sum_congr {f g : Nat → U64} : ∀ n, (∀ k, k < n → f k = g k) → sum n f = sum n g
  | 0, _ => rfl
  | n + 1, h => by rw [sum_succ, sum_succ, sum_congr n (fun k hk => h k (by omega)), h n (by omega)]

theorem mix_congr {sec : Mem} {seed : U64} {m m' : Mem} {i s : Nat} (h : ∀ j, j < 16 → at' m (i + j) = at' m' (i + j)) : mix sec seed m i s = mix sec seed m' i s := by
  unfold mix
  rw [le64_congr (m := m) (m' := m') (i := i) (i' := i) (fun j hj => h j (by omega)), le64_congr (m := m) (m' := m') (i := i + 8) (i' := i + 8) (fun j hj => by rw [Nat.add_assoc]; exact h (8 + j) (by omega))]

/-- Only the bytes of the message count. -/
theorem short_congr {sec : Mem} {seed : U64} {m m' : Mem} {len : Nat} (hl : len ≤ 240) (h : ∀ j, j < len → at' m j = at' m' j) : short sec seed m len = short sec seed m' len := by
  unfold short
  by_cases h0 : len = 0
  · rw [if_pos h0, if_pos h0]
  rw [if_neg h0, if_neg h0]
  by_cases h3 : len ≤ 3
  · rw [if_pos h3, if_pos h3]
    unfold upTo3
    rw [h (len / 2) (by omega), h 0 (by omega), h (len - 1) (by omega)]
  rw [if_neg h3, if_neg h3]
  by_cases h8 : len ≤ 8
  · rw [if_pos h8, if_pos h8]
    unfold upTo8
    rw [le32_congr (i := 0) (fun j hj => h _ (by omega)), le32_congr (i := len - 4) (fun j hj => h _ (by omega))]
  rw [if_neg h8, if_neg h8]
  by_cases h16 : len ≤ 16
  · rw [if_pos h16, if_pos h16]
    unfold upTo16
    rw [le64_congr (i := 0) (fun j hj => h _ (by omega)), le64_congr (i := len - 8) (fun j hj => h _ (by omega))]
  rw [if_neg h16, if_neg h16]
  by_cases h128 : len ≤ 128
  · rw [if_pos h128, if_pos h128]
    unfold upTo128
    rw [sum_congr _ fun k hk => ?_]
    rw [mix_congr (i := 16 * k) (fun j hj => h _ (by omega)), mix_congr (i := len - 16 * (k + 1)) (fun j hj => h _ (by omega))]
  · rw [if_neg h128, if_neg h128]
    unfold upTo240
    rw [sum_congr (f := fun k => mix sec seed m (16 * k) (16 * k)) (g := fun k => mix sec seed m' (16 * k) (16 * k)) 8 fun k hk => mix_congr (fun j hj => h _ (by omega)),
      sum_congr (f := fun k => mix sec seed m (16 * (k + 8)) (16 * k + 3)) (g := fun k => mix sec seed m' (16 * (k + 8)) (16 * k + 3)) (len / 16 - 8)
        fun k hk => mix_congr (fun j hj => h _ (by omega)),
      mix_congr (i := len - 16) (fun j hj => h _ (by omega))]

/-- The secret of a key. -/
def secOf : Key → Mem
  | .plain => kSecret
  | .seed x => seeded x
  | .secret k => k

def seedOf : Key → U64
  | .seed x => x
  | _ => 0#64

def keyOk : Key → Prop
  | .secret k => 136 ≤ k.length ∧ k.length < 2 ^ 32
  | _ => True

theorem secOf_length {k : Key} (h : keyOk k) : 136 ≤ (secOf k).length := by
  cases k with
  | plain => rw [secOf, kSecret_length]; omega
  | seed x => rw [secOf, seeded_length]; omega
  | secret k => exact h.1

def ptrOk (i : Nat) (s : State) : Key → Prop
  | .plain => s.secret = .default
  | .seed x => s.secret = .custom i ∧ s.customSecret = seeded x
  | .secret k => s.secret = .user k

/-- The state at address `i` is that of a session. -/
structure SessOk (wd : Width) (i : Nat) (s : State) (se : Sess) (C : Nat) : Prop where
  inv : Inv wd s (secOf se.key) (secOf se.key).length se.msg (∀ c ∈ se.chunks, c.length < 256) C
  key : keyOk se.key
  seed : s.seed = seedOf se.key
  ptr : ptrOk i s se.key
  small : se.msg.length < 2 ^ 64

theorem withSecret_short (cfg : Cfg) {k : Mem} {m : Mem} {len size : Nat} (hd : cfg.debug = false ∨ len ≠ 8) (hm : len ≤ m.length) (hl : len ≤ 240) (hz : 136 ≤ size) (hs : size ≤ k.length) :
    withSecret cfg m len k size = .ok (short k 0#64 m len) := by rw [withSecret_ok cfg hd hm hz hs, if_pos hl]

theorem digest_ok (cfg : Cfg) {i : Nat} {s : State} {se : Sess} {C : Nat} (h : SessOk .bits64 i s se C) (hd : cfg.debug = false ∨ se.msg.length ≠ 8)
    (hf : (∀ c ∈ se.chunks, c.length < 256) ∨ se.msg.length ≤ 256 ∨ se.msg.length % 256 = 0 ∨ 64 ≤ se.msg.length % 256) :
    digest cfg s (secOf se.key) = .ok (hashOf se.key se.msg) := by
  have hz := secOf_length h.key
  have hlen : s.totalLen.toNat = se.msg.length := by rw [h.inv.len, BitVec.toNat_ofNat, Nat.mod_eq_of_lt h.small]
  unfold digest
  rw [hlen]
  by_cases hl : 240 < se.msg.length
  · rw [if_pos hl, digest_long_ok cfg hz (Nat.le_refl _) h.inv hl hf, R.ok_bind, mergeAccs_ok cfg (longAcc_length _ _ _ _ _) (by omega), h.inv.len]
    cases hk : se.key with
    | plain => rw [hashOf, xxh3, if_neg (by omega), seeded_zero, secOf, kSecret_length]; rfl
    | seed x => rw [hashOf, xxh3, if_neg (by omega), secOf, seeded_length]; rfl
    | secret k => rw [hashOf, xxh3Secret, if_neg (by omega), secOf]; rfl
  · rw [if_neg hl]
    have hC : C = 0 := by
      by_cases h0 : 0 < C
      · have := h.inv.long h0; omega
      · omega
    have ht := h.inv.total
    have hb := h.inv.buf
    have hle := h.inv.le
    have hdat : ∀ j, j < se.msg.length → at' s.buffer j = at' se.msg j := fun j hj => by
      rw [h.inv.data j (by omega), hC, Nat.zero_add]
    have hlim := h.inv.limit
    have e64 : s.secretLimit + STRIPE_LEN = (secOf se.key).length := by rw [hlim, show STRIPE_LEN = 64 from rfl]; omega
    rw [h.seed, e64]
    cases hk : se.key with
    | plain =>
      rw [hk] at hz
      rw [if_neg (fun hne => hne rfl), withSecret_short cfg hd (by omega) (by omega) hz (Nat.le_refl _), hashOf, xxh3, if_pos (by omega), short_congr (by omega) hdat]; rfl
    | seed x =>
      rw [seedOf]
      by_cases hx : x = 0#64
      · rw [hk] at hz
        rw [if_neg (fun hne => hne hx), withSecret_short cfg hd (by omega) (by omega) hz (Nat.le_refl _), hashOf, xxh3, if_pos (by omega), short_congr (by omega) hdat, secOf, hx, seeded_zero]
      · rw [if_pos hx, withSeed_ok cfg hd (by omega), if_pos (by omega), hashOf, xxh3, if_pos (by omega), short_congr (by omega) hdat]
    | secret k =>
      rw [hk] at hz
      rw [if_neg (fun hne => hne rfl), withSecret_short cfg hd (by omega) (by omega) hz (Nat.le_refl _), hashOf, xxh3Secret, if_pos (by omega), short_congr (by omega) hdat]; rfl

/-- All sessions have their states. -/
def Rel (wd : Width) (h : Heap) (v : View) : Prop := ∀ i se, v i = some se → ∃ s C, h i = some s ∧ SessOk wd i s se C

theorem Rel.put_some {wd : Width} {h : Heap} {v : View} (hr : Rel wd h v) {i : Nat} {s : State} {se : Sess} {C : Nat} (hs : SessOk wd i s se C) : Rel wd (put h i (some s)) (v.put i (some se)) := by
  intro j se' e
  unfold View.put at e
  unfold put
  by_cases hj : j = i
  · rw [if_pos hj] at e ⊢
    cases e
    subst hj
    exact ⟨s, C, rfl, hs⟩
  · rw [if_neg hj] at e ⊢
    exact hr j se' e

theorem Rel.put_none {wd : Width} {h : Heap} {v : View} (hr : Rel wd h v) {i : Nat} : Rel wd (put h i none) (v.put i none) := by
  intro j se' e
  unfold View.put at e
  unfold put
  by_cases hj : j = i
  · rw [if_pos hj] at e; cases e
  · rw [if_neg hj] at e ⊢
    exact hr j se' e

theorem deref_ok {wd : Width} {h : Heap} {i : Nat} {s : State} {se : Sess} {C : Nat} (hs : SessOk wd i s se C) (hi : h i = some s) : deref h s.secret = .ok (secOf se.key) := by
  have hp := hs.ptr
  cases hk : se.key with
  | plain => rw [hk] at hp; rw [show s.secret = .default from hp]; rfl
  | seed x => rw [hk] at hp; rw [hp.1, deref, look, hi]; rw [show ((Except.ok s : R State) >>= fun s => Except.ok s.customSecret) = .ok s.customSecret from rfl, hp.2]; rfl
  | secret k => rw [hk] at hp; rw [show s.secret = .user k from hp]; rfl

theorem reset_inv (cfg : Cfg) {wd : Width} {sec : Mem} {seed : U64} {p : Ptr} (hz : 136 ≤ sec.length) (hs : sec.length < 2 ^ 32) :
    ∃ s, reset_internal cfg seed p sec.length = .ok s ∧ Inv wd s sec sec.length [] (∀ c ∈ ([] : List Mem), c.length < 256) 0 ∧ s.seed = seed ∧ s.secret = p ∧ s.customSecret.length = 192 := by
  unfold reset_internal
  rw [xassert_ok (.inr (by simp [SECRET_SIZE_MIN, hz])), R.ok_bind]
  have e : (sec.length + 2 ^ 64 - STRIPE_LEN) % 2 ^ 64 % 2 ^ 32 = sec.length - 64 := by
    rw [show STRIPE_LEN = 64 from rfl]; omega
  rw [e]
  refine ⟨_, rfl, ⟨rfl, rfl, Nat.zero_le _, rfl, ?_, List.length_replicate .., ?_, ?_, ?_, rfl, rfl, rfl⟩, rfl, rfl, List.length_replicate ..⟩
  · show 0 = 0 / 64 % rounds sec.length; rw [Nat.zero_div, Nat.zero_mod]
  · intro j hj; exact absurd hj (Nat.not_lt_zero _)
  · intro _ h0; exact absurd h0 (Nat.lt_irrefl _)
  · intro h0; exact absurd h0 (Nat.lt_irrefl _)

theorem step_ok (cfg : Cfg) {h : Heap} {v : View} {op : Op} (hr : Rel .bits64 h v) (hl : legal v op) (hs : safe cfg.debug v op) :
    ∃ h', step cfg h op = .ok (h', obs v op) ∧ Rel .bits64 h' (next v op) := by
  cases op with
  | reset i =>
    obtain ⟨s, e, inv, e1, e2, _⟩ := reset_inv cfg (sec := kSecret) (seed := 0#64) (p := .default) (by rw [kSecret_length]; omega) (by rw [kSecret_length]; omega)
    rw [kSecret_length] at e
    refine ⟨put h i (some s), ?_, hr.put_some (C := 0) ⟨inv, trivial, e1, e2, by show 0 < _; omega⟩⟩
    rw [step, reset, show SECRET_DEFAULT_SIZE = 192 from rfl, e]; rfl
  | resetSeed i x =>
    obtain ⟨s, e, inv, e1, e2, e3⟩ := reset_inv cfg (sec := seeded x) (seed := x) (p := .default) (by rw [seeded_length]; omega) (by rw [seeded_length]; omega)
    rw [seeded_length] at e
    refine ⟨put h i (some { s with customSecret := seeded x, secret := .custom i }), ?_, hr.put_some (C := 0) ⟨?_, trivial, e1, ⟨rfl, rfl⟩, by show 0 < _; omega⟩⟩
    · rw [step, reset_withSeed, show SECRET_DEFAULT_SIZE = 192 from rfl, e, R.ok_bind, initCustomSecret_ok cfg x e3]; rfl
    · exact ⟨inv.c256, inv.total, inv.le, inv.acc, inv.soFar, inv.buf, inv.data, inv.old, inv.long, inv.per, inv.limit, inv.len⟩
  | resetSecret i k =>
    obtain ⟨s, e, inv, e1, e2, e3⟩ := reset_inv cfg (sec := k) (seed := 0#64) (p := .user k) hl.1 hl.2
    refine ⟨put h i (some s), ?_, hr.put_some (C := 0) ⟨inv, hl, e1, e2, by show 0 < _; omega⟩⟩
    have hz := hl.1
    rw [step, reset_withSecret, e, R.ok_bind, if_neg (by unfold SECRET_SIZE_MIN; omega)]; rfl
  | update i m =>
    obtain ⟨se, ev, hm⟩ := hl
    obtain ⟨s, C, es, hse⟩ := hr i se ev
    obtain ⟨s', C', eu, inv, u1, u2, u3⟩ := update_ok cfg (input := m) (secOf_length hse.key) (Nat.le_refl _) hse.inv
    have emsg : (se.add m).msg = se.msg ++ m := by simp [Sess.add, Sess.msg]
    have hse' : SessOk .bits64 i s' (se.add m) C' := by
      refine ⟨?_, hse.key, u2.trans hse.seed, ?_, ?_⟩
      · rw [emsg]
        refine ⟨inv.c256, inv.total, inv.le, inv.acc, inv.soFar, inv.buf, inv.data, fun hf => inv.old ⟨fun c hc => hf c ?_, hf m ?_⟩, inv.long, inv.per, inv.limit, inv.len⟩
        · exact List.mem_append_left _ hc
        · exact List.mem_append_right _ (List.mem_singleton.2 rfl)
      · have hp := hse.ptr
        show ptrOk i s' se.key
        cases hk : se.key with
        | plain => rw [hk] at hp; exact u1.trans hp
        | seed x => rw [hk] at hp; exact ⟨u1.trans hp.1, u3.trans hp.2⟩
        | secret k => rw [hk] at hp; exact u1.trans hp
      · rw [emsg, List.length_append]; exact hm
    refine ⟨put h i (some s'), ?_, ?_⟩
    · rw [step, look, es]
      show (deref h s.secret >>= fun secret => update cfg .bits64 s secret m >>= fun s => Except.ok (put h i (some s), Obs.status true)) = _
      rw [deref_ok hse es, R.ok_bind, eu]; rfl
    · rw [next, ev]
      exact hr.put_some hse'
  | updateNull i => exact ⟨h, rfl, hr⟩
  | digest i =>
    obtain ⟨se, ev⟩ := hl
    obtain ⟨s, C, es, hse⟩ := hr i se ev
    obtain ⟨hd, hf⟩ := hs se ev
    refine ⟨h, ?_, hr⟩
    rw [step, look, es]
    show (deref h s.secret >>= fun secret => digest cfg s secret >>= fun v => Except.ok (h, Obs.hash v)) = _
    rw [deref_ok hse es, R.ok_bind, digest_ok cfg hse hd hf, R.ok_bind, obs, ev]
  | copy d i =>
    obtain ⟨hne, se, ev⟩ := hl
    obtain ⟨s, C, es, hse⟩ := hr i se ev
    refine ⟨put h d (some s), ?_, ?_⟩
    · rw [step, if_neg hne, look, es]; rfl
    · rw [next, ev]
      refine hr.put_some (C := C) ⟨hse.inv, hse.key, hse.seed, ?_, hse.small⟩
      have hp := hse.ptr
      have hx := hs se ev
      cases hk : se.key with
      | plain => rw [hk] at hp; exact hp
      | seed x => exact absurd hk (hx x)
      | secret k => rw [hk] at hp; exact hp
  | free i => exact ⟨put h i none, rfl, hr.put_none⟩

theorem run_ok (cfg : Cfg) : ∀ (ops : List Op) {h : Heap} {v : View}, Rel .bits64 h v → history legal v ops → history (safe cfg.debug) v ops →
    ∃ h', run cfg h ops = .ok (h', observations v ops)
  | [], h, _, _, _, _ => ⟨h, rfl⟩
  | op :: ops, h, v, hr, hl, hs => by
    obtain ⟨h1, e1, r1⟩ := step_ok cfg hr hl.1 hs.1
    obtain ⟨h2, e2⟩ := run_ok cfg ops r1 hl.2 hs.2
    refine ⟨h2, ?_⟩
    rw [run, e1, R.ok_bind]
    dsimp only
    rw [e2]; rfl

end Verif.Xxh3
