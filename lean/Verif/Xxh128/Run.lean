import Verif.Xxh128.Inj

/-! Histories of streaming calls. -/
namespace Verif.Xxh128
open Xxh3
open Xxh3.Spec (at' le32 le64 mix View Sess Key next legal safe history seeded)
open Verif.Xxh128.Spec (mix32 upTo3 upTo8 upTo16 upTo128 upTo240 short long hashOf obs observations xxh128 xxh128Secret)

theorem mix32_congr {sec : Mem} {seed : U64} {m m' : Mem} {acc : Hash} {i j s : Nat} (hi : ∀ k, k < 16 → at' m (i + k) = at' m' (i + k)) (hj : ∀ k, k < 16 → at' m (j + k) = at' m' (j + k)) :
    mix32 sec seed m acc i j s = mix32 sec seed m' acc i j s := by
  unfold mix32
  rw [mix_congr hi, mix_congr hj, le64_congr (m := m) (m' := m') (i := i) (i' := i) (fun k hk => hi k (by omega)), le64_congr (m := m) (m' := m') (i := j) (i' := j) (fun k hk => hj k (by omega)),
    le64_congr (m := m) (m' := m') (i := i + 8) (i' := i + 8) (fun k hk => by rw [Nat.add_assoc]; exact hi (8 + k) (by omega)),
    le64_congr (m := m) (m' := m') (i := j + 8) (i' := j + 8) (fun k hk => by rw [Nat.add_assoc]; exact hj (8 + k) (by omega))]

theorem foldl_congr {α β : Type} {f g : α → β → α} : ∀ (l : List β) (a : α), (∀ a, ∀ b ∈ l, f a b = g a b) → l.foldl f a = l.foldl g a
  | [], _, _ => rfl
  | b :: l, a, h => by
    rw [List.foldl_cons, List.foldl_cons, h a b (List.mem_cons_self ..)]
    exact foldl_congr l _ fun a b hb => h a b (List.mem_cons_of_mem _ hb)

/-- Only the bytes of the message count. -/
theorem short_congr {sec : Mem} {seed : U64} {m m' : Mem} {len : Nat} (hl : len ≤ 240) (h : ∀ j, j < len → at' m j = at' m' j) : short sec seed m len = short sec seed m' len := by
  unfold short
  by_cases h0 : len = 0
  · rw [if_pos h0, if_pos h0]
  rw [if_neg h0, if_neg h0]
  by_cases h3 : len ≤ 3
  · rw [if_pos h3, if_pos h3]
    unfold upTo3
    rw [h (len / 2) (by omega), h 0 (by omega), h (len - 1) (by omega)]
  rw [if_neg h3, if_neg h3]
  by_cases h8 : len ≤ 8
  · rw [if_pos h8, if_pos h8]
    unfold upTo8
    rw [le32_congr (i := 0) (fun j hj => h _ (by omega)), le32_congr (i := len - 4) (fun j hj => h _ (by omega))]
  rw [if_neg h8, if_neg h8]
  by_cases h16 : len ≤ 16
  · rw [if_pos h16, if_pos h16]
    unfold upTo16
    rw [le64_congr (i := 0) (fun j hj => h _ (by omega)), le64_congr (i := len - 8) (fun j hj => h _ (by omega))]
  rw [if_neg h16, if_neg h16]
  by_cases h128 : len ≤ 128
  · rw [if_pos h128, if_pos h128]
    unfold upTo128
    rw [foldl_congr _ _ fun acc k hk => ?_]
    have hk := List.mem_range.1 (List.mem_reverse.1 hk)
    exact mix32_congr (fun j hj => h _ (by omega)) (fun j hj => h _ (by omega))
  · rw [if_neg h128, if_neg h128]
    unfold upTo240
    dsimp only
    have e1 : ∀ a, (List.range 4).foldl (fun acc k => mix32 sec seed m acc (32 * k) (32 * k + 16) (32 * k)) a =
        (List.range 4).foldl (fun acc k => mix32 sec seed m' acc (32 * k) (32 * k + 16) (32 * k)) a := fun a =>
      foldl_congr _ _ fun acc k hk => by
        have hk := List.mem_range.1 hk
        exact mix32_congr (fun j hj => h _ (by omega)) (fun j hj => h _ (by omega))
    have e2 : ∀ a, (List.range (len / 32 - 4)).foldl (fun acc k => mix32 sec seed m acc (32 * (k + 4)) (32 * (k + 4) + 16) (32 * k + 3)) a =
        (List.range (len / 32 - 4)).foldl (fun acc k => mix32 sec seed m' acc (32 * (k + 4)) (32 * (k + 4) + 16) (32 * k + 3)) a := fun a =>
      foldl_congr _ _ fun acc k hk => by
        have hk := List.mem_range.1 hk
        exact mix32_congr (fun j hj => h _ (by omega)) (fun j hj => h _ (by omega))
    rw [e1, e2, mix32_congr (i := len - 16) (j := len - 32) (fun j hj => h _ (by omega)) (fun j hj => h _ (by omega))]

theorem digest_ok (cfg : Cfg) {i : Nat} {s : State} {se : Sess} {C : Nat} (h : SessOk .bits128 i s se C)
    (hf : (∀ c ∈ se.chunks, c.length < 256) ∨ se.msg.length ≤ 256 ∨ se.msg.length % 256 = 0 ∨ 64 ≤ se.msg.length % 256) :
    digest cfg s (secOf se.key) = .ok (hashOf se.key se.msg) := by
  have hz := secOf_length h.key
  have hlen : s.totalLen.toNat = se.msg.length := by rw [h.inv.len, BitVec.toNat_ofNat, Nat.mod_eq_of_lt h.small]
  have hlim := h.inv.limit
  have e64 : s.secretLimit + STRIPE_LEN = (secOf se.key).length := by rw [hlim, show STRIPE_LEN = 64 from rfl]; omega
  unfold digest
  rw [hlen, e64]
  by_cases hl : 240 < se.msg.length
  · rw [if_pos hl, digest_long_ok _ hz (Nat.le_refl _) h.inv hl hf, R.ok_bind, xassert_ok (.inr (by simp; omega)), R.ok_bind, mergeAccs_ok _ (longAcc_length _ _ _ _ _) (by omega), R.ok_bind,
      mergeAccs_ok _ (longAcc_length _ _ _ _ _) (by omega), R.ok_bind, h.inv.len]
    cases hk : se.key with
    | plain => rw [hashOf, xxh128, if_neg (by omega), seeded_zero, secOf, kSecret_length]; rfl
    | seed x => rw [hashOf, xxh128, if_neg (by omega), secOf, seeded_length]; rfl
    | secret k => rw [hashOf, xxh128Secret, if_neg (by omega), secOf]; rfl
  · rw [if_neg hl]
    have hC : C = 0 := by
      by_cases h0 : 0 < C
      · have := h.inv.long h0; omega
      · omega
    have ht := h.inv.total
    have hb := h.inv.buf
    have hle := h.inv.le
    have hdat : ∀ j, j < se.msg.length → at' s.buffer j = at' se.msg j := fun j hj => by
      rw [h.inv.data j (by omega), hC, Nat.zero_add]
    have hws : ∀ k : Mem, 136 ≤ k.length → withSecret cfg s.buffer se.msg.length k k.length = .ok (short k 0#64 se.msg se.msg.length) := fun k hk => by
      rw [withSecret_ok cfg (by omega) hk (Nat.le_refl _), if_pos (by omega), short_congr (by omega) hdat]
    rw [h.seed]
    cases hk : se.key with
    | plain =>
      rw [hk] at hz
      rw [if_neg (fun hne => hne rfl), hws _ hz, hashOf, xxh128, if_pos (by omega)]; rfl
    | seed x =>
      rw [seedOf]
      by_cases hx : x = 0#64
      · rw [hk] at hz
        rw [if_neg (fun hne => hne hx), hws _ hz, hashOf, xxh128, if_pos (by omega), secOf, hx, seeded_zero]
      · rw [if_pos hx, withSeed_ok cfg (by omega), if_pos (by omega), hashOf, xxh128, if_pos (by omega), short_congr (by omega) hdat]
    | secret k =>
      rw [hk] at hz
      rw [if_neg (fun hne => hne rfl), hws _ hz, hashOf, xxh128Secret, if_pos (by omega)]; rfl

theorem step_ok (cfg : Cfg) {h : Heap} {v : View} {op : Op} (hr : Rel .bits128 h v) (hl : legal v op) (hs : safe false v op) :
    ∃ h', step cfg h op = .ok (h', obs v op) ∧ Rel .bits128 h' (next v op) := by
  cases op with
  | reset i =>
    obtain ⟨s, e, inv, e1, e2, _⟩ := reset_inv cfg.toCfg (sec := kSecret) (seed := 0#64) (p := .default) (by rw [kSecret_length]; omega) (by rw [kSecret_length]; omega)
    rw [kSecret_length] at e
    refine ⟨put h i (some s), ?_, hr.put_some (C := 0) ⟨inv, trivial, e1, e2, by show 0 < _; omega⟩⟩
    rw [step, show SECRET_DEFAULT_SIZE = 192 from rfl, e]; rfl
  | resetSeed i x =>
    obtain ⟨s, e, inv, e1, e2, e3⟩ := reset_inv cfg.toCfg (sec := seeded x) (seed := x) (p := .default) (by rw [seeded_length]; omega) (by rw [seeded_length]; omega)
    rw [seeded_length] at e
    refine ⟨put h i (some { s with customSecret := seeded x, secret := .custom i }), ?_, hr.put_some (C := 0) ⟨?_, trivial, e1, ⟨rfl, rfl⟩, by show 0 < _; omega⟩⟩
    · rw [step, show SECRET_DEFAULT_SIZE = 192 from rfl, e, R.ok_bind, initCustomSecret_ok _ x e3]; rfl
    · exact ⟨inv.c256, inv.total, inv.le, inv.acc, inv.soFar, inv.buf, inv.data, inv.old, inv.long, inv.per, inv.limit, inv.len⟩
  | resetSecret i k =>
    obtain ⟨s, e, inv, e1, e2, e3⟩ := reset_inv cfg.toCfg (sec := k) (seed := 0#64) (p := .user k) hl.1 hl.2
    refine ⟨put h i (some s), ?_, hr.put_some (C := 0) ⟨inv, hl, e1, e2, by show 0 < _; omega⟩⟩
    have hz := hl.1
    rw [step, e, R.ok_bind, show decide (SECRET_SIZE_MIN ≤ k.length) = true by simp [SECRET_SIZE_MIN, hz]]; rfl
  | update i m =>
    obtain ⟨se, ev, hm⟩ := hl
    obtain ⟨s, C, es, hse⟩ := hr i se ev
    obtain ⟨s', C', eu, inv, u1, u2, u3⟩ := update_ok cfg.toCfg (input := m) (secOf_length hse.key) (Nat.le_refl _) hse.inv
    have emsg : (se.add m).msg = se.msg ++ m := by simp [Sess.add, Sess.msg]
    have hse' : SessOk .bits128 i s' (se.add m) C' := by
      refine ⟨?_, hse.key, u2.trans hse.seed, ?_, ?_⟩
      · rw [emsg]
        refine ⟨inv.c256, inv.total, inv.le, inv.acc, inv.soFar, inv.buf, inv.data, fun hf => inv.old ⟨fun c hc => hf c ?_, hf m ?_⟩, inv.long, inv.per, inv.limit, inv.len⟩
        · exact List.mem_append_left _ hc
        · exact List.mem_append_right _ (List.mem_singleton.2 rfl)
      · have hp := hse.ptr
        show ptrOk i s' se.key
        cases hk : se.key with
        | plain => rw [hk] at hp; exact u1.trans hp
        | seed x => rw [hk] at hp; exact ⟨u1.trans hp.1, u3.trans hp.2⟩
        | secret k => rw [hk] at hp; exact u1.trans hp
      · rw [emsg, List.length_append]; exact hm
    refine ⟨put h i (some s'), ?_, ?_⟩
    · rw [step, look, es]
      show (deref h s.secret >>= fun secret => update cfg.toCfg .bits128 s secret m >>= fun s => Except.ok (put h i (some s), Obs.status true)) = _
      rw [deref_ok hse es, R.ok_bind, eu]; rfl
    · rw [next, ev]
      exact hr.put_some hse'
  | updateNull i => exact ⟨h, rfl, hr⟩
  | digest i =>
    obtain ⟨se, ev⟩ := hl
    obtain ⟨s, C, es, hse⟩ := hr i se ev
    obtain ⟨_, hf⟩ := hs se ev
    refine ⟨h, ?_, hr⟩
    rw [step, look, es]
    show (deref h s.secret >>= fun secret => digest cfg s secret >>= fun v => Except.ok (h, Obs.hash v)) = _
    rw [deref_ok hse es, R.ok_bind, digest_ok cfg hse hf, R.ok_bind, obs, ev]
  | copy d i =>
    obtain ⟨hne, se, ev⟩ := hl
    obtain ⟨s, C, es, hse⟩ := hr i se ev
    refine ⟨put h d (some s), ?_, ?_⟩
    · rw [step, if_neg hne, look, es]; rfl
    · rw [next, ev]
      refine hr.put_some (C := C) ⟨hse.inv, hse.key, hse.seed, ?_, hse.small⟩
      have hp := hse.ptr
      have hx := hs se ev
      cases hk : se.key with
      | plain => rw [hk] at hp; exact hp
      | seed x => exact absurd hk (hx x)
      | secret k => rw [hk] at hp; exact hp
  | free i => exact ⟨put h i none, rfl, hr.put_none⟩

theorem run_ok (cfg : Cfg) : ∀ (ops : List Op) {h : Heap} {v : View}, Rel .bits128 h v → history legal v ops → history (safe false) v ops →
    ∃ h', run cfg h ops = .ok (h', observations v ops)
  | [], h, _, _, _, _ => ⟨h, rfl⟩
  | op :: ops, h, v, hr, hl, hs => by
    obtain ⟨h1, e1, r1⟩ := step_ok cfg hr hl.1 hs.1
    obtain ⟨h2, e2⟩ := run_ok cfg ops r1 hl.2 hs.2
    refine ⟨h2, ?_⟩
    rw [run, e1, R.ok_bind]
    dsimp only
    rw [e2]; rfl

end Verif.Xxh128
