import Mathlib.Tactic.Linarith
import Mathlib.Tactic.Positivity
import Mathlib.Tactic.FieldSimp
import Verif.Map.Stat
import Verif.Map.StatSpec
import Verif.Map.Growth
import Verif.Map.Props

/-!
Property C130 for `cc::map`: the bucket functions and the badness of a hash (map.hh:458-497).
-/
namespace Verif.Map

variable {K V : Type _}

/-! ### lemmas -/

theorem chainSize_eq (l : List (Node K V)) : chainSize l = l.length := by
  induction l with
  | nil => rfl
  | cons a l ih => rw [chainSize, ih, List.length_cons]

theorem chainCost_eq (es : List (List (Node K V))) (x : ℚ) :
    chainCost es x = x + (((es.map (fun l => l.length * l.length)).sum : Nat) : ℚ) := by
  induction es generalizing x with
  | nil => simp [chainCost]
  | cons l ls ih =>
    rw [chainCost, ih, chainSize_eq, List.map_cons, List.sum_cons, Nat.cast_add]
    ring

theorem countP_placed (g : Node K V → Nat) (i : Nat) (es : List (List (Node K V))) (off : Nat) (hi : off ≤ i)
    (h : ∀ j (hj : j < es.length), ∀ n ∈ es[j], g n = off + j) :
    es.flatten.countP (fun n => g n == i) = (es[i - off]?.getD []).length := by
  induction es generalizing off with
  | nil => simp
  | cons l ls ih =>
    have h0 : ∀ n ∈ l, g n = off := fun n hn => by simpa using h 0 (by simp) n (by simpa using hn)
    have hs : ∀ j (hj : j < ls.length), ∀ n ∈ ls[j], g n = (off + 1) + j := fun j hj n hn => by
      have := h (j + 1) (by simpa using hj) n (by simpa using hn)
      omega
    rw [List.flatten_cons, List.countP_append]
    by_cases e : i = off
    · subst e
      have a : l.countP (fun n => g n == i) = l.length :=
        List.countP_eq_length.2 (fun n hn => by simpa using h0 n hn)
      have b : ls.flatten.countP (fun n => g n == i) = 0 := by
        refine List.countP_eq_zero.2 (fun n hn => ?_)
        obtain ⟨c, hc, hn⟩ := List.mem_flatten.1 hn
        obtain ⟨j, hj, rfl⟩ := List.getElem_of_mem hc
        have := hs j hj n hn
        simp only [beq_iff_eq]
        omega
      rw [a, b]; simp
    · have a : l.countP (fun n => g n == i) = 0 := by
        refine List.countP_eq_zero.2 (fun n hn => ?_)
        have := h0 n hn
        simp only [beq_iff_eq]
        omega
      rw [a, ih (off + 1) (by omega) hs, show i - off = (i - (off + 1)) + 1 by omega, List.getElem?_cons_succ, Nat.zero_add]

theorem sum_square (c : Node K V → Nat) (es : List (List (Node K V))) (h : ∀ l ∈ es, ∀ n ∈ l, c n = l.length) :
    (es.flatten.map c).sum = (es.map (fun l => l.length * l.length)).sum := by
  induction es with
  | nil => rfl
  | cons l ls ih =>
    rw [List.flatten_cons, List.map_append, List.sum_append, ih (fun l' hl => h l' (List.mem_cons_of_mem _ hl)),
      List.map_cons, List.sum_cons]
    congr 1
    have : l.map c = List.replicate l.length l.length := by
      refine List.eq_replicate_iff.2 ⟨by simp, fun b hb => ?_⟩
      obtain ⟨n, hn, rfl⟩ := List.mem_map.1 hb
      exact h l List.mem_cons_self n hn
    rw [this, List.sum_replicate_nat]

theorem inBucket_perm {f : K → Nat} {i : Nat} {s t : AMap K V} (h : s.Perm t) : s.inBucket f i = t.inBucket f i := h.countP_eq _

theorem sharing_perm {f : K → Nat} {s t : AMap K V} (h : s.Perm t) : s.sharing f = t.sharing f := by
  unfold AMap.sharing
  have : (s.map (fun p => s.inBucket f (f p.1))) = (s.map (fun p => t.inBucket f (f p.1))) :=
    List.map_congr_left (fun p _ => inBucket_perm h)
  rw [this]
  exact (h.map _).sum_nat

theorem inBucket_ents (f : K → Nat) (i : Nat) (m : MapSt K V) :
    (ents m).inBucket f i = m.nodes.countP (fun n => f n.key == i) := by
  rw [AMap.inBucket, ents, List.countP_map]; rfl

theorem rel_bucket {H : HashEq K} {m : MapSt K V} {s : AMap K V} (R : Rel H m s) {i : Nat} (hi : i < m.entries.length) :
    s.inBucket (loc H m.entries.length) i = m.entries[i].length := by
  rw [← inBucket_perm R.perm, inBucket_ents,
    countP_placed (fun n => loc H m.entries.length n.key) i m.entries 0 (by omega)
      (fun j hj n hn => by rw [R.inv.placed j hj n hn]; omega)]
  simp [hi]

theorem rel_sharing {H : HashEq K} {m : MapSt K V} {s : AMap K V} (R : Rel H m s) :
    s.sharing (loc H m.entries.length) = (m.entries.map (fun l => l.length * l.length)).sum := by
  rw [← sharing_perm R.perm, AMap.sharing]
  have : ((ents m).map (fun p => (ents m).inBucket (loc H m.entries.length) (loc H m.entries.length p.1)))
      = m.nodes.map (fun n => (ents m).inBucket (loc H m.entries.length) (loc H m.entries.length n.key)) := by
    rw [ents, List.map_map]; rfl
  rw [this]
  refine sum_square _ _ (fun l hl n hn => ?_)
  obtain ⟨j, hj, rfl⟩ := List.getElem_of_mem hl
  rw [R.inv.placed j hj n hn, inBucket_perm R.perm, rel_bucket R hj]

theorem rel_badness {H : HashEq K} {m : MapSt K V} {s : AMap K V} (R : Rel H m s) :
    badness m = s.badness (loc H m.entries.length) m.entries.length := by
  unfold badness AMap.badness
  rw [chainCost_eq, zero_add, ← rel_sharing R, R.size_eq]
  split
  · rename_i h
    have : s = [] := List.length_eq_zero_iff.1 h
    subst this
    simp [AMap.sharing]
  · dsimp only
    split
    · rename_i h; rw [max_eq_left h.le]
    · rename_i h; rw [max_eq_right (not_lt.1 h)]

theorem run_rel {H : HashEq K} (L : H.Lawful) {ops : List (Op K V)} {m : MapSt K V} {os : List (Out V)}
    (h : implRun H empty ops = .ok (m, os)) : ∃ s, specRun H [] ops = some (s, os) ∧ Rel H m s := by
  rcases run_ok L ops (empty_rel H) with ⟨_, e, h4⟩ | ⟨s, m', os', h3, h4, R⟩
  · rw [h4] at h; cases h
  · rw [h4] at h; cases h; exact ⟨s, h3, R⟩

theorem loc_mod (H : HashEq K) {a b : Nat} (hab : a ≤ b) (k : K) : loc H (2 ^ a) k = loc H (2 ^ b) k % 2 ^ a := by
  unfold loc
  rw [Nat.and_two_pow_sub_one_eq_mod, Nat.and_two_pow_sub_one_eq_mod]
  exact (Nat.mod_mod_of_dvd _ (Nat.pow_dvd_pow 2 hab)).symm

/-! ### properties -/

/-- The buckets of a map that has some: every key has one, equal keys the same. -/
structure BucketOf (H : HashEq K) (m : MapSt K V) (f : K → Nat) : Prop where
  idx : ∀ k, bucketIdx H m k = .ok (f k)
  lt : ∀ k, f k < bucketCount m
  same : ∀ a b, H.eq a b = true → f a = f b

theorem bucketOf_loc {H : HashEq K} (L : H.Lawful) {m : MapSt K V} (h : 0 < m.entries.length) :
    BucketOf H m (loc H m.entries.length) :=
  ⟨location_eq H h, loc_lt H h, fun a b e => by unfold loc; rw [L.hash_eq a b e]⟩

theorem BucketOf.eq {H : HashEq K} {m : MapSt K V} {f : K → Nat} (B : BucketOf H m f) (k0 : K) :
    0 < m.entries.length ∧ f = loc H m.entries.length := by
  have h : 0 < m.entries.length := Nat.lt_of_le_of_lt (Nat.zero_le _) (B.lt k0)
  refine ⟨h, funext fun k => ?_⟩
  have := B.idx k
  rw [bucketIdx, location_eq H h] at this
  exact (Except.ok.inj this).symm

/-- **C130.** After every history the map either has no bucket yet, and then no entry, and asking for the bucket of a key is an error;
or every key has one bucket, below the number of buckets, equal keys the same. -/
theorem C130_bucket (H : HashEq K) (L : H.Lawful) (ops : List (Op K V)) {m : MapSt K V} {os : List (Out V)}
    (h : implRun H empty ops = .ok (m, os)) :
    (bucketCount m = 0 ∧ m.size = 0 ∧ ∀ k, bucketIdx H m k = .error .assert) ∨ ∃ f, BucketOf H m f := by
  obtain ⟨s, -, Q⟩ := run_rel L h
  by_cases h0 : 0 < m.entries.length
  · exact .inr ⟨_, bucketOf_loc L h0⟩
  · refine .inl ⟨Nat.eq_zero_of_not_pos h0, ?_, fun k => ?_⟩
    · exact Classical.byContradiction fun hs => h0 (Q.cap_pos hs)
    · rw [bucketIdx, Nat.eq_zero_of_not_pos h0]; rfl

/-- **C130.** The size of a bucket is the number of entries whose keys belong to it; a bucket that there is not is an error. -/
theorem C130_bucket_size (H : HashEq K) (L : H.Lawful) (ops : List (Op K V)) {m : MapSt K V} {os : List (Out V)}
    (h : implRun H empty ops = .ok (m, os)) {f : K → Nat} (B : BucketOf H m f) (i : Nat) :
    ∃ s, specRun H [] ops = some (s, os) ∧
      bucketSize m i = if i < bucketCount m then .ok (s.inBucket f i) else .error .assert := by
  obtain ⟨s, hs, Q⟩ := run_rel L h
  refine ⟨s, hs, ?_⟩
  unfold bucketSize bucket bucketCount
  by_cases hi : i < m.entries.length
  · rw [if_pos hi]
    have e : s.inBucket f i = m.entries[i].length := by
      cases hs0 : s with
      | nil =>
        have hz := Q.inv.size_eq
        rw [Q.size_eq, hs0] at hz
        have : m.entries[i] = [] := by
          have : m.entries.flatten = [] := List.length_eq_zero_iff.1 hz.symm
          exact List.flatten_eq_nil_iff.1 this _ (List.getElem_mem hi)
        rw [this]; rfl
      | cons p t =>
        rw [← hs0, (B.eq p.1).2, rel_bucket Q hi]
    rw [List.getElem?_eq_getElem hi]
    simp only [R.ok_bind, R.pure_eq, chainSize_eq, e]
  · rw [if_neg hi, List.getElem?_eq_none (by omega)]; rfl

/-- **C130.** The sizes of all buckets add up to the size of the map. -/
theorem C130_bucket_sum (H : HashEq K) (L : H.Lawful) (ops : List (Op K V)) {m : MapSt K V} {os : List (Out V)}
    (h : implRun H empty ops = .ok (m, os)) :
    ∃ ls, (List.range (bucketCount m)).mapM (bucketSize m) = .ok ls ∧ ls.sum = m.size := by
  obtain ⟨s, -, Q⟩ := run_rel L h
  refine ⟨m.entries.map List.length, ?_, ?_⟩
  · have key : ∀ (is : List Nat) (ls : List Nat), is.length = ls.length → (∀ j (hj : j < is.length) (hl : j < ls.length), bucketSize m is[j] = .ok ls[j]) →
        is.mapM (bucketSize m) = .ok ls := by
      intro is
      induction is with
      | nil => intro ls hl _; cases ls with
        | nil => rfl
        | cons _ _ => cases hl
      | cons i is ih =>
        intro ls hl hg
        cases ls with
        | nil => cases hl
        | cons x ls =>
          rw [List.mapM_cons, show bucketSize m i = .ok x from hg 0 (by simp) (by simp),
            ih ls (by simpa using hl) (fun j hj hl' => hg (j + 1) (by simpa using hj) (by simpa using hl'))]
          rfl
    refine key _ _ (by simp [bucketCount]) (fun j hj hl => ?_)
    have hj' : j < m.entries.length := by simpa using hl
    simp only [List.getElem_range, List.getElem_map, bucketSize, bucket, List.getElem?_eq_getElem hj', R.ok_bind, R.pure_eq, chainSize_eq]
  · rw [Q.inv.size_eq, MapSt.nodes, List.length_flatten]

/-- **C130.** A key that is in the map counts in its bucket. -/
theorem C130_key_in_bucket (H : HashEq K) (L : H.Lawful) (ops : List (Op K V)) {m : MapSt K V} {os : List (Out V)}
    (h : implRun H empty ops = .ok (m, os)) (k : K) (hk : containsKey H m k = .ok true) :
    ∃ i n, bucketIdx H m k = .ok i ∧ bucketSize m i = .ok (n + 1) := by
  obtain ⟨s, -, Q⟩ := run_rel L h
  have h0 : 0 < m.entries.length := by
    refine Q.cap_pos (fun hz => ?_)
    rw [containsKey, if_pos hz] at hk
    cases hk
  refine ⟨loc H m.entries.length k, (m.entries[loc H m.entries.length k]'(loc_lt H h0 k)).length - 1, location_eq H h0 k, ?_⟩
  have hne : 0 < (m.entries[loc H m.entries.length k]'(loc_lt H h0 k)).length := by
    have hz : m.size ≠ 0 := fun hz => by rw [containsKey, if_pos hz] at hk; cases hk
    rw [containsKey, if_neg hz, location_eq H h0, R.ok_bind, bucket, List.getElem?_eq_getElem (loc_lt H h0 k)] at hk
    refine List.length_pos_iff.2 (fun hn => ?_)
    rw [hn] at hk
    cases hk
  rw [bucketSize, bucket, List.getElem?_eq_getElem (loc_lt H h0 k)]
  simp only [R.ok_bind, R.pure_eq, chainSize_eq]
  congr 1
  omega

/-- **C130.** The badness is, for every history, the relative excess of the mean number of entries a lookup of an entry's key has in
its bucket over that of a random spread. -/
theorem C130_badness (H : HashEq K) (L : H.Lawful) (ops : List (Op K V)) {m : MapSt K V} {os : List (Out V)}
    (h : implRun H empty ops = .ok (m, os)) :
    ∃ s, specRun H [] ops = some (s, os) ∧ (s = [] → badness m = 0) ∧
      ∀ f, BucketOf H m f → badness m = s.badness f (bucketCount m) := by
  obtain ⟨s, hs, Q⟩ := run_rel L h
  refine ⟨s, hs, fun e => ?_, fun f B => ?_⟩
  · subst e
    rw [badness, if_pos (show m.size = 0 from Q.size_eq)]
  · cases hs0 : s with
    | nil =>
      rw [badness, if_pos (by rw [Q.size_eq, hs0]; rfl)]
      simp [AMap.badness, AMap.sharing]
    | cons p t => rw [← hs0, (B.eq p.1).2]; exact rel_badness Q

theorem inBucket_le (f : K → Nat) (i : Nat) (s : AMap K V) : s.inBucket f i ≤ s.length := List.countP_le_length

theorem sharing_le (f : K → Nat) (s : AMap K V) : s.sharing f ≤ s.length * s.length := by
  have : ∀ t : AMap K V, (t.map (fun p => s.inBucket f (f p.1))).sum ≤ t.length * s.length := by
    intro t
    induction t with
    | nil => simp
    | cons p t ih =>
      rw [List.map_cons, List.sum_cons, List.length_cons, Nat.succ_mul]
      have := inBucket_le f (f p.1) s
      omega
  exact this s

/-- **C130.** The badness is never negative and always less than the number of entries (so it is finite). -/
theorem C130_range (H : HashEq K) (L : H.Lawful) (ops : List (Op K V)) {m : MapSt K V} {os : List (Out V)}
    (h : implRun H empty ops = .ok (m, os)) : 0 ≤ badness m ∧ (m.size ≠ 0 → badness m < m.size) := by
  obtain ⟨s, -, Q⟩ := run_rel L h
  rw [rel_badness Q, Q.size_eq]
  refine ⟨le_max_left _ _, fun hz => ?_⟩
  have hn : (0 : ℚ) < s.length := by exact_mod_cast Nat.pos_of_ne_zero hz
  refine max_lt hn ?_
  have h1 : ((s.sharing (loc H m.entries.length) : Nat) : ℚ) ≤ (s.length : ℚ) * s.length := by exact_mod_cast sharing_le _ s
  have h2 : ((s.sharing (loc H m.entries.length) : Nat) : ℚ) / s.length ≤ s.length := by rwa [div_le_iff₀ hn]
  have h3 : (0 : ℚ) ≤ (s.length : ℚ) / (m.entries.length : ℚ) := by positivity
  have h4 : ((s.sharing (loc H m.entries.length) : Nat) : ℚ) / s.length / (1 + (s.length : ℚ) / (m.entries.length : ℚ)) ≤ s.length := by
    rw [div_le_iff₀ (by linarith)]
    nlinarith
  linarith

/-- **C130.** A map no two keys of which share a bucket has badness zero. -/
theorem C130_perfect (H : HashEq K) (L : H.Lawful) (ops : List (Op K V)) {m : MapSt K V} {os : List (Out V)}
    (h : implRun H empty ops = .ok (m, os)) (hp : ∀ i n, bucketSize m i = .ok n → n ≤ 1) : badness m = 0 := by
  obtain ⟨s, -, Q⟩ := run_rel L h
  rw [rel_badness Q, AMap.badness]
  refine max_eq_left ?_
  have hl : ∀ l ∈ m.entries, l.length ≤ 1 := fun l hl => by
    obtain ⟨j, hj, rfl⟩ := List.getElem_of_mem hl
    refine hp j _ ?_
    simp only [bucketSize, bucket, List.getElem?_eq_getElem hj, R.ok_bind, R.pure_eq, chainSize_eq]
  have hsum : s.sharing (loc H m.entries.length) ≤ s.length := by
    rw [rel_sharing Q, ← Q.size_eq, Q.inv.size_eq, MapSt.nodes, List.length_flatten]
    generalize m.entries = es at hl
    induction es with
    | nil => simp
    | cons l es ih =>
      rw [List.map_cons, List.sum_cons, List.map_cons, List.sum_cons]
      have := ih (fun l' h' => hl l' (List.mem_cons_of_mem _ h'))
      have h1 := hl l List.mem_cons_self
      have : l.length * l.length ≤ l.length := by
        calc l.length * l.length ≤ l.length * 1 := Nat.mul_le_mul_left _ h1
          _ = l.length := Nat.mul_one _
      omega
  by_cases hz : s.length = 0
  · have : s = [] := List.length_eq_zero_iff.1 hz
    subst this
    simp [AMap.sharing]
  have hn : (0 : ℚ) < s.length := by exact_mod_cast Nat.pos_of_ne_zero hz
  have h1 : ((s.sharing (loc H m.entries.length) : Nat) : ℚ) / s.length ≤ 1 := by
    rw [div_le_iff₀ hn]; simpa using (by exact_mod_cast hsum : ((s.sharing (loc H m.entries.length) : Nat) : ℚ) ≤ s.length)
  have h3 : (0 : ℚ) ≤ (s.length : ℚ) / (m.entries.length : ℚ) := by positivity
  have h4 : ((s.sharing (loc H m.entries.length) : Nat) : ℚ) / s.length / (1 + (s.length : ℚ) / (m.entries.length : ℚ)) ≤ 1 := by
    rw [div_le_iff₀ (by linarith)]; linarith
  linarith

/-- **C130.** The worst hash, which puts all keys into one bucket: the badness is that of a list of all entries. -/
theorem C130_worst (H : HashEq K) (L : H.Lawful) (ops : List (Op K V)) {m : MapSt K V} {os : List (Out V)}
    (h : implRun H empty ops = .ok (m, os)) (hc : ∀ a b, H.hash a = H.hash b) :
    badness m = max 0 ((m.size : ℚ) / (1 + (m.size : ℚ) / (bucketCount m : ℚ)) - 1) := by
  obtain ⟨s, -, Q⟩ := run_rel L h
  rw [rel_badness Q, AMap.badness, Q.size_eq]
  have e : s.sharing (loc H m.entries.length) = s.length * s.length := by
    have hb : ∀ p : K × V, s.inBucket (loc H m.entries.length) (loc H m.entries.length p.1) = s.length := fun p =>
      List.countP_eq_length.2 (fun q _ => by simp only [beq_iff_eq, loc, hc q.1 p.1])
    unfold AMap.sharing
    rw [List.map_congr_left (g := fun _ => s.length) (fun p _ => hb p), List.map_const', List.sum_replicate_nat]
  rw [e]
  by_cases hz : s.length = 0
  · rw [hz]; simp
  have hn : (s.length : ℚ) ≠ 0 := by exact_mod_cast hz
  rw [Nat.cast_mul, mul_div_assoc, div_self hn, mul_one]
  rfl

/-- **C130.** The badness depends on what the map holds and on its number of buckets only, not on the history. -/
theorem C130_history_free (H : HashEq K) (L : H.Lawful) (ops1 ops2 : List (Op K V)) {m1 m2 : MapSt K V} {os1 os2 : List (Out V)}
    (h1 : implRun H empty ops1 = .ok (m1, os1)) (h2 : implRun H empty ops2 = .ok (m2, os2))
    {s1 s2 : AMap K V} (e1 : specRun H [] ops1 = some (s1, os1)) (e2 : specRun H [] ops2 = some (s2, os2))
    (hs : s1.Perm s2) (hc : bucketCount m1 = bucketCount m2) : badness m1 = badness m2 := by
  obtain ⟨t1, e1', R1⟩ := run_rel L h1
  obtain ⟨t2, e2', R2⟩ := run_rel L h2
  rw [e1] at e1'; cases e1'
  rw [e2] at e2'; cases e2'
  have hc' : m1.entries.length = m2.entries.length := hc
  rw [rel_badness R1, rel_badness R2, AMap.badness, AMap.badness, hc', sharing_perm hs, hs.length_eq]

theorem run_shape {H : HashEq K} (ops : List (Op K V)) : ∀ {m m' : MapSt K V} {os : List (Out V)}, Shape m →
    implRun H m ops = .ok (m', os) → Shape m' := by
  induction ops with
  | nil => intro m m' os S h; cases h; exact S
  | cons op ops ih =>
    intro m m' os S h
    simp only [implRun, R.bind_eq_ok] at h
    obtain ⟨⟨m1, o⟩, h1, ⟨m2, os2⟩, h2, h3⟩ := h
    cases h3
    exact ih (step_grow S h1).1 h2

/-- **C130.** A greater table only takes buckets apart: two keys that share a bucket after `reserve` shared one before. -/
theorem C130_reserve_splits (H : HashEq K) (ops : List (Op K V)) {m m' : MapSt K V} {os : List (Out V)} {n : Nat}
    (h : implRun H empty ops = .ok (m, os)) (hr : reserve H m n = .ok m') {f f' : K → Nat} (B : BucketOf H m f) (B' : BucketOf H m' f')
    (a b : K) (hab : f' a = f' b) : f a = f b := by
  have S : Shape m := run_shape ops (m := empty) ⟨by simp [empty], .inl ⟨rfl, rfl⟩⟩ h
  obtain ⟨S', -, hle⟩ := reserve_grow S hr
  obtain ⟨h0, rfl⟩ := B.eq a
  obtain ⟨h0', rfl⟩ := B'.eq a
  have hle : m.entries.length ≤ m'.entries.length := by
    rcases hle with ⟨rfl, _⟩ | ⟨_, _, _⟩ <;> omega
  rcases S.len with ⟨hz, _⟩ | ⟨j, hj⟩
  · omega
  rcases S'.len with ⟨hz, _⟩ | ⟨j', hj'⟩
  · omega
  rw [hj, hj'] at hle
  have hjj : j + 2 ≤ j' + 2 := (Nat.pow_le_pow_iff_right (by omega)).1 hle
  rw [hj'] at hab
  rw [hj, loc_mod H hjj a, loc_mod H hjj b, hab]

/-- **C130.** So no entry has more entries in its bucket than before, and at most as many pairs of entries share one. -/
theorem C130_reserve_shares_less (H : HashEq K) (ops : List (Op K V)) {m m' : MapSt K V} {os : List (Out V)} {n : Nat}
    (h : implRun H empty ops = .ok (m, os)) (hr : reserve H m n = .ok m') {f f' : K → Nat} (B : BucketOf H m f) (B' : BucketOf H m' f')
    (s : AMap K V) : (∀ k, s.inBucket f' (f' k) ≤ s.inBucket f (f k)) ∧ s.sharing f' ≤ s.sharing f := by
  have hk : ∀ k, s.inBucket f' (f' k) ≤ s.inBucket f (f k) := fun k =>
    List.countP_mono_left (fun p _ hp => by
      simp only [beq_iff_eq] at hp ⊢
      exact C130_reserve_splits H ops h hr B B' p.1 k hp)
  refine ⟨hk, ?_⟩
  unfold AMap.sharing
  have : ∀ t : AMap K V, (t.map (fun p => s.inBucket f' (f' p.1))).sum ≤ (t.map (fun p => s.inBucket f (f p.1))).sum := by
    intro t
    induction t with
    | nil => simp
    | cons p t ih =>
      rw [List.map_cons, List.sum_cons, List.map_cons, List.sum_cons]
      have := hk p.1
      omega
  exact this s

/-! ### examples -/

/-- Six keys in 32 buckets, five of them in one: the mean bucket of an entry has 26/6 entries instead of 1 + 6/32. -/
example : ((implRun natHash empty demoOps).toOption.map (fun r =>
    (bucketCount r.1, ((List.range 32).mapM (bucketSize r.1)).toOption.map (fun l => (l.filter (· ≠ 0), l.sum)),
      (bucketIdx natHash r.1 3).toOption == (bucketIdx natHash r.1 9).toOption, badness r.1)))
    = some (32, some ([1, 5], 6), true, 151 / 57) := by decide +kernel

/-- A map that holds nothing yet has no buckets; asking for a bucket is an error. -/
example : bucketCount (empty : MapSt Nat Nat) = 0 ∧ (bucketIdx natHash (empty : MapSt Nat Nat) 3).toOption = none ∧
    badness (empty : MapSt Nat Nat) = 0 := by decide +kernel

/-- A hash that spreads: no two keys share a bucket, and one that does not: the worst badness of five keys in four buckets. -/
example : ((implRun natHash empty [.index 1 0 (fun _ => 10), .index 2 0 (fun _ => 10)]).toOption.map (fun r => badness r.1)) = some 0 ∧
    ((implRun (⟨fun _ => 7, fun a b => a == b⟩ : HashEq Nat) empty
      [.index 1 0 (fun _ => 1), .index 2 0 (fun _ => 1), .index 3 0 (fun _ => 1), .index 4 0 (fun _ => 1), .index 5 0 (fun _ => 1)]).toOption.map
      (fun r => (bucketCount r.1, badness r.1))) = some (4, 11 / 9) := by decide +kernel



end Verif.Map
