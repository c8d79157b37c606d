import Verif.NMem.Lemmas3

/-!
**C117** The functions of `native/memory.hh` called directly: reserved, committed and freed ranges behave as ranges of bytes.
-/
namespace Verif.NMem
open Verif.Bits Spec

/-! ### commit and decommit -/

/-- **C117** `commit_physical_memory`, for every range that is reserved, aligned or not: afterwards all its bytes can be read and written;
pages without a byte of the range stay as they were, and no value changes. If a byte is not reserved, the call asserts. -/
theorem C117_commit (os : OS) (h : os.psize = 4096) (ptr size : BitVec 64) (hs : 0 < size.toNat) (hb : ptr.toNat + size.toNat ≤ 2 ^ 47) :
    ((∀ x, ptr.toNat ≤ x → x < ptr.toNat + size.toNat → os.page (x / 4096) ≠ .unmapped) →
      ∃ os', commit os ptr size = .ok os' ∧
        (∀ x v, ptr.toNat ≤ x → x < ptr.toNat + size.toNat → read os' x = .ok (os.mem x) ∧ ∃ os'', write os' x v = .ok os'') ∧
        (∀ k, ¬ Touches ptr.toNat size.toNat k → os'.page k = os.page k) ∧ os'.mem = os.mem ∧ os'.resident = os.resident ∧ os'.psize = os.psize) ∧
    ((∃ x, ptr.toNat ≤ x ∧ x < ptr.toNat + size.toNat ∧ os.page (x / 4096) = .unmapped) → commit os ptr size = .error .assert) := by
  constructor
  · intro hm
    have hm' : ∀ k, Changed ptr.toNat size.toNat k → os.page k ≠ .unmapped := by
      intro k hk
      obtain ⟨x, h1, h2, rfl⟩ := (changed_iff hs).mp hk
      exact hm x h1 h2
    refine ⟨_, (commit_ok h hb hm').1, ?_, ?_, rfl, rfl, rfl⟩
    · intro x v h1 h2
      have hp : (if Changed ptr.toNat size.toNat (x / 4096) then Page.readWrite else os.page (x / 4096)) = .readWrite :=
        if_pos ((changed_iff hs).mpr ⟨x, h1, h2, rfl⟩)
      constructor
      · exact read_ok (os := { os with page := fun k => if Changed ptr.toNat size.toNat k then .readWrite else os.page k }) h hp
      · unfold write
        dsimp only
        rw [h, if_pos hp]
        exact ⟨_, rfl⟩
    · intro k hk
      exact if_neg (fun hc => hk ((changed_iff hs).mp hc))
  · rintro ⟨x, h1, h2, h3⟩
    exact (commit_fail h hb ⟨h1, h2⟩ h3).1

/-- Pages 1 to 4 are reserved, page 2 holds a byte. -/
def four : OS :=
  { psize := 4096, page := fun k => if 1 ≤ k ∧ k ≤ 4 then .noAccess else .unmapped, resident := fun k => k == 2, mem := fun x => if x = 8200 then 7#8 else 0#8 }

example : ∃ os', commit four 8000#64 300#64 = .ok os' ∧ read os' 8200 = .ok 7#8 ∧ os'.page 1 = .readWrite ∧ os'.page 3 = .noAccess := by
  obtain ⟨os', h1, h2, h3, _, _, hps⟩ := (C117_commit four rfl 8000#64 300#64 (by decide) (by decide)).1 (fun x h1 h2 => by
    have h1 : 8000 ≤ x := h1
    have h2 : x < 8300 := h2
    have : 1 ≤ x / 4096 ∧ x / 4096 ≤ 4 := by omega
    show (if 1 ≤ x / 4096 ∧ x / 4096 ≤ 4 then Page.noAccess else .unmapped) ≠ .unmapped
    rw [if_pos this]; nofun)
  refine ⟨os', h1, (h2 8200 0#8 (by decide) (by decide)).1, ?_, ?_⟩
  · have := (h2 8000 0#8 (by decide) (by decide)).1
    unfold read at this
    split at this
    · rename_i h; rw [hps] at h; exact h
    · cases this
  · rw [h3 3 (by rintro ⟨x, a, b, c⟩; have a : 8000 ≤ x := a; have b : x < 8300 := b; omega)]; rfl

/-- **C117** `decommit_physical_memory`: afterwards no byte of the range can be accessed, the pages without a byte of the range stay as they
were, and so do all values and the physical memory. If a byte is not reserved, the call asserts. -/
theorem C117_decommit (os : OS) (h : os.psize = 4096) (ptr size : BitVec 64) (hs : 0 < size.toNat) (hb : ptr.toNat + size.toNat ≤ 2 ^ 47) :
    ((∀ x, ptr.toNat ≤ x → x < ptr.toNat + size.toNat → os.page (x / 4096) ≠ .unmapped) →
      ∃ os', decommit os ptr size = .ok os' ∧
        (∀ x v, ptr.toNat ≤ x → x < ptr.toNat + size.toNat → read os' x = .error .ub ∧ write os' x v = .error .ub ∧ os'.page (x / 4096) ≠ .unmapped) ∧
        (∀ k, ¬ Touches ptr.toNat size.toNat k → os'.page k = os.page k) ∧ os'.mem = os.mem ∧ os'.resident = os.resident ∧ os'.psize = os.psize) ∧
    ((∃ x, ptr.toNat ≤ x ∧ x < ptr.toNat + size.toNat ∧ os.page (x / 4096) = .unmapped) → decommit os ptr size = .error .assert) := by
  constructor
  · intro hm
    have hm' : ∀ k, Changed ptr.toNat size.toNat k → os.page k ≠ .unmapped := by
      intro k hk
      obtain ⟨x, h1, h2, rfl⟩ := (changed_iff hs).mp hk
      exact hm x h1 h2
    refine ⟨_, (commit_ok h hb hm').2, ?_, ?_, rfl, rfl, rfl⟩
    · intro x v h1 h2
      have hp : (if Changed ptr.toNat size.toNat (x / 4096) then Page.noAccess else os.page (x / 4096)) = .noAccess :=
        if_pos ((changed_iff hs).mpr ⟨x, h1, h2, rfl⟩)
      refine ⟨?_, ?_, ?_⟩
      · refine read_fail (os := { os with page := fun k => if Changed ptr.toNat size.toNat k then .noAccess else os.page k }) h ?_
        dsimp only
        rw [hp]; nofun
      · unfold write
        dsimp only
        rw [h, if_neg (by rw [hp]; nofun)]
      · dsimp only
        rw [hp]; nofun
    · intro k hk
      exact if_neg (fun hc => hk ((changed_iff hs).mp hc))
  · rintro ⟨x, h1, h2, h3⟩
    exact (commit_fail h hb ⟨h1, h2⟩ h3).2

example : ∃ os', decommit four 8200#64 1#64 = .ok os' ∧ read os' 8192 = .error .ub ∧ os'.page 1 = .noAccess ∧ os'.mem 8200 = 7#8 := by
  obtain ⟨os', h1, h2, h3, h4, _, hps⟩ := (C117_decommit four rfl 8200#64 1#64 (by decide) (by decide)).1 (fun x h1 h2 => by
    have h1 : 8200 ≤ x := h1
    have h2 : x < 8201 := h2
    have : 1 ≤ x / 4096 ∧ x / 4096 ≤ 4 := by omega
    show (if 1 ≤ x / 4096 ∧ x / 4096 ≤ 4 then Page.noAccess else .unmapped) ≠ .unmapped
    rw [if_pos this]; nofun)
  refine ⟨os', h1, ?_, ?_, by rw [h4]; rfl⟩
  · have := (h2 8200 0#8 (by decide) (by decide)).1
    unfold read at this ⊢
    rw [hps] at this ⊢
    split at this
    · cases this
    · rename_i h; exact if_neg h
  · rw [h3 1 (by rintro ⟨x, a, b, c⟩; have a : 8200 ≤ x := a; omega)]; rfl

/-! ### prefault -/

/-- **C117** `prefault_memory`, for every range: if all its bytes are committed, the call ends, reads only bytes of the range, and reads from
every page of it. If a byte is not committed, it faults. -/
theorem C117_prefault (os : OS) (h : os.psize = 4096) (ptr size : BitVec 64) (hb : ptr.toNat + size.toNat ≤ 2 ^ 47) (fuel : Nat)
    (hf : size.toNat / 4096 + 1 ≤ fuel) :
    ((∀ x, ptr.toNat ≤ x → x < ptr.toNat + size.toNat → os.page (x / 4096) = .readWrite) →
      ∃ l, prefault os fuel ptr size = .ok l ∧ (∀ r ∈ l, ptr.toNat ≤ r ∧ r < ptr.toNat + size.toNat) ∧
        ∀ k, Touches ptr.toNat size.toNat k → ∃ r ∈ l, r / 4096 = k) ∧
    ((∃ x, ptr.toNat ≤ x ∧ x < ptr.toNat + size.toNat ∧ os.page (x / 4096) ≠ .readWrite) → prefault os fuel ptr size = .error .ub) := by
  have hfin : (ptr + size).toNat = ptr.toNat + size.toNat := by rw [BitVec.toNat_add]; omega
  have hup := up_toNat ptr (by omega)
  constructor
  · intro hm
    unfold prefault
    by_cases hz : size = 0#64
    · rw [if_pos hz]
      subst hz
      exact ⟨[], rfl, by simp, by rintro k ⟨x, h1, h2, _⟩; simp at h2; omega⟩
    · rw [if_neg hz]
      have hs : 0 < size.toNat := Nat.pos_of_ne_zero (fun e => hz (BitVec.eq_of_toNat_eq e))
      obtain ⟨l, h1, h2, h3⟩ := loop_ok h (fin := ptr + size) (by omega) fuel (alignUp ptr 4096#64) (by omega) (by omega) (by omega) (by
        intro k k1 k2
        have := hm (4096 * k) (by omega) (by omega)
        rwa [Nat.mul_div_cancel_left _ (by decide)] at this)
      rw [read_ok h (hm ptr.toNat (by omega) (by omega)), R.ok_bind, h1, R.ok_bind]
      refine ⟨_, rfl, ?_, ?_⟩
      · intro r hr
        rcases List.mem_cons.mp hr with hr | hr
        · omega
        · have := h2 r hr; omega
      · intro k hk
        rw [touches_iff hs] at hk
        by_cases hkk : ptr.toNat / 4096 = k
        · exact ⟨_, List.mem_cons_self, hkk⟩
        · exact ⟨4096 * k, List.mem_cons_of_mem _ (h3 k (by omega) (by omega)), by omega⟩
  · rintro ⟨x, h1, h2, h3⟩
    unfold prefault
    have hz : size ≠ 0#64 := by rintro rfl; simp at h2; omega
    rw [if_neg hz]
    by_cases hr : os.page (ptr.toNat / 4096) = .readWrite
    · have hne : x / 4096 ≠ ptr.toNat / 4096 := fun e => h3 (e ▸ hr)
      rw [read_ok h hr, R.ok_bind, loop_fail h (by omega) (x / 4096) (by omega) h3 fuel (alignUp ptr 4096#64) (by omega) (by omega)]
      rfl
    · rw [read_fail h hr]; rfl

/-- All pages are committed. -/
def open_ : OS := { psize := 4096, page := fun _ => .readWrite, resident := fun _ => false, mem := fun _ => 0#8 }

example : prefault open_ 5 8000#64 9000#64 = .ok [8000, 8192, 12288, 16384] := by decide +kernel
example : ∃ l, prefault open_ 5 8000#64 9000#64 = .ok l ∧ (∀ r ∈ l, 8000 ≤ r ∧ r < 17000) ∧ ∀ k, Touches 8000 9000 k → ∃ r ∈ l, r / 4096 = k :=
  (C117_prefault open_ rfl 8000#64 9000#64 (by decide) 5 (by decide)).1 (fun _ _ _ => rfl)

/-! ### programs -/

theorem step_ok {s : S} {os : OS} (I : Inv s os) (op : Op) (h : Allowed s op) : ∃ os', step os op = .ok (os', out s op) ∧ Inv (next s op) os' := by
  cases op with
  | reserve size room => exact step_reserve I h
  | free ptr size => exact step_free I h
  | commit ptr size => exact step_commit I h
  | decommit ptr size => exact step_decommit I h
  | prefault ptr size =>
    have h : ∀ x, inside ptr.toNat size.toNat x = true → s.com x = true := h
    refine ⟨os, ?_, I⟩
    show (prefault os _ ptr size >>= _) = _
    by_cases hz : size.toNat = 0
    · have hz : size = 0#64 := BitVec.eq_of_toNat_eq hz
      unfold prefault
      rw [if_pos hz]; rfl
    · have hb : ptr.toNat + size.toNat ≤ 2 ^ 47 := by
        obtain ⟨⟨r, hr, h1, h2⟩, _⟩ := I.com _ (h (ptr.toNat + size.toNat - 1) (inside_iff.mpr (by omega)))
        have := I.range r hr
        omega
      obtain ⟨l, hl, _⟩ := (C117_prefault os I.psize ptr size hb _ (Nat.le_refl _)).1 (fun x h1 h2 => (I.com x (h x (inside_iff.mpr ⟨h1, h2⟩))).2)
      rw [hl]; rfl
  | read a =>
    obtain ⟨h1, h2⟩ := I.com a h
    refine ⟨os, ?_, I⟩
    show (read os a >>= _) = _
    rw [read_ok I.psize h2, I.val a h1]; rfl
  | write a v =>
    obtain ⟨h1, h2⟩ := I.com a h
    refine ⟨_, by
      show (write os a v >>= _) = _
      unfold write
      rw [I.psize, if_pos h2]
      rfl, ?_⟩
    constructor
    · rfl
    · exact I.range
    · exact I.apart
    · exact I.mapped
    · exact I.com
    · intro x hx
      dsimp only [next]
      split
      · rfl
      · exact I.val x hx
    · intro k hk
      dsimp only at hk ⊢
      split at hk
      · rename_i he; subst he; rw [h2]; nofun
      · exact I.resident k hk

theorem hist_inv {s : S} {ops : List Op} {l : List Out} {t : S} (h : Hist s ops l t) : ∀ {os : OS}, Inv s os → ∃ os', run os ops = .ok (os', l) ∧ Inv t os' := by
  induction h with
  | nil s => intro os I; exact ⟨os, rfl, I⟩
  | cons ha _ ih =>
    intro os I
    obtain ⟨os1, h1, I1⟩ := step_ok I _ ha
    obtain ⟨os2, h2, I2⟩ := ih I1
    refine ⟨os2, ?_, I2⟩
    unfold run
    rw [h1, R.ok_bind]
    dsimp only
    rw [h2, R.ok_bind]

/-- **C117**, all but `decommit` of ranges that are not aligned (see `C117_decommit_neighbour`). Every history that keeps the rules, with any number of ranges, runs without a failed assertion or a fault, and its reads return
what was written last (zero in the beginning), also after the bytes were decommitted and committed again. -/
theorem C117_history_partial (ops : List Op) (l : List Out) (t : S) (h : Hist S.start ops l t) : ∃ os, run (boot 4096) ops = .ok (os, l) := by
  obtain ⟨os, h1, _⟩ := hist_inv h inv_start
  exact ⟨os, h1⟩

/-- **C117** Only reserved bytes stay mapped or use memory: when all ranges are freed, everything is given back. -/
theorem C117_free (ops : List Op) (l : List Out) (t : S) (h : Hist S.start ops l t) (ht : t.res = []) :
    ∃ os, run (boot 4096) ops = .ok (os, l) ∧ ∀ k, os.page k = .unmapped ∧ os.resident k = false := by
  obtain ⟨os, h1, I⟩ := hist_inv h inv_start
  refine ⟨os, h1, fun k => ?_⟩
  have hk : ¬ os.page k ≠ .unmapped := by
    rw [I.mapped k, ht]
    rintro ⟨r, hr, _⟩
    cases hr
  have hk' : os.page k = .unmapped := by
    cases hp : os.page k with
    | unmapped => rfl
    | noAccess => exact absurd (by rw [hp]; nofun) hk
    | readWrite => exact absurd (by rw [hp]; nofun) hk
  refine ⟨hk', ?_⟩
  cases hr : os.resident k with
  | false => rfl
  | true => exact absurd (I.resident k hr) hk

/-- A history with two ranges, and a page that is decommitted and committed again. -/
def sample : List Op :=
  [.reserve 10000#64 (some 8192#64), .commit 9000#64 100#64, .write 9050 7#8, .reserve 1#64 (some 20480#64), .decommit 8192#64 4096#64,
   .commit 20480#64 1#64, .prefault 20480#64 1#64, .commit 9050#64 1#64, .read 9050, .read 20480, .free 8192#64 10000#64, .free 20480#64 1#64]

theorem sample_hist : ∃ t, Hist S.start sample [.addr 8192#64, .unit, .unit, .addr 20480#64, .unit, .unit, .unit, .unit, .byte 7#8, .byte 0#8, .unit, .unit] t ∧ t.res = [] := by
  refine ⟨sample.foldl next S.start, ?_, ?_⟩
  · refine .cons (l := [.unit, .unit, .addr 20480#64, .unit, .unit, .unit, .unit, .byte 7#8, .byte 0#8, .unit, .unit]) ?_ <|
      .cons (l := [.unit, .addr 20480#64, .unit, .unit, .unit, .unit, .byte 7#8, .byte 0#8, .unit, .unit]) ?_ <|
      .cons (l := [.addr 20480#64, .unit, .unit, .unit, .unit, .byte 7#8, .byte 0#8, .unit, .unit]) ?_ <|
      .cons (l := [.unit, .unit, .unit, .unit, .byte 7#8, .byte 0#8, .unit, .unit]) ?_ <|
      .cons (l := [.unit, .unit, .unit, .byte 7#8, .byte 0#8, .unit, .unit]) ?_ <|
      .cons (l := [.unit, .unit, .byte 7#8, .byte 0#8, .unit, .unit]) ?_ <|
      .cons (l := [.unit, .byte 7#8, .byte 0#8, .unit, .unit]) ?_ <|
      .cons (l := [.byte 7#8, .byte 0#8, .unit, .unit]) ?_ <|
      .cons (l := [.byte 0#8, .unit, .unit]) ?_ <|
      .cons (l := [.unit, .unit]) ?_ <|
      .cons (l := [.unit]) ?_ <|
      .cons (l := []) ?_ (.nil _)
    · exact ⟨by decide, _, rfl, by decide, by decide, by decide, by intro r h; cases h⟩
    · exact ⟨_, List.mem_cons_self, by decide, by decide⟩
    · show _ = true; decide
    · exact ⟨by decide, _, rfl, by decide, by decide, by decide, by
        intro r h
        rcases List.mem_cons.mp h with rfl | h
        · decide
        · cases h⟩
    · exact ⟨by decide, (8192, 10000), by decide, by decide, by decide, by decide⟩
    · exact ⟨(20480, 1), by decide, by decide, by decide⟩
    · intro x hx
      have : x = 20480 := by have := inside_iff.mp hx; simp at this; omega
      subst this; decide
    · exact ⟨(8192, 10000), by decide, by decide, by decide⟩
    · show _ = true; decide
    · show _ = true; decide
    · show _ ∈ _; decide
    · show _ ∈ _; decide
  · decide

example : ∃ os, run (boot 4096) sample = .ok (os, [.addr 8192#64, .unit, .unit, .addr 20480#64, .unit, .unit, .unit, .unit, .byte 7#8, .byte 0#8, .unit, .unit]) ∧
    ∀ k, os.page k = .unmapped ∧ os.resident k = false := by
  obtain ⟨t, h, ht⟩ := sample_hist
  exact C117_free _ _ _ h ht

/-! ### where the code falls short -/

/-- **C117** fails for `decommit` of a range that is not aligned: committed bytes next to it are lost. Here 200 bytes are committed, 10 of them
decommitted, and another one is read: the specification allows it, but the access faults. -/
theorem C117_decommit_neighbour :
    (run (boot 4096) [.reserve 4096#64 (some 8192#64), .commit 8192#64 200#64, .write 8292 7#8, .decommit 8192#64 10#64, .read 8292]).map (·.2) = .error .ub ∧
    Allowed ([Op.reserve 4096#64 (some 8192#64), .commit 8192#64 200#64, .write 8292 7#8, .decommit 8192#64 10#64].foldl next S.start) (.read 8292) ∧
    (run (boot 4096) [.reserve 4096#64 (some 8192#64), .commit 8192#64 200#64, .write 8292 7#8, .read 8292]).map (·.2) =
      .ok [.addr 8192#64, .unit, .unit, .byte 7#8] := by
  refine ⟨by decide +kernel, ?_, by decide +kernel⟩
  show _ = true; decide

/-- **C117** Decommitting gives no memory back: after any `decommit` that succeeds, the pages behind the range use as much physical memory as
before. -/
theorem C117_decommit_keeps_memory (os : OS) (ptr size : BitVec 64) (os' : OS) (h : decommit os ptr size = .ok os') : os'.resident = os.resident := by
  unfold decommit mprotect at h
  dsimp only at h
  split at h
  · cases h
  · rename_i o ho
    split at ho
    · cases ho
    · split at ho
      · injection ho with ho; injection h with h; subst h; subst ho; rfl
      · cases ho

example : ∃ os, (run (boot 4096) [.reserve 4096#64 (some 8192#64), .commit 8192#64 4096#64, .write 8192 7#8, .decommit 8192#64 4096#64]).map (fun r => r.1.resident 2) = .ok os ∧ os = true :=
  ⟨true, by decide +kernel, rfl⟩

/-- **C117** On a machine with pages of more than 4096 bytes nothing can be reserved: `mmap` rejects the offset 4096, and the call asserts. -/
theorem C117_large_pages (os : OS) (h : 4096 < os.psize) (size : BitVec 64) (room : Option (BitVec 64)) : reserve os size room = .error .assert := by
  unfold reserve mmap
  rw [if_pos (Or.inr (by rw [Nat.mod_eq_of_lt h]; decide))]

example : reserve (boot 16384) 65536#64 (some 32768#64) = .error .assert := C117_large_pages _ (by decide) _ _

/-- … and a range that is reserved there by other means is not committed if it does not begin at a page: with pages of 16384 bytes. -/
theorem C117_large_pages_commit (os : OS) (h : os.psize = 16384) (ptr size : BitVec 64) (hb : ptr.toNat / 4096 % 4 ≠ 0) : commit os ptr size = .error .assert := by
  unfold commit mprotect
  dsimp only
  rw [if_pos (by rw [h, down_toNat]; omega)]

example : commit { boot 16384 with page := fun _ => .noAccess } 36864#64 10#64 = .error .assert := C117_large_pages_commit _ rfl _ _ (by decide)

end Verif.NMem
