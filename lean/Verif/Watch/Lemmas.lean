import Verif.Watch.Spec

namespace Verif.Watch
open Spec

/-! ### Paths -/

theorem pivot_spec (p : Str) : (pivot p).1 ++ (pivot p).2 = p ∧ '/' ∉ (pivot p).2 ∧ ((pivot p).1 = [] ∨ ∃ q, (pivot p).1 = q ++ ['/']) := by
  induction p with
  | nil => simp [pivot]
  | cons c cs ih =>
    unfold pivot
    rcases hp : pivot cs with ⟨d, f⟩
    rw [hp] at ih
    dsimp only at ih ⊢
    obtain ⟨h1, h2, h3⟩ := ih
    cases d with
    | nil =>
      by_cases hc : c = '/'
      · subst hc
        simp only [List.isEmpty_nil, if_true]
        exact ⟨by simpa using h1, h2, .inr ⟨[], rfl⟩⟩
      · simp only [List.isEmpty_nil, if_true, if_neg hc]
        refine ⟨by simpa using h1, ?_, .inl trivial⟩
        simp only [List.mem_cons, not_or]
        exact ⟨fun h => hc h.symm, h2⟩
    | cons x d =>
      simp only [List.isEmpty_cons]
      refine ⟨by simpa using h1, h2, .inr ?_⟩
      rcases h3 with h3 | ⟨q, h3⟩
      · cases h3
      · exact ⟨c :: q, by simp [h3]⟩

theorem pivot_name {n : Str} (h : '/' ∉ n) : pivot n = ([], n) := by
  induction n with
  | nil => rfl
  | cons c cs ih =>
    simp only [List.mem_cons, not_or] at h
    unfold pivot
    rw [ih h.2]
    have : c ≠ '/' := fun e => h.1 e.symm
    simp [this]

theorem location_name {n : Str} (h : '/' ∉ n) : (getFileLocation n).filename = n := by
  unfold getFileLocation
  rw [pivot_name h]

/-! ### The monitor of a directory -/

/-- The monitor for a path. -/
def mon (ms : List Mon) (d : Str) : Option Mon := ms.find? (fun m => decide (m.path = d))

theorem mon_cons (m : Mon) (ms : List Mon) (d : Str) : mon (m :: ms) d = if m.path = d then some m else mon ms d := by
  unfold mon
  rw [List.find?_cons]
  by_cases h : m.path = d <;> simp [h]

theorem mon_path {ms : List Mon} {d : Str} {m : Mon} (h : mon ms d = some m) : m.path = d := by
  have := List.find?_some h
  simpa using this

theorem mon_none {ms : List Mon} {d : Str} : mon ms d = none ↔ d ∉ ms.map (·.path) := by
  induction ms with
  | nil => simp [mon]
  | cons m ms ih =>
    rw [mon_cons]
    by_cases h : m.path = d
    · simp [h]
    · simp only [if_neg h, ih, List.map_cons, List.mem_cons, not_or]
      exact ⟨fun a => ⟨fun e => h e.symm, a⟩, fun a => a.2⟩

theorem mon_map (f : Mon → Mon) (hf : ∀ m, (f m).path = m.path) (ms : List Mon) (d : Str) : mon (ms.map f) d = (mon ms d).map f := by
  induction ms with
  | nil => rfl
  | cons m ms ih =>
    rw [List.map_cons, mon_cons, mon_cons, hf]
    by_cases h : m.path = d
    · simp [h]
    · simp only [if_neg h, ih]

theorem mon_append_new {ms : List Mon} (m : Mon) (h : mon ms m.path = none) (d : Str) : mon (ms ++ [m]) d = if m.path = d then some m else mon ms d := by
  induction ms with
  | nil => rw [List.nil_append, mon_cons]
  | cons x ms ih =>
    rw [mon_cons] at h
    by_cases hx : x.path = m.path
    · rw [if_pos hx] at h; cases h
    · rw [if_neg hx] at h
      rw [List.cons_append, mon_cons, mon_cons, ih h]
      by_cases h1 : x.path = d
      · have : ¬m.path = d := fun e => hx (h1.trans e.symm)
        simp [h1, this]
      · simp [h1]

/-- The monitors have different paths. -/
def Diff (ms : List Mon) : Prop := (ms.map (·.path)).Nodup

theorem addTo_some {e : Entry} {ms : List Mon} {m : Mon} (h : mon ms e.path.directory = some m) :
    ∃ ms', addTo e ms = some ms' ∧ ms'.map (·.path) = ms.map (·.path) ∧ ∀ d, mon ms' d = if d = e.path.directory then some { m with files := m.files ++ [e] } else mon ms d := by
  induction ms with
  | nil => simp [mon] at h
  | cons x ms ih =>
    rw [mon_cons] at h
    unfold addTo
    by_cases hx : x.path = e.path.directory
    · rw [if_pos hx] at h
      obtain rfl := Option.some.inj h
      rw [if_pos hx.symm]
      refine ⟨_, rfl, rfl, fun d => ?_⟩
      rw [mon_cons, mon_cons]
      by_cases hd : d = e.path.directory
      · subst hd; simp [hx]
      · have : ¬x.path = d := fun e => hd (e.symm.trans hx)
        simp [hd, this]
    · rw [if_neg hx] at h
      rw [if_neg (fun e => hx e.symm)]
      obtain ⟨ms', e1, p1, m1⟩ := ih h
      rw [e1]
      refine ⟨_, rfl, by simp [p1], fun d => ?_⟩
      rw [mon_cons, mon_cons, m1]
      by_cases hd : d = e.path.directory
      · subst hd; simp [hx]
      · simp [hd]

theorem addTo_none {e : Entry} {ms : List Mon} (h : mon ms e.path.directory = none) : addTo e ms = none := by
  induction ms with
  | nil => rfl
  | cons x ms ih =>
    rw [mon_cons] at h
    by_cases hx : x.path = e.path.directory
    · rw [if_pos hx] at h; cases h
    · rw [if_neg hx] at h
      unfold addTo
      rw [if_neg (fun e => hx e.symm), ih h]; rfl

theorem removeFile_none {f : Nat} {es : List Entry} (h : ∀ e, e ∈ es → e.flag ≠ f) : removeFile f es = none := by
  induction es with
  | nil => rfl
  | cons e es ih =>
    unfold removeFile
    rw [if_neg (h e List.mem_cons_self), ih (fun x hx => h x (List.mem_cons_of_mem _ hx))]
    rfl

theorem removeFile_some {e : Entry} {es : List Entry} (he : e ∈ es) (h : ∀ x, x ∈ es → x.flag = e.flag → x = e) : ∃ a b, es = a ++ e :: b ∧ removeFile e.flag es = some (a ++ b) := by
  induction es with
  | nil => cases he
  | cons x es ih =>
    unfold removeFile
    by_cases hx : x.flag = e.flag
    · obtain rfl := h x List.mem_cons_self hx
      exact ⟨[], es, rfl, by rw [if_pos rfl]; rfl⟩
    · rcases List.mem_cons.1 he with rfl | he
      · exact absurd rfl hx
      · obtain ⟨a, b, h1, h2⟩ := ih he (fun y hy => h y (List.mem_cons_of_mem _ hy))
        exact ⟨x :: a, b, by rw [h1]; rfl, by rw [if_neg hx, h2]; rfl⟩

theorem onFlagDestruction_spec {f : Nat} {ms : List Mon} (hd : Diff ms) {d : Str} {m : Mon} (hm : mon ms d = some m) {es : List Entry} (hr : removeFile f m.files = some es)
    (hother : ∀ m', m' ∈ ms → m'.path ≠ d → removeFile f m'.files = none) :
    Diff (onFlagDestruction f ms) ∧ ∀ c, mon (onFlagDestruction f ms) c = if c = d then (if es.isEmpty then none else some { m with files := es }) else mon ms c := by
  have sub : ∀ ms : List Mon, ((onFlagDestruction f ms).map (·.path)).Sublist (ms.map (·.path)) := by
    intro ms
    induction ms with
    | nil => exact List.Sublist.refl _
    | cons x ms ih =>
      unfold onFlagDestruction
      split
      · split
        · exact List.sublist_cons_self _ _
        · exact List.Sublist.refl _
      · simpa using ih
  refine ⟨(sub ms).nodup hd, ?_⟩
  induction ms with
  | nil => simp [mon] at hm
  | cons x ms ih =>
    intro c
    have hd' : x.path ∉ ms.map (·.path) ∧ Diff ms := by unfold Diff at hd ⊢; simpa using hd
    rw [mon_cons] at hm
    by_cases hx : x.path = d
    · rw [if_pos hx] at hm
      obtain rfl := Option.some.inj hm
      unfold onFlagDestruction
      rw [hr]
      dsimp only
      have hn : mon ms d = none := by rw [mon_none, ← hx]; exact hd'.1
      by_cases he : es.isEmpty = true
      · rw [if_pos he, if_pos he, mon_cons]
        by_cases hc : c = d
        · subst hc; rw [if_pos rfl, hn]
        · have : ¬x.path = c := fun e => hc (e.symm.trans hx)
          rw [if_neg hc, if_neg this]
      · rw [if_neg he, if_neg he, mon_cons, mon_cons]
        by_cases hc : c = d
        · subst hc; simp [hx]
        · have : ¬x.path = c := fun e => hc (e.symm.trans hx)
          simp [hc, this]
    · rw [if_neg hx] at hm
      unfold onFlagDestruction
      rw [hother x List.mem_cons_self hx]
      dsimp only
      rw [mon_cons, mon_cons, ih hd'.2 hm (fun m' h => hother m' (List.mem_cons_of_mem _ h))]
      by_cases hc : c = d
      · subst hc; simp [hx]
      · simp [hc]

theorem mem_mon {ms : List Mon} (hd : Diff ms) {m : Mon} (h : m ∈ ms) : mon ms m.path = some m := by
  induction ms with
  | nil => cases h
  | cons x ms ih =>
    have hd' : x.path ∉ ms.map (·.path) ∧ Diff ms := by unfold Diff at hd ⊢; simpa using hd
    rw [mon_cons]
    rcases List.mem_cons.1 h with rfl | h
    · simp
    · have : ¬x.path = m.path := fun e => hd'.1 (e ▸ List.mem_map.2 ⟨m, h, rfl⟩)
      rw [if_neg this, ih hd'.2 h]

theorem mon_mem {ms : List Mon} {d : Str} {m : Mon} (h : mon ms d = some m) : m ∈ ms := List.mem_of_find?_eq_some h

@[simp] theorem upd_self {X : Type} (f : Nat → X) (i : Nat) (x : X) : upd f i x i = x := by simp [upd]
theorem upd_ne {X : Type} (f : Nat → X) {i j : Nat} (x : X) (h : j ≠ i) : upd f i x j = f j := by simp [upd, h]
@[simp] theorem updS_self {K X : Type} [DecidableEq K] (f : K → X) (i : K) (x : X) : updS f i x i = x := by simp [updS]
theorem updS_ne {K X : Type} [DecidableEq K] (f : K → X) {i j : K} (x : X) (h : j ≠ i) : updS f i x j = f j := by simp [updS, h]

/-- A watch and its flag. -/
def Match (fl : Nat → Option Bool) (ms : List Mon) : Option (Option Nat) → Option (Option W) → Prop
  | none, none => True
  | some none, some none => True
  | some (some f), some (some w) => fl f = some w.changed ∧ ∃ m, mon ms w.dir = some m ∧ ⟨⟨w.dir, w.name⟩, f⟩ ∈ m.files
  | _, _ => False

/-- A monitor. -/
structure MonOk (s : State) (σ : S) (d : Str) (m : Mon) : Prop where
  files : m.files ≠ []
  queue : m.queue = σ.pending d
  count : m.files.length = σ.count d
  names : (m.files.map (·.path.filename)).Nodup
  entry : ∀ e, e ∈ m.files → e.path.directory = d ∧ σ.taken (d, e.path.filename) = true ∧ ∃ i w, s.watches i = some (some e.flag) ∧ σ.watches i = some (some w) ∧ w.dir = d ∧ w.name = e.path.filename

/-- The code's state for a state of the watches. -/
structure Inv (s : State) (σ : S) : Prop where
  diff : Diff s.mons
  monOk : ∀ d m, mon s.mons d = some m → MonOk s σ d m
  noMon : ∀ d, mon s.mons d = none → σ.count d = 0 ∧ σ.pending d = []
  watch : ∀ i, Match s.flags s.mons (s.watches i) (σ.watches i)
  inj : ∀ i j f, s.watches i = some (some f) → s.watches j = some (some f) → i = j
  alive : ∀ f, s.flags f ≠ none → ∃ i, s.watches i = some (some f)
  fresh : ∀ f, s.flags f ≠ none → f < s.next
  plain : ∀ d n, n ∈ σ.pending d → n ≠ [] ∧ '/' ∉ n

theorem inv_init : Inv .init .init := by
  refine ⟨List.Pairwise.nil, ?_, ?_, ?_, ?_, ?_, ?_, ?_⟩
  · intro d m h; simp [State.init, mon] at h
  · intro d _; exact ⟨rfl, rfl⟩
  · intro i; exact True.intro
  · intro i j f h; cases h
  · intro f h; exact absurd rfl h
  · intro f h; exact absurd rfl h
  · intro d n h; cases h

end Verif.Watch
