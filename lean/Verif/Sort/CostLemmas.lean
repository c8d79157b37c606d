import Verif.Sort.Cost
import Verif.Sort.Lemmas2

/-! Dropping the count gives back the functions of Model.lean. -/
namespace Verif.Sort

variable {σ κ : Type}

/-- Drop the count. -/
def erase {β : Type _} (x : R (β × Nat)) : R β := x.map Prod.fst

@[simp] theorem erase_ok {β : Type _} (v : β) (c : Nat) : erase (.ok (v, c)) = .ok v := rfl
@[simp] theorem erase_error {β : Type _} (f : Fault) : erase (.error f : R (β × Nat)) = .error f := rfl

theorem erase_lift {β γ : Type _} {x : R β} {f : β → R (γ × Nat)} {g : β → R γ}
    (h : ∀ v, erase (f v) = g v) : erase (x >>= f) = x >>= g := by
  cases x with
  | error e => rfl
  | ok v => exact h v

theorem erase_bind {β γ : Type _} {x : R (β × Nat)} {y : R β} {f : β × Nat → R (γ × Nat)}
    {g : β → R γ} (hx : erase x = y) (h : ∀ v c, erase (f (v, c)) = g v) :
    erase (x >>= f) = y >>= g := by
  cases x with
  | error e => subst hx; rfl
  | ok v => subst hx; exact h v.1 v.2

theorem erase_last {β : Type _} {x : R (β × Nat)} {y : R β} {f : β × Nat → R (β × Nat)}
    (hx : erase x = y) (h : ∀ v c, erase (f (v, c)) = .ok v) : erase (x >>= f) = y := by
  cases x with
  | error e => subst hx; rfl
  | ok v => subst hx; exact h v.1 v.2

theorem sort2C_erase (A : Acc σ κ) (cmp : κ → κ → Bool) (s : σ) (ia ib : Nat) :
    erase (sort2C A cmp s ia ib) = sort2 A cmp s ia ib := by
  unfold sort2C sort2
  refine erase_lift fun a => erase_lift fun b => ?_
  split
  · cases A.swap s ia ib <;> rfl
  · rfl

theorem sort3C_erase (A : Acc σ κ) (cmp : κ → κ → Bool) (s : σ) (ia ib ic : Nat) :
    erase (sort3C A cmp s ia ib ic) = sort3 A cmp s ia ib ic := by
  unfold sort3C sort3
  refine erase_bind (sort2C_erase ..) fun s c1 => erase_bind (sort2C_erase ..) fun s c2 => ?_
  exact erase_last (sort2C_erase ..) fun _ _ => rfl

theorem insertDownC_erase (A : Acc σ κ) (cmp : κ → κ → Bool) (start : Nat) (s : σ) (j : Nat) :
    erase (insertDownC A cmp start s j) = insertDown A cmp start s j := by
  induction j generalizing s with
  | zero => rfl
  | succ j ih =>
    simp only [insertDownC, insertDown]
    split
    · refine erase_lift fun a => erase_lift fun b => ?_
      split
      · exact erase_lift fun s => erase_last (ih s) fun _ _ => rfl
      · rfl
    · rfl

theorem insertLoopC_erase (A : Acc σ κ) (cmp : κ → κ → Bool) (start : Nat) (s : σ) (i m : Nat) :
    erase (insertLoopC A cmp start s i m) = insertLoop A cmp start s i m := by
  induction m generalizing s i with
  | zero => rfl
  | succ m ih =>
    simp only [insertLoopC, insertLoop]
    exact erase_bind (insertDownC_erase ..) fun s c => erase_last (ih _ _) fun _ _ => rfl

theorem smallSortC_erase (A : Acc σ κ) (cmp : κ → κ → Bool) (s : σ) (start size : Nat) :
    erase (smallSortC A cmp s start size) = smallSort A cmp s start size := by
  unfold smallSortC smallSort
  split
  · rfl
  · split
    · exact sort2C_erase ..
    · split
      · exact sort3C_erase ..
      · exact insertLoopC_erase ..

theorem scanUpC_erase (A : Acc σ κ) (cmp : κ → κ → Bool) (s : σ) (start fuel first : Nat) :
    erase (scanUpC A cmp s start fuel first) = scanUp A cmp s start fuel first := by
  induction fuel generalizing first with
  | zero => rfl
  | succ m ih =>
    simp only [scanUpC, scanUp]
    refine erase_lift fun a => erase_lift fun b => ?_
    split
    · exact erase_last (ih _) fun _ _ => rfl
    · rfl

theorem scanDownGuardedC_erase (A : Acc σ κ) (cmp : κ → κ → Bool) (s : σ) (start first l : Nat) :
    erase (scanDownGuardedC A cmp s start first l) = scanDownGuarded A cmp s start first l := by
  induction l with
  | zero => rfl
  | succ m ih =>
    simp only [scanDownGuardedC, scanDownGuarded]
    split
    · refine erase_lift fun a => erase_lift fun b => ?_
      split
      · exact erase_last ih fun _ _ => rfl
      · rfl
    · rfl

theorem scanDownC_erase (A : Acc σ κ) (cmp : κ → κ → Bool) (s : σ) (start l : Nat) :
    erase (scanDownC A cmp s start l) = scanDown A cmp s start l := by
  induction l with
  | zero => rfl
  | succ m ih =>
    simp only [scanDownC, scanDown]
    refine erase_lift fun a => erase_lift fun b => ?_
    split
    · exact erase_last ih fun _ _ => rfl
    · rfl

theorem partLoopC_erase (A : Acc σ κ) (cmp : κ → κ → Bool) (start size fuel : Nat) (s : σ)
    (first last : Nat) :
    erase (partLoopC A cmp start size fuel s first last) =
      partLoop A cmp start size fuel s first last := by
  induction fuel generalizing s first last with
  | zero =>
    simp only [partLoopC, partLoop]
    split <;> rfl
  | succ m ih =>
    simp only [partLoopC, partLoop]
    split
    · exact erase_lift fun s => erase_bind (scanUpC_erase ..) fun f c1 =>
        erase_bind (scanDownC_erase ..) fun l c2 => erase_last (ih _ _ _) fun _ _ => rfl
    · rfl

theorem partitionRightC_erase (A : Acc σ κ) (cmp : κ → κ → Bool) (s : σ) (start size : Nat) :
    erase (partitionRightC A cmp s start size) = partitionRight A cmp s start size := by
  unfold partitionRightC partitionRight
  refine erase_bind (scanUpC_erase ..) fun f c1 => ?_
  dsimp only
  split
  · exact erase_bind (scanDownGuardedC_erase ..) fun l c2 =>
      erase_bind (partLoopC_erase ..) fun p c3 => erase_lift fun s => rfl
  · exact erase_bind (scanDownC_erase ..) fun l c2 =>
      erase_bind (partLoopC_erase ..) fun p c3 => erase_lift fun s => rfl

theorem choosePivotC_erase (A : Acc σ κ) (cmp : κ → κ → Bool) (s : σ) (start size : Nat) :
    erase (choosePivotC A cmp s start size) = choosePivot A cmp s start size := by
  unfold choosePivotC choosePivot
  dsimp only
  split
  · refine erase_bind (sort3C_erase ..) fun s c1 => erase_bind (sort3C_erase ..) fun s c2 =>
      erase_bind (sort3C_erase ..) fun s c3 => erase_bind (sort3C_erase ..) fun s c4 => ?_
    generalize A.swap s start (start + size / 2) = x
    cases x <;> rfl
  · exact sort3C_erase ..

theorem sortExC_erase (A : Acc σ κ) (cmp : κ → κ → Bool) (select : Nat → Nat → R Bool) (fuel : Nat)
    (s : σ) (start size : Nat) :
    erase (sortExC A cmp select fuel s start size) = sortEx A cmp select fuel s start size := by
  induction fuel generalizing s start size with
  | zero => rfl
  | succ m ih =>
    simp only [sortExC, sortEx]
    split
    · exact smallSortC_erase ..
    · refine erase_bind (choosePivotC_erase ..) fun s c1 =>
        erase_bind (partitionRightC_erase ..) fun p c2 => erase_lift fun b1 =>
        ?_
      cases b1
      · simp only [Bool.false_eq_true, if_false, R.pure_eq, R.ok_bind]
        refine erase_lift fun b2 => ?_
        cases b2
        · rfl
        · exact erase_last (ih _ _ _) fun _ _ => rfl
      · refine erase_bind (ih _ _ _) fun s c3 => erase_lift fun b2 => ?_
        cases b2
        · rfl
        · exact erase_last (ih _ _ _) fun _ _ => rfl

theorem scanLeftC_erase (A : Acc σ Bool) (s : σ) (first m : Nat) :
    erase (scanLeftC A s first m) = scanLeft A s first m := by
  induction m generalizing first with
  | zero => rfl
  | succ m ih =>
    simp only [scanLeftC, scanLeft]
    refine erase_lift fun r => ?_
    split
    · exact erase_last (ih _) fun _ _ => rfl
    · rfl

theorem scanRightC_erase (A : Acc σ Bool) (s : σ) (start l : Nat) :
    erase (scanRightC A s start l) = scanRight A s start l := by
  induction l with
  | zero => rfl
  | succ m ih =>
    simp only [scanRightC, scanRight]
    split
    · refine erase_lift fun r => ?_
      split
      · exact erase_last ih fun _ _ => rfl
      · rfl
    · rfl

theorem partitionLoopC_erase (A : Acc σ Bool) (start end_ fuel : Nat) (s : σ) (first last : Nat) :
    erase (partitionLoopC A start end_ fuel s first last) =
      partitionLoop A start end_ fuel s first last := by
  induction fuel generalizing s first last with
  | zero => rfl
  | succ m ih =>
    simp only [partitionLoopC, partitionLoop]
    refine erase_bind (scanLeftC_erase ..) fun f c1 => erase_bind (scanRightC_erase ..) fun l c2 => ?_
    dsimp only
    split
    · rfl
    · exact erase_lift fun s => erase_last (ih _ _ _) fun _ _ => rfl

theorem isSortedLoopC_erase {α : Type} (key : α → κ) (cmp : κ → κ → Bool) (l : List α) (i m : Nat) :
    erase (isSortedLoopC key cmp l i m) = isSortedLoop key cmp l i m := by
  induction m generalizing i with
  | zero => rfl
  | succ m ih =>
    simp only [isSortedLoopC, isSortedLoop]
    refine erase_lift fun x => erase_lift fun y => ?_
    split
    · rfl
    · exact erase_last (ih _) fun _ _ => rfl

end Verif.Sort
