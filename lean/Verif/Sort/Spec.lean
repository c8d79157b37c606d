/-
Specification vocabulary for sorting: strict weak orders and "position k holds what a full sort
would put there". Nothing here refers to the model.
-/
namespace Verif.Sort

/-- A strict weak order, given as a boolean "less than". -/
structure StrictWeak {κ : Type _} (lt : κ → κ → Bool) : Prop where
  irrefl : ∀ a, lt a a = false
  trans : ∀ a b c, lt a b = true → lt b c = true → lt a c = true
  /-- incomparability is transitive, stated contrapositively -/
  weak : ∀ a b c, lt a c = true → lt a b = true ∨ lt b c = true

/-- The comparison never holds in both directions. It need not be transitive, and `a < b` and
`b < a` may both be false for unequal elements. -/
def Asymmetric {κ : Type _} (lt : κ → κ → Bool) : Prop :=
  ∀ a b, lt a b = true → lt b a = false

/-- The list is sorted: no later element is less than an earlier one. -/
def SortedBy {α κ : Type _} (key : α → κ) (lt : κ → κ → Bool) (l : List α) : Prop :=
  l.Pairwise (fun a b => lt (key b) (key a) = false)

/-- Position `k` of the list is "in place": nothing before it is greater and nothing after it is
less. (In a sorted arrangement of the list the element at `k` is equivalent to this one.) -/
def InPlace {α κ : Type _} (key : α → κ) (lt : κ → κ → Bool) (l : List α) (k : Nat) : Prop :=
  ∃ x, l[k]? = some x ∧
    (∀ i y, i < k → l[i]? = some y → lt (key x) (key y) = false) ∧
    (∀ i y, k < i → l[i]? = some y → lt (key y) (key x) = false)

/-- `π` permutes the positions below `n`. -/
def PermOn (n : Nat) (π : Nat → Nat) : Prop :=
  (∀ k, k < n → π k < n) ∧ ∀ a b, a < n → b < n → π a = π b → a = b

/-- `l'` is `l` rearranged by `π`. -/
def Rearranged {β : Type} (n : Nat) (π : Nat → Nat) (l l' : List β) : Prop :=
  l'.length = l.length ∧ ∀ k, k < n → l'[k]? = l[π k]?

end Verif.Sort
