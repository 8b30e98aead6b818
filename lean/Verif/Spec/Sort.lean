/-!
# What sorting means (C35-C41)
-/

namespace Efp.Spec

variable {α : Type}

/-- `comp` is a strict weak order: irreflexive, transitive, and incomparability is transitive -/
structure StrictWeakOrder (comp : α → α → Bool) : Prop where
  irrefl : ∀ a, comp a a = false
  trans : ∀ a b c, comp a b = true → comp b c = true → comp a c = true
  incomp : ∀ a b c, comp a b = false → comp b a = false → comp b c = false → comp c b = false →
    comp a c = false ∧ comp c a = false

/-- `comp` is a strict partial order: irreflexive and transitive, with no condition on incomparable elements -/
structure StrictPartialOrder (comp : α → α → Bool) : Prop where
  irrefl : ∀ a, comp a a = false
  trans : ∀ a b c, comp a b = true → comp b c = true → comp a c = true

/-- neither is less than the other -/
def equivalent (comp : α → α → Bool) (a b : α) : Bool := !comp a b && !comp b a

/-- no later element is less than an earlier one -/
def Sorted (comp : α → α → Bool) (l : List α) : Prop := l.Pairwise (fun a b => comp b a = false)

/-- equivalent elements appear in `l'` in the order they have in `l` -/
def Stable (comp : α → α → Bool) (l l' : List α) : Prop :=
  ∀ x, l'.filter (equivalent comp x) = l.filter (equivalent comp x)

/-- `comp` is a total preorder, such as `<=`: the other kind of comparison a user may pass -/
structure TotalPreorder (comp : α → α → Bool) : Prop where
  total : ∀ a b, comp a b = true ∨ comp b a = true
  trans : ∀ a b c, comp a b = true → comp b c = true → comp a c = true

/-- equivalence under a total preorder -/
def equivalentLe (comp : α → α → Bool) (a b : α) : Bool := comp a b && comp b a

/-- sorted by a total preorder: every earlier element is `<=` every later one -/
def SortedLe (comp : α → α → Bool) (l : List α) : Prop := l.Pairwise (fun a b => comp a b = true)

end Efp.Spec
