/-!
# When `sort` is right (C41)
-/

namespace Efp.Spec

variable {α : Type}

/-- no element is greater than an element in a later block of 32 (positions 0 to 31, 32 to 63, …) -/
def BlocksInOrder (comp : α → α → Bool) (l : List α) : Prop :=
  ∀ i j a b, i / 32 < j / 32 → l[i]? = some a → l[j]? = some b → comp b a = false

end Efp.Spec
