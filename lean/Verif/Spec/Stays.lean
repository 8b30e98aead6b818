import Verif.Spec.Lists

/-! # Histories that fit the room a client reserved (C125) -/

namespace Efp.Spec

variable {α : Type}

/-- the calls that do not ask for another block by themselves: not `shrink_to_fit`, and no `reserve` beyond `n` -/
def keepsBlock (n : Nat) : VecS.Op α → Prop
  | .shrinkToFit => False
  | .reserve m => m ≤ n
  | _ => True

/-- throughout the history the list has at most `m` elements, and no call asks for another block than the one for `n` -/
def roomy (n m : Nat) : List (VecS.Op α) → List α → Prop
  | [], l => l.length ≤ m
  | op :: ops, l => l.length ≤ m ∧ keepsBlock n op ∧ roomy n m ops ((vecStep op l).getD l)

end Efp.Spec
