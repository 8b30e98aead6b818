import Verif.SortCost

/-!
# What the cost of a sort means (C117)

A counting program is the program written once more on a state that also holds the number of calls of the comparison
function made so far.
-/

namespace Efp.Spec

open Sorting

variable {α β : Type}

/-- the outcome with a count -/
def withCount (c : Nat) : Out (Mem α) β → Out (Mem α × Nat) β
  | .ok b m => .ok b (m, c)
  | .thrown m => .thrown (m, c)
  | .ub w => .ub w

/-- started on `m`, the counting program does what the program does and makes exactly `t` comparisons -/
def Costs (pc : Counted α β) (p : Cpp (Mem α) β) (m : Mem α) (t : Nat) : Prop := ∀ c, pc (m, c) = withCount (c + t) (p m)

/-- the same with at most `t` comparisons -/
def AtMost (pc : Counted α β) (p : Cpp (Mem α) β) (m : Mem α) (t : Nat) : Prop := ∃ u, u ≤ t ∧ Costs pc p m u

/-- the number of pairs among `n` elements -/
def pairs (n : Nat) : Nat := n * (n - 1) / 2

end Efp.Spec
