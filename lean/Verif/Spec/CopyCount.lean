import Verif.CopyCount

/-!
# How many copies a program asks for
-/

namespace Efp.Spec
open Efp.Copies

/-- The copies one operation asks for, and the length afterwards, for a list that can have any length (`none`) or at most so many
elements: one copy for every element handed over by reference that is not refused, and one of each element when the list is
copied. -/
def asks (bound : Option Nat) (len : Nat) : Op → Nat × Nat
  | .pushCopy => if bound = some len then (0, len) else (1, len + 1)
  | .pushMove => if bound = some len then (0, len) else (0, len + 1)
  | .emplace => if bound = some len then (0, len) else (0, len + 1)
  | .pop => (0, len - 1)
  | .insert i => if bound = some len ∨ len < i then (0, len) else (1, len + 1)
  | .erase i => if i < len then (0, len - 1) else (0, len)
  | .clear => (0, 0)
  | .reserve _ => (0, len)
  | .shrink => (0, len)
  | .copyOut => (len, len)

/-- The copies a program asks for. -/
def askedCopies (bound : Option Nat) (len : Nat) : List Op → Nat
  | [] => 0
  | op :: ops => (asks bound len op).1 + askedCopies bound (asks bound len op).2 ops

/-- Operations that add an element at the end. -/
def IsPush (op : Op) : Prop := op = .pushCopy ∨ op = .pushMove ∨ op = .emplace

end Efp.Spec
