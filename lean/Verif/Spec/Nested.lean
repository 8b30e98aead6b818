import Verif.Nested
import Verif.Spec.VecWorld

/-!
# Specification: a list of lists
-/

namespace Efp
namespace Spec

variable {α : Type}

open Nest (NOp)

instance (op : VecS.Op α) (l : List α) : Decidable (endOp op l) := by
  cases op <;> simp only [endOp] <;> exact inferInstance

/-- one step on a list of lists, and whether it throws; `none`: the step is outside the part of the interface that works.  Copies
are inside only if no vector that is copied is empty; a temporary made from an initializer list may be empty.  Calls on an inner vector
of resource-owning elements must be of the kind of C03 (no insertion or removal before the end). -/
def nestStep (k : Kind) : NOp α → List (List α) → Option (List (List α) × Bool)
  | .pushTemp init, ls => some (ls ++ [init.getD []], false)
  | .pushCopy none, _ => none
  | .pushCopy (some l), ls => some (ls ++ [l], false)
  | .emplace, ls => some (ls ++ [[]], false)
  | .pop, ls => some (ls.dropLast, ls.isEmpty)
  | .clear, _ => some ([], false)
  | .reserve _, ls => some (ls, false)
  | .shrinkToFit, ls => some (ls, false)
  | .call i op, ls => match ls[i]? with
    | some l => if k = .trivial ∨ endOp op l then some (ls.set i (vecCall op l).1, (vecCall op l).2) else none
    | none => some (ls, false)
  | .moveTo i j, ls => match ls[i]?, ls[j]? with
    | some _, some l => if i = j then some (ls, false) else some ((ls.set i l).set j [], false)
    | _, _ => some (ls, false)
  | .copyWhole, ls => if ls.isEmpty || ls.any List.isEmpty then none else some (ls, false)

/-- a program on a list of lists: the final list, and for each step whether it throws -/
def nestRun (k : Kind) : List (NOp α) → List (List α) → Option (List (List α) × List Bool)
  | [], ls => some (ls, [])
  | op :: ops, ls =>
    match nestStep k op ls with
    | none => none
    | some r => (nestRun k ops r.1).map (fun r' => (r'.1, r.2 :: r'.2))

/-- how many elements there are in all -/
def total (ls : List (List α)) : Nat := (ls.map List.length).sum

end Spec
end Efp
