import Verif.Vector

/-!
# List-level specifications of container histories

Nothing here mentions storage: these are the operations "on a mathematical list" of C01, C03 and C10.
-/

namespace Efp.Spec

variable {α : Type}

/-- Effect of one client operation on a list; `none` means that the call has to throw. -/
def vecStep : VecS.Op α → List α → Option (List α)
  | .push a, l => some (l ++ [a])
  | .pop, l => if l = [] then none else some l.dropLast
  | .insert i a, l => if i ≤ l.length then some (l.take i ++ a :: l.drop i) else none
  | .erase i, l => if i < l.length then some (l.take i ++ l.drop (i + 1)) else none
  | .clear, _ => some []
  | .reserve _, l => some l
  | .shrinkToFit, l => some l
  | .shrinkTo n, l => some (l.take n)
  | .setElem i a, l => some (l.set i a)

/-- A history on lists: final list, and for each call whether it throws.  A throwing call changes
nothing. -/
def vecRun : List (VecS.Op α) → List α → List α × List Bool
  | [], l => (l, [])
  | op :: ops, l =>
    match vecStep op l with
    | some l' => let r := vecRun ops l'; (r.1, false :: r.2)
    | none => let r := vecRun ops l; (r.1, true :: r.2)

/-- Operations that add and remove at the end only (and everything that throws or keeps the elements):
the interface of C03. -/
def endOp : VecS.Op α → List α → Prop
  | .insert i _, l => l.length ≤ i
  | .erase i, l => l.length ≤ i + 1
  | .shrinkTo n, l => l.length ≤ n
  | _, _ => True

/-- every operation of the history is an `endOp` at the moment it is called -/
def endHistory : List (VecS.Op α) → List α → Prop
  | [], _ => True
  | op :: ops, l => endOp op l ∧ endHistory ops ((vecStep op l).getD l)

/-- `s` is a vector some client session can produce, `l` what the client then reads from it.
For resource-owning elements only sessions inside the interface of C03 are considered. -/
def VecReachable (k : Kind) (s : VecS α) (l : List α) : Prop :=
  ∃ init ops led evs, (k = .managed → endHistory ops (init.getD [])) ∧
    VecS.session k init ops led = .ok (s, evs) ∧ s.contents = .ok l

end Efp.Spec
