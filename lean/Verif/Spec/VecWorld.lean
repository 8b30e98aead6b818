import Verif.VecWorld
import Verif.Spec.Lists

/-!
# List-level specification of programs over many `Vector`s (C89)

Variables hold plain lists; `none` is a variable that went out of scope.  `none` as the result of a step
means: the step is outside the claim.  Outside are the steps other properties show to go wrong (copying an
empty vector C04, copy assignment between different lengths C05, removals and insertions in the middle of a
vector of resource-owning elements C03), and uses of dead variables.
-/

namespace Efp.Spec

variable {α : Type}

/-- one call on a list: new list, and whether the call throws (changing nothing) -/
def vecCall (op : VecS.Op α) (l : List α) : List α × Bool :=
  match vecStep op l with
  | some l' => (l', false)
  | none => (l, true)

/-- the value of a live variable -/
def valueOf (W : List (Option (List α))) (v : Nat) : Option (List α) := (W[v]?).join

open Classical in
/-- one program step on variables holding lists -/
noncomputable def vwStep (k : Kind) : VecS.WOp α → List (Option (List α)) →
    Option (List (Option (List α)) × Bool)
  | .make, W => some (W ++ [some []], false)
  | .makeOf l, W => some (W ++ [some l], false)
  | .copy v, W => do
    let l ← valueOf W v
    if l = [] then none else some (W ++ [some l], false)
  | .assign v w, W => do
    let l ← valueOf W v
    let l' ← valueOf W w
    if l.length = l'.length then some (W.set v (some l'), false) else none
  | .move v, W => do
    let l ← valueOf W v
    some (W.set v (some []) ++ [some l], false)
  | .moveAssign v w, W => do
    let _ ← valueOf W v
    let l' ← valueOf W w
    if v = w then some (W, false) else some ((W.set v (some l')).set w (some []), false)
  | .on v op, W => do
    let l ← valueOf W v
    if k = .managed → endOp op l then some (W.set v (some (vecCall op l).1), (vecCall op l).2) else none
  | .destroy v, W => do
    let _ ← valueOf W v
    some (W.set v none, false)

/-- a program on variables holding lists -/
noncomputable def vwRun (k : Kind) : List (VecS.WOp α) → List (Option (List α)) →
    Option (List (Option (List α)) × List Bool)
  | [], W => some (W, [])
  | op :: ops, W => do
    let r ← vwStep k op W
    let r' ← vwRun k ops r.1
    some (r'.1, r.2 :: r'.2)

/-- number of elements held by all live variables together -/
def liveElems (W : List (Option (List α))) : Int := (W.map fun o => ((o.getD []).length : Int)).sum

end Efp.Spec
