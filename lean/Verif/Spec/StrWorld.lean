import Verif.StrWorld
import Verif.Spec.String
import Verif.Spec.VecWorld

/-!
# List-level specification of programs over many `String`s (C139)

Variables hold plain lists of characters; `none` is a variable that went out of scope.  `none` as the result of a step
means: the step is outside the claim.  Outside are invalid arguments, uses of dead variables, copying an empty string
(C04), copy assignment between different lengths (C05) and `v += v` (C21).
-/

namespace Efp.Spec

open Classical in
/-- one program step on variables holding text: new variables, and whether the step throws -/
noncomputable def swStep : StrWorld.Step → List (Option (List Nat)) → Option (List (Option (List Nat)) × Bool)
  | .make i, W => if initOk i then some (W ++ [some (strInit i)], false) else none
  | .copy v, W => do
    let l ← valueOf W v
    if l = [] then none else some (W ++ [some l], false)
  | .substr v pos len, W => do
    let l ← valueOf W v
    if pos ≤ l.length then some (W ++ [some ((l.drop pos).take len)], false) else some (W, true)
  | .move v, W => do
    let l ← valueOf W v
    some (W.set v (some []) ++ [some l], false)
  | .assign v w, W => do
    let l ← valueOf W v
    let l' ← valueOf W w
    if l.length = l'.length then some (W.set v (some l'), false) else none
  | .moveAssign v w, W => do
    let _ ← valueOf W v
    let l' ← valueOf W w
    if v = w then some (W, false) else some ((W.set v (some l')).set w (some []), false)
  | .plus v w, W => do
    let l ← valueOf W v
    let l' ← valueOf W w
    if v = w then none else some (W.set v (some (l ++ l')), false)
  | .on v op, W => do
    let l ← valueOf W v
    if sopOk op then
      match strStep op l with
      | some l' => some (W.set v (some l'), false)
      | none => some (W, true)
    else none
  | .destroy v, W => do
    let _ ← valueOf W v
    some (W.set v none, false)

/-- a program on variables holding text -/
noncomputable def swRun : List StrWorld.Step → List (Option (List Nat)) → Option (List (Option (List Nat)) × List Bool)
  | [], W => some (W, [])
  | op :: ops, W => do
    let r ← swStep op W
    let r' ← swRun ops r.1
    some (r'.1, r.2 :: r'.2)

/-- the strings a program makes with `String(n, c)` -/
def fills : List StrWorld.Step → Nat
  | [] => 0
  | .make (.fill _ _) :: ops => fills ops + 1
  | _ :: ops => fills ops

end Efp.Spec
