import Verif.Array

/-!
# List-level specification of `Array` programs (C14)

A variable holds a list of `n` values, or `none` when its elements have been moved from (then it may only
be assigned to, resized, reserved or destroyed).
-/

namespace Efp.Spec

variable {α : Type}

/-- one program step on variables holding lists of length `n` -/
def arrStep (n : Nat) : ArrS.WOp α → List (Option (List α)) → List (Option (List α)) × Bool
  | .make d, W => (W ++ [some (List.replicate n d)], false)
  | .makeOf l, W => if l.length = n then (W ++ [some l], false) else (W, true)
  | .copy v, W =>
    match W[v]? with
    | some l => (W ++ [l], false)
    | none => (W, false)
  | .assign v w, W =>
    match W[v]?, W[w]? with
    | some _, some l => (W.set v l, false)
    | _, _ => (W, false)
  | .move v, W =>
    match W[v]? with
    | some l => (W.set v none ++ [l], false)
    | none => (W, false)
  | .moveAssign v w, W =>
    match W[v]?, W[w]? with
    | some _, some l => if v = w then (W, false) else ((W.set v l).set w none, false)
    | _, _ => (W, false)
  | .setElem v i a, W =>
    match W[v]? with
    | some l => (W.set v (l.map (fun l => l.set i a)), false)
    | none => (W, false)
  | .resize v m, W => if v < W.length ∧ m ≠ n then (W, true) else (W, false)
  | .reserve v m, W => if v < W.length ∧ n < m then (W, true) else (W, false)

/-- the step does not read (copy, move or write an element of) a moved-from variable -/
def arrOk : ArrS.WOp α → List (Option (List α)) → Prop
  | .copy v, W => W[v]? ≠ some none
  | .assign v w, W => v < W.length → W[w]? ≠ some none
  | .move v, W => W[v]? ≠ some none
  | .moveAssign v w, W => v < W.length → W[w]? ≠ some none
  | .setElem v _ _, W => W[v]? ≠ some none
  | _, _ => True

/-- a program on variables holding lists -/
def arrRun (n : Nat) : List (ArrS.WOp α) → List (Option (List α)) → List (Option (List α)) × List Bool
  | [], W => (W, [])
  | op :: ops, W =>
    let r := arrStep n op W
    let r' := arrRun n ops r.1
    (r'.1, r.2 :: r'.2)

/-- no step of the program reads a moved-from variable -/
def arrProgramOk (n : Nat) : List (ArrS.WOp α) → List (Option (List α)) → Prop
  | [], _ => True
  | op :: ops, W => arrOk op W ∧ arrProgramOk n ops (arrStep n op W).1

end Efp.Spec
