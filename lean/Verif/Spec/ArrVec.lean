import Verif.ArrVec

/-!
# List-level specification of `ArrVec` programs (C10, C11)

Variables hold plain lists of length at most `n`.
-/

namespace Efp.Spec

variable {α : Type}

/-- one call on a list of bounded length `n`; `none`: the call has to throw -/
def avStep (n : Nat) : AvS.Op α → List α → Option (List α)
  | .push a, l => if l.length < n then some (l ++ [a]) else none
  | .pop, l => if l = [] then none else some l.dropLast
  | .insert i a, l => if i ≤ l.length ∧ l.length < n then some (l.take i ++ a :: l.drop i) else none
  | .erase i, l => if i < l.length then some (l.take i ++ l.drop (i + 1)) else none
  | .clear, _ => some []
  | .reserve m, l => if m ≤ n then some l else none
  | .resize m, l => if m ≤ n then some (l.take m) else none
  | .setElem i a, l => some (l.set i a)

/-- one program step on variables holding lists -/
def avWorldStep (n : Nat) : AvS.WOp α → List (List α) → List (List α) × Bool
  | .make, W => (W ++ [[]], false)
  | .makeOf l, W => if l.length ≤ n then (W ++ [l], false) else (W, true)
  | .copy v, W =>
    match W[v]? with
    | some l => (W ++ [l], false)
    | none => (W, false)
  | .assign v w, W =>
    match W[v]?, W[w]? with
    | some _, some l => (W.set v l, false)
    | _, _ => (W, false)
  | .move v, W =>
    match W[v]? with
    | some l => (W.set v [] ++ [l], false)
    | none => (W, false)
  | .moveAssign v w, W =>
    match W[v]?, W[w]? with
    | some _, some l => if v = w then (W, false) else ((W.set v l).set w [], false)
    | _, _ => (W, false)
  | .on v op, W =>
    match W[v]? with
    | some l =>
      match avStep n op l with
      | some l' => (W.set v l', false)
      | none => (W, true)
    | none => (W, false)

/-- a program on variables holding lists -/
def avRun (n : Nat) : List (AvS.WOp α) → List (List α) → List (List α) × List Bool
  | [], W => (W, [])
  | op :: ops, W =>
    let r := avWorldStep n op W
    let r' := avRun n ops r.1
    (r'.1, r.2 :: r'.2)

/-- steps covered by the lifetime claim for resource-owning elements: no move between ArrVecs (C12 is
about those) and no shrinking `resize` (documented nowhere as destroying elements) -/
def avManagedOk : AvS.WOp α → Prop
  | .move _ => False
  | .moveAssign _ _ => False
  | .on _ (.resize _) => False
  | _ => True

end Efp.Spec
