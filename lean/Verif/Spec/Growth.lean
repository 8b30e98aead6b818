import Verif.Spec.String

/-!
# Specification: how much is added, and how large a container ever was
-/

namespace Efp
namespace Spec

variable {α : Type}

/-- how many elements a call adds -/
def adds : VecS.Op α → Nat
  | .push _ | .insert _ _ => 1
  | _ => 0

/-- how many elements a history adds -/
def addsAll (ops : List (VecS.Op α)) : Nat := (ops.map adds).sum

/-- the calls that ask for a certain capacity -/
def asksCap : VecS.Op α → Bool
  | .reserve _ | .shrinkToFit => true
  | _ => false

/-- the largest number of elements at any time of a history -/
def peak : List (VecS.Op α) → List α → Nat
  | [], l => l.length
  | op :: ops, l => max l.length (peak ops ((vecStep op l).getD l))

/-- how many characters a call adds -/
def strAdds : Str.SOp → Nat
  | .base op => adds op
  | .appendC buf | .assignC buf | .insertC _ buf => (cChars buf).length
  | .appendN n _ | .assignN n _ | .insertCN _ _ n => n
  | .plus w => w.length

/-- how many characters a history adds -/
def strAddsAll (ops : List Str.SOp) : Nat := (ops.map strAdds).sum

/-- the calls that append, remove or overwrite: neither a request for a capacity nor an insertion of a text -/
def strAppends : Str.SOp → Bool
  | .base op => !asksCap op
  | .insertC _ _ | .insertCN _ _ _ => false
  | _ => true

/-- an insertion of a text -/
def insertsText : Str.SOp → Bool
  | .insertC _ _ | .insertCN _ _ _ => true
  | _ => false

/-- `reserve`, the call that may ask for more than is needed -/
def isReserve : Str.SOp → Bool
  | .base (.reserve _) => true
  | _ => false

/-- the largest number of characters at any time of a history -/
def strPeak : List Str.SOp → List Nat → Nat
  | [], l => l.length
  | op :: ops, l => max l.length (strPeak ops ((strStep op l).getD l))

end Spec
end Efp
