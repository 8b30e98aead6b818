import Verif.Numeric

/-!
# Specification vocabulary for numeric.hpp
-/

namespace Efp.Spec.Numeric

open Efp.Meta

/-- the values of an integer type -/
def InRange (A : NumTy) (x : Int) : Prop := A.lo ≤ x ∧ x ≤ A.hi

/-- the sums of the first 1, 2, ... elements -/
def prefixSums : Int → List Int → List Int
  | _, [] => []
  | z, x :: xs => (z + x) :: prefixSums (z + x) xs

/-- the products of the first 1, 2, ... elements -/
def prefixProducts : Int → List Int → List Int
  | _, [] => []
  | z, x :: xs => (z * x) :: prefixProducts (z * x) xs

/-- mathematical product -/
def prod : List Int → Int
  | [] => 1
  | x :: xs => x * prod xs

/-- absolute difference -/
def dist (x y : Rat) : Rat := if x ≤ y then y - x else x - y

end Efp.Spec.Numeric
