import Verif.SciFloat
import Verif.Scientific

/-!
# numeric.hpp and scientific.hpp in floating-point arithmetic: extrema, products, autocovariance, removal of the mean
-/

namespace Efp.SciFloat

open Efp.Prelude Efp.Ieee

variable {ω : Type} (F : Fmt)

/-- the literal `1` converted to the format -/
def one : Fp := .fin false 1

/-- `NumericLimits<A>::min()` of a floating-point type (meta.hpp 185): the least positive number with a full significand -/
def minNormal : Fp := .fin false (2 ^ (F.emin + F.prec - 1))

/-- `NumericLimits<A>::max()` (meta.hpp 185): the greatest finite number -/
def maxFinite : Fp := .fin false ((2 ^ F.prec - 1) * 2 ^ (F.emax - F.prec))

/-- the limits of a floating-point type (meta.hpp 185) -/
def limits : Numeric.OrdTy Fp := ⟨(maxFinite F).neg, minNormal F, maxFinite F⟩

/-- `max_elem`, numeric.hpp 114-117 -/
def maxElem (as : Inp Fp) : Cpp ω Fp := Numeric.maxElem Ieee.lt (limits F) as

/-- `min_elem`, numeric.hpp 119-122 -/
def minElem (as : Inp Fp) : Cpp ω Fp := Numeric.minElem Ieee.lt (limits F) as

/-- `max_min`, numeric.hpp 124-127 -/
def maxMin (as : Inp Fp) : Cpp ω Fp := do
  let x ← maxElem F as
  let y ← minElem F as
  pure (sub F x y)

/-- `product`, numeric.hpp 134-137 -/
def product (as : Inp Fp) : Cpp ω Fp := foldl (fun a b => pure (mul F a b)) one as

/-- element access with an `int` index (unchecked) -/
def nthInt (i : Int) (as : Inp Fp) : Cpp ω Fp := if 0 ≤ i then nth i.toNat as else Cpp.ub .oob

/-- the closure of `autocovariance`, scientific.hpp 97: the state is `summation`.  The index is converted to `int`. -/
def autoBody (as : Inp Fp) (m : Fp) (lag : Int) (i : Nat) : Cpp (Fp × ω) Unit := do
  let x ← nthInt (Scientific.toInt32 i) as
  let y ← nthInt (Scientific.toInt32 i + lag) as
  Cpp.modify fun s => (add F s.1 (mul F (sub F x m) (sub F y m)), s.2)

/-- `R summation = 0; for_index(..., count);`, scientific.hpp 94-99 -/
def autoSum (as : Inp Fp) (m : Fp) (lag : Int) (count : Nat) : Cpp ω Fp := fun w =>
  match forIndex (autoBody F as m lag) count (zero, w) with
  | .ok _ s => .ok s.1 s.2
  | .thrown s => .thrown s.2
  | .ub u => .ub u

/-- the divisor of `autocovariance`, scientific.hpp 101-105: the differences are taken in `size_t` and converted to `R` -/
def autoDivisor (bessel adjusted : Bool) (n : Nat) (lag : Int) : Fp :=
  if adjusted then
    if bessel then ofInt F (Scientific.subLag n (lag + 1)) else ofInt F (Scientific.subLag n lag)
  else if bessel then ofInt F (Scientific.subLag n 1) else ofInt F n

/-- `autocovariance<R, bessel_correction, adjusted>`, scientific.hpp 89-106 -/
def autocovariance (bessel adjusted : Bool) (as : Inp Fp) (lag : Int) : Cpp ω Fp := do
  let m ← mean F as
  let s ← autoSum F as m lag (Scientific.toSize (Scientific.toInt32 (Scientific.subLag (length as) lag)))
  pure (div F s (autoDivisor F bessel adjusted (length as) lag))

/-- `autocorrelation`, scientific.hpp 108-112 -/
def autocorrelation (bessel adjusted : Bool) (as : Inp Fp) (lag : Int) : Cpp ω Fp := do
  let c ← autocovariance F bessel adjusted as lag
  let v ← variance F bessel as
  pure (div F c v)

/-- `remove_dc`, scientific.hpp 114-121 -/
def removeDc (as : Inp Fp) : Cpp ω (Inp Fp) := do
  let m ← mean F as
  map1 (fun x => sub F x m) as

end Efp.SciFloat
