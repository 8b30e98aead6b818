import Verif.Meta
import Verif.Prelude

/-!
# Model of include/efp/numeric.hpp

Sequences are the argument sequences of `Verif/Prelude.lean`; the reductions call its `foldl`.
`sqrt`, `sin`, `cos`, `tan` and the complex-number helpers only forward to the standard library and
are not modelled.
-/

namespace Efp.Numeric

open Efp.Prelude Efp.Meta

variable {ω ν : Type}

/-- Result of an arithmetic operation of an integer type at run time (C++ arithmetic): signed overflow
is undefined. -/
def arith (A : NumTy) (x : Int) : Cpp ω Int :=
  match A.reduce x with
  | some r => pure r
  | none => Cpp.ub .overflow

/-- `square(a)`, numeric.hpp 8-11, on an integer type. -/
def square (A : NumTy) (a : Int) : Cpp ω Int := arith A (a * a)

/-- `abs(a)`, numeric.hpp 13-16, on an integer type. -/
def abs (A : NumTy) (a : Int) : Cpp ω Int := if a < 0 then arith A (-a) else pure a

/-- An ordered element type: its lowest value and what `NumericLimits<A>::min()` and `max()` return.
For integers `min()` is the lowest value; for floating-point types it is the least positive normal
value. -/
structure OrdTy (ν : Type) where
  lowest : ν
  limMin : ν
  limMax : ν

section order
variable (lt : ν → ν → Bool)

/-- `max_elem`, numeric.hpp 114-117 (`max` is meta.hpp 285-289). -/
def maxElem (T : OrdTy ν) (as : Inp ν) : Cpp ω ν :=
  foldl (fun a b => pure (max (fun x y => lt y x) a b)) T.limMin as

/-- `min_elem`, numeric.hpp 119-122. -/
def minElem (T : OrdTy ν) (as : Inp ν) : Cpp ω ν :=
  foldl (fun a b => pure (min lt a b)) T.limMax as

end order

/-- `NumericLimits` of an integer type -/
def _root_.Efp.Meta.NumTy.ord (A : NumTy) : OrdTy Int := ⟨A.lo, A.lo, A.hi⟩

/-- `max_min`, numeric.hpp 124-127, on an integer type. -/
def maxMin (A : NumTy) (as : Inp Int) : Cpp ω Int := do
  let x ← maxElem (fun x y => decide (x < y)) A.ord as
  let y ← minElem (fun x y => decide (x < y)) A.ord as
  arith A (x - y)

/-- `sum`, numeric.hpp 129-132, on an integer type: the accumulator has the element type. -/
def sum (A : NumTy) (as : Inp Int) : Cpp ω Int := foldl (fun a b => arith A (a + b)) 0 as

/-- `product`, numeric.hpp 134-137, on an integer type. -/
def product (A : NumTy) (as : Inp Int) : Cpp ω Int := foldl (fun a b => arith A (a * b)) 1 as

/-- A numeric argument type of `is_approx`: its size in bytes, whether it is an integer type, and
`NumericLimits::epsilon()` (0 for integers). -/
structure ApproxTy where
  size : Nat
  isInt : Bool
  eps : Rat
  deriving DecidableEq, Repr

/-- `static_cast<T>(x)`: to an integer type it truncates toward zero (values in range). -/
def ApproxTy.cast (T : ApproxTy) (x : Rat) : Rat :=
  if T.isInt then (x.num.tdiv x.den : Int) else x

/-- `is_approx(lhs, rhs)`, numeric.hpp 18-24, in exact arithmetic: `MorePrecise` is the type of the
larger size, the second one when the sizes agree.  (The C++ function returns the truth value converted
to the type of `lhs`.) -/
def isApprox (A B : ApproxTy) (lhs rhs : Rat) : Bool :=
  let T := if A.size > B.size then A else B
  let d := T.cast lhs - T.cast rhs
  decide ((if d < 0 then -d else d) ≤ T.eps)

end Efp.Numeric
