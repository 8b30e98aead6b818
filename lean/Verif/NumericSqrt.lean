import Verif.Ieee
import Verif.NumericApprox

/-!
# `sqrt` of integers (numeric.hpp 34-37)

`std::sqrt` of an integer converts it to `double`; the result is converted back by the `return` of `efp::sqrt`, which promises the
argument's type.
-/

namespace Efp.Numeric

open Efp.Ieee

variable {ω : Type}

/-- conversion of a floating-point number to an integer type: the fraction is dropped; a number whose integer part is not a value of
the type, an infinity and NaN are undefined ([conv.fpint]), recorded as `overflow` -/
def toInt (T : IntTy) : Fp → Cpp ω Int
  | .fin s m =>
    let n : Int := if s then -⌊m⌋ else ⌊m⌋
    if T.num.lo ≤ n ∧ n ≤ T.num.hi then pure n else Cpp.ub .overflow
  | _ => Cpp.ub .overflow

/-- `sqrt(a)` of an integer type, numeric.hpp 34-37 -/
def sqrtInt (T : IntTy) (a : Int) : Cpp ω Int := toInt T (Ieee.sqrt double (ofInt double a))

end Efp.Numeric
