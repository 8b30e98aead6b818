import Verif.Numeric

/-!
# `is_approx` on integer types (numeric.hpp 13-24), with conversions and promotions

The exact-arithmetic model of `is_approx` is in `Verif/Numeric.lean`.
-/

namespace Efp.Numeric

open Efp.Meta

variable {ω : Type}

/-- An integer type by size in bytes and signedness. -/
structure IntTy where
  size : Nat
  signed : Bool
  deriving DecidableEq, Repr

/-- the values of the type and its arithmetic (two's complement) -/
def IntTy.num (T : IntTy) : NumTy :=
  if T.signed then ⟨-(2 ^ (8 * T.size - 1)), 2 ^ (8 * T.size - 1) - 1, .trap⟩ else ⟨0, 2 ^ (8 * T.size) - 1, .wrap⟩

/-- integral promotion of an operand: a type narrower than `int` (4 bytes) becomes `int` -/
def IntTy.promote (T : IntTy) : IntTy := if T.size < 4 then ⟨4, true⟩ else T

/-- `static_cast<T>(x)` between integer types: the value of `T` that is congruent to `x` -/
def IntTy.cast (T : IntTy) (x : Int) : Int := T.num.lo + (x - T.num.lo) % (T.num.hi - T.num.lo + 1)

/-- `is_approx(lhs, rhs)` on two integer types, numeric.hpp 18-24; `NumericLimits<T>::epsilon()` is 0 -/
def isApproxInt (A B : IntTy) (lhs rhs : Int) : Cpp ω Bool := do
  let T := if A.size > B.size then A else B
  let d ← arith T.promote.num (T.cast lhs - T.cast rhs)
  let e ← abs T.promote.num d
  pure (decide (e ≤ 0))

end Efp.Numeric
