import Verif.Prelude
import Verif.Ieee

/-!
# numeric.hpp and scientific.hpp in floating-point arithmetic

The functions of `Verif/Scientific.lean` once more, with `float` or `double` (a format `F`) for the elements and the result
type instead of exact numbers: every operation rounds, overflows to infinity and may give NaN.
`length` is below `2^64` and is converted to the format, which rounds it when it has more bits than the format.
-/

namespace Efp.SciFloat

open Efp.Prelude Efp.Ieee

variable {ω : Type} (F : Fmt)

/-- the literal `0` converted to the format -/
def zero : Fp := .fin false 0

/-- a result object used as an argument sequence -/
def asInp (r : Res Fp) : Cpp ω (Inp Fp) :=
  match r.contents with
  | .ok vs => pure ⟨r.ty, vs, 0, false⟩
  | .error u => Cpp.ub u

/-- a function of one argument, applied to an argument pack -/
def fun1 (f : Fp → Fp) : List Fp → Cpp ω Fp
  | [a] => pure (f a)
  | _ => Cpp.ub .oob

/-- a function of two arguments, applied to an argument pack -/
def fun2 (f : Fp → Fp → Fp) : List Fp → Cpp ω Fp
  | [a, b] => pure (f a b)
  | _ => Cpp.ub .oob

/-- `map(f, as)` as an argument sequence (prelude.hpp 104-119) -/
def map1 (f : Fp → Fp) (as : Inp Fp) : Cpp ω (Inp Fp) := do
  let r ← map .trivial zero (fun1 f) [as]
  asInp r

/-- `map(f, as, bs)` (prelude.hpp 104-119) -/
def map2 (f : Fp → Fp → Fp) (as bs : Inp Fp) : Cpp ω (Inp Fp) := do
  let r ← map .trivial zero (fun2 f) [as, bs]
  asInp r

/-- `square(a)`, numeric.hpp 8-11 -/
def square (a : Fp) : Fp := mul F a a

/-- `abs(a)`, numeric.hpp 13-16: `a < 0 ? -a : a` -/
def abs (a : Fp) : Fp := if lt a zero then a.neg else a

/-- `NumericLimits<A>::epsilon()`: the distance from 1 to the next number (meta.hpp forwards to the limits of the type) -/
def epsilon : Fp := .fin false (2 ^ (1 - (F.prec : Int)))

/-- `is_approx(lhs, rhs)`, numeric.hpp 18-24, for two numbers of one floating-point type.  (The truth value is converted to
the type of `lhs`.) -/
def isApprox (lhs rhs : Fp) : Bool := le (abs (sub F lhs rhs)) (epsilon F)

/-- `sum`, numeric.hpp 129-132 -/
def sum (as : Inp Fp) : Cpp ω Fp := foldl (fun a b => pure (add F a b)) zero as

/-- `mean`, scientific.hpp 11-14 -/
def mean (as : Inp Fp) : Cpp ω Fp := do
  let s ← sum F as
  pure (div F s (ofInt F (length as)))

/-- `rms`, scientific.hpp 16-19 -/
def rms (as : Inp Fp) : Cpp ω Fp := do
  let sq ← map1 (square F) as
  let m ← mean F sq
  pure (sqrt F m)

/-- `sse`, scientific.hpp 21-28 -/
def sse (as bs : Inp Fp) : Cpp ω Fp := do
  let es ← map2 (fun a b => square F (sub F a b)) as bs
  sum F es

/-- `mse`, scientific.hpp 30-37 -/
def mse (as bs : Inp Fp) : Cpp ω Fp := do
  let es ← map2 (fun a b => square F (sub F a b)) as bs
  mean F es

/-- `rmse`, scientific.hpp 39-42 -/
def rmse (as bs : Inp Fp) : Cpp ω Fp := do
  let m ← mse F as bs
  pure (sqrt F m)

/-- `(R)(length(as) - 1)` and `(R)length(as)`: the difference is taken in `size_t` (scientific.hpp 60-61) -/
def divisor (bessel : Bool) (n : Nat) : Fp := if bessel then ofInt F (((n : Int) - 1) % 2 ^ 64) else ofInt F n

/-- `variance<R, bessel_correction>`, scientific.hpp 54-62 -/
def variance (bessel : Bool) (as : Inp Fp) : Cpp ω Fp := do
  let m ← mean F as
  let ds ← map1 (fun x => square F (sub F x m)) as
  let s ← sum F ds
  pure (div F s (divisor F bessel (length as)))

/-- `standard_deviation`, scientific.hpp 64-67 -/
def standardDeviation (bessel : Bool) (as : Inp Fp) : Cpp ω Fp := do
  let v ← variance F bessel as
  pure (sqrt F v)

/-- `covariance`, scientific.hpp 69-80 -/
def covariance (bessel : Bool) (as bs : Inp Fp) : Cpp ω Fp := do
  let ma ← mean F as
  let mb ← mean F bs
  let cs ← map2 (fun a b => mul F (sub F a ma) (sub F b mb)) as bs
  let s ← sum F cs
  pure (div F s (divisor F bessel (length as)))

/-- `correlation`, scientific.hpp 82-87 -/
def correlation (bessel : Bool) (as bs : Inp Fp) : Cpp ω Fp := do
  let c ← covariance F bessel as bs
  let sa ← standardDeviation F bessel as
  let sb ← standardDeviation F bessel bs
  pure (div F c (mul F sa sb))

end Efp.SciFloat
