import Verif.Numeric
import Mathlib.Algebra.Field.Basic

/-!
# Model of include/efp/scientific.hpp in exact arithmetic

The result type `R` and the element types are an arbitrary field `K`, that is, arithmetic is exact:
rounding, overflow and NaN of floating-point types are not modelled.  Division by zero is undefined.
The functions are built from the modelled `map`, `map_with_index`, `foldl` and `for_index` of
`Verif/Prelude.lean`, on the sequence types given by their return-type computations.  Integer
computations inside these functions (`size_t`, `int`) are modelled with their C++ widths.
-/

namespace Efp.Scientific

open Efp.Prelude

variable {ω K : Type} [Field K] [DecidableEq K]

/-- `a / b` (C++ arithmetic) -/
def div (a b : K) : Cpp ω K := if b = 0 then Cpp.ub .divZero else pure (a / b)

/-- a function of one argument, applied to an argument pack -/
def fun1 (f : K → K) : List K → Cpp ω K
  | [a] => pure (f a)
  | _ => Cpp.ub .oob

/-- a function of two arguments, applied to an argument pack -/
def fun2 (f : K → K → K) : List K → Cpp ω K
  | [a, b] => pure (f a b)
  | _ => Cpp.ub .oob

/-- a result object used as an argument sequence -/
def asInp (r : Res K) : Cpp ω (Inp K) :=
  match r.contents with
  | .ok vs => pure ⟨r.ty, vs, 0, false⟩
  | .error u => Cpp.ub u

/-- `square(a)`, numeric.hpp 8-11. -/
def square (a : K) : K := a * a

/-- `sum`, numeric.hpp 129-132. -/
def sum (as : Inp K) : Cpp ω K := foldl (fun a b => pure (a + b)) 0 as

/-- `mean`, scientific.hpp 11-14. -/
def mean (as : Inp K) : Cpp ω K := do
  let s ← sum as
  div s (length as : K)

/-- `mean<R>`, scientific.hpp 11-14, of a sequence of an integer type: the sum has the element type
(numeric.hpp 129-132). -/
def meanInt (A : Meta.NumTy) (as : Inp Int) : Cpp ω K := do
  let s ← Numeric.sum A as
  div (s : K) (length as : K)

/-- `map(f, as)` with `f` a function of one argument, as an argument sequence (prelude.hpp 104-119) -/
def map1 (f : K → K) (as : Inp K) : Cpp ω (Inp K) := do
  let r ← map .trivial 0 (fun1 f) [as]
  asInp r

/-- `map(f, as, bs)` (prelude.hpp 104-119) -/
def map2 (f : K → K → K) (as bs : Inp K) : Cpp ω (Inp K) := do
  let r ← map .trivial 0 (fun2 f) [as, bs]
  asInp r

/-- `map_with_index(f, as)` (prelude.hpp 446-462) -/
def mapIx (f : Nat → K → K) (as : Inp K) : Cpp ω (Inp K) := do
  let r ← mapWithIndex .trivial 0 (fun i => fun1 (f i)) [as]
  asInp r

/-- `rms`, scientific.hpp 16-19; `sqrt` is `std::sqrt` (numeric.hpp 34-37). -/
def rms (sqrt : K → K) (as : Inp K) : Cpp ω K := do
  let sq ← map1 square as
  let m ← mean sq
  pure (sqrt m)

/-- `sse`, scientific.hpp 21-28. -/
def sse (as bs : Inp K) : Cpp ω K := do
  let es ← map2 (fun a b => square (a - b)) as bs
  sum es

/-- `mse`, scientific.hpp 30-37. -/
def mse (as bs : Inp K) : Cpp ω K := do
  let es ← map2 (fun a b => square (a - b)) as bs
  mean es

/-- `rmse`, scientific.hpp 39-42. -/
def rmse (sqrt : K → K) (as bs : Inp K) : Cpp ω K := do
  let m ← mse as bs
  pure (sqrt m)

/-- `nrmse_mean`, scientific.hpp 44-47. -/
def nrmseMean (sqrt : K → K) (as bs : Inp K) : Cpp ω K := do
  let r ← rmse sqrt as bs
  let m ← mean bs
  div r m

/-- `nrmse_max_min`, scientific.hpp 49-52, with `max_min` numeric.hpp 124-127. -/
def nrmseMaxMin (sqrt : K → K) (lt : K → K → Bool) (T : Numeric.OrdTy K) (as bs : Inp K) : Cpp ω K := do
  let r ← rmse sqrt as bs
  let x ← Numeric.maxElem lt T bs
  let y ← Numeric.minElem lt T bs
  div r (x - y)

/-- `size_t` subtraction of an `int` (the `int` is converted to `size_t` first) -/
def subLag (n : Nat) (lag : Int) : Nat := (((n : Int) - lag) % 2 ^ 64).toNat

/-- `variance<R, bessel_correction>`, scientific.hpp 54-62. -/
def variance (bessel : Bool) (as : Inp K) : Cpp ω K := do
  let m ← mean as
  let ds ← map1 (fun x => square (x - m)) as
  let s ← sum ds
  if bessel then div s (subLag (length as) 1 : K) else div s (length as : K)

/-- `standard_deviation`, scientific.hpp 64-67. -/
def standardDeviation (sqrt : K → K) (bessel : Bool) (as : Inp K) : Cpp ω K := do
  let v ← variance bessel as
  pure (sqrt v)

/-- `covariance`, scientific.hpp 69-80. -/
def covariance (bessel : Bool) (as bs : Inp K) : Cpp ω K := do
  let ma ← mean as
  let mb ← mean bs
  let cs ← map2 (fun a b => (a - ma) * (b - mb)) as bs
  let s ← sum cs
  if bessel then div s (subLag (length as) 1 : K) else div s (length as : K)

/-- `correlation`, scientific.hpp 82-87. -/
def correlation (sqrt : K → K) (bessel : Bool) (as bs : Inp K) : Cpp ω K := do
  let c ← covariance bessel as bs
  let sa ← standardDeviation sqrt bessel as
  let sb ← standardDeviation sqrt bessel bs
  div c (sa * sb)

/-- conversion to a 32-bit `int` (modulo 2^32) -/
def toInt32 (n : Nat) : Int := ((n : Int) + 2 ^ 31) % 2 ^ 32 - 2 ^ 31

/-- conversion of an `int` to `size_t` (modulo 2^64) -/
def toSize (i : Int) : Nat := (i % 2 ^ 64).toNat

/-- element access with an `int` index (unchecked) -/
def nthInt (i : Int) (as : Inp K) : Cpp ω K :=
  if 0 ≤ i then nth i.toNat as else Cpp.ub .oob

/-- the closure of `autocovariance`, scientific.hpp 97: the state is `summation`.  The index is
converted to `int`. -/
def autoBody (as : Inp K) (m : K) (lag : Int) (i : Nat) : Cpp (K × ω) Unit := do
  let x ← nthInt (toInt32 i) as
  let y ← nthInt (toInt32 i + lag) as
  Cpp.modify fun s => (s.1 + (x - m) * (y - m), s.2)

/-- `R summation = 0; for_index(..., count);`, scientific.hpp 95-100. -/
def autoSum (as : Inp K) (m : K) (lag : Int) (count : Nat) : Cpp ω K := fun w =>
  match forIndex (autoBody as m lag) count ((0 : K), w) with
  | .ok _ s => .ok s.1 s.2
  | .thrown s => .thrown s.2
  | .ub u => .ub u

/-- `autocovariance<R, bessel_correction, adjusted>`, scientific.hpp 89-106. -/
def autocovariance (bessel adjusted : Bool) (as : Inp K) (lag : Int) : Cpp ω K := do
  let m ← mean as
  let n := length as
  let sumLength := toInt32 (subLag n lag)
  let summation ← autoSum as m lag (toSize sumLength)
  if adjusted then
    if bessel then div summation (subLag n (lag + 1) : K) else div summation (subLag n lag : K)
  else
    if bessel then div summation (subLag n 1 : K) else div summation (n : K)

/-- `autocorrelation`, scientific.hpp 108-112. -/
def autocorrelation (bessel adjusted : Bool) (as : Inp K) (lag : Int) : Cpp ω K := do
  let c ← autocovariance bessel adjusted as lag
  let v ← variance bessel as
  div c v

/-- `remove_dc`, scientific.hpp 114-121. -/
def removeDc (as : Inp K) : Cpp ω (Inp K) := do
  let m ← mean as
  map1 (fun x => x - m) as

/-- `linear_regression`, scientific.hpp 123-141. -/
def linearRegression (as bs : Inp K) : Cpp ω (K × K) := do
  let ma ← mean as
  let mb ← mean bs
  let das ← map1 (fun x => x - ma) as
  let dbs ← map1 (fun x => x - mb) bs
  let prods ← map2 (fun x y => x * y) das dbs
  let ssab ← sum prods
  let squares ← map1 square das
  let ssaa ← sum squares
  let beta1 ← div ssab ssaa
  pure (beta1, mb - beta1 * ma)

/-- signed `int` arithmetic: undefined out of the 32-bit range -/
def int32 (x : Int) : Cpp ω Int :=
  if -2 ^ 31 ≤ x ∧ x < 2 ^ 31 then pure x else Cpp.ub .overflow

/-- `linear_regression_with_index`, scientific.hpp 143-161: `n * (n * n - 1)` is computed in `int`. -/
def linearRegressionWithIndex (as : Inp K) : Cpp ω (K × K) := do
  let n := toInt32 (length as)
  let n1 ← int32 (n - 1)
  let meanIs ← div (n1 : K) 2
  let ma ← mean as
  let prods ← mapIx (fun i a => ((toInt32 i : Int) - meanIs) * (a - ma)) as
  let ssia ← sum prods
  let nn ← int32 (n * n)
  let nn1 ← int32 (nn - 1)
  let n3 ← int32 (n * nn1)
  let ssii ← div (n3 : K) 12
  let beta1 ← div ssia ssii
  pure (beta1, ma - beta1 * meanIs)

/-- `detrend`, scientific.hpp 163-174: the index is converted to the *element* type of the sequence
(`elem`) before it is converted to the result type. -/
def detrend (elem : Nat → K) (as : Inp K) : Cpp ω (Inp K) := do
  let betas ← linearRegressionWithIndex as
  mapIx (fun i x => x - (betas.1 * elem i + betas.2)) as

end Efp.Scientific
