import Verif.SciFloatMore

/-!
# scientific.hpp in floating-point arithmetic: regression and removal of the trend

The result type is `double`: `mean_is` and `ss_ii` are `double` whatever `R` is, so that with `R = float` the two types would
mix; only `R = double` on a sequence of `double` is modelled.
-/

namespace Efp.SciFloat

open Efp.Prelude Efp.Ieee

variable {ω : Type}

/-- `map_with_index(f, as)` (prelude.hpp 446-462) -/
def mapIx (f : Nat → Fp → Fp) (as : Inp Fp) : Cpp ω (Inp Fp) := do
  let r ← mapWithIndex .trivial zero (fun i => fun1 (f i)) [as]
  asInp r

/-- `linear_regression<double>`, scientific.hpp 123-141 -/
def linearRegression (as bs : Inp Fp) : Cpp ω (Fp × Fp) := do
  let ma ← mean double as
  let mb ← mean double bs
  let das ← map1 (fun x => sub double x ma) as
  let dbs ← map1 (fun x => sub double x mb) bs
  let prods ← map2 (mul double) das dbs
  let ssab ← sum double prods
  let squares ← map1 (square double) das
  let ssaa ← sum double squares
  let beta1 := div double ssab ssaa
  pure (beta1, sub double mb (mul double beta1 ma))

/-- `linear_regression_with_index<double>`, scientific.hpp 143-161: `n * (n * n - 1)` is computed in `int`, and the `int`s
are converted to `double` before they are divided or subtracted. -/
def linearRegressionWithIndex (as : Inp Fp) : Cpp ω (Fp × Fp) := do
  let n := Scientific.toInt32 (length as)
  let n1 ← Scientific.int32 (n - 1)
  let meanIs := div double (ofInt double n1) (ofInt double 2)
  let ma ← mean double as
  let prods ← mapIx (fun i a => mul double (sub double (ofInt double (Scientific.toInt32 i)) meanIs) (sub double a ma)) as
  let ssia ← sum double prods
  let nn ← Scientific.int32 (n * n)
  let nn1 ← Scientific.int32 (nn - 1)
  let n3 ← Scientific.int32 (n * nn1)
  let ssii := div double (ofInt double n3) (ofInt double 12)
  let beta1 := div double ssia ssii
  pure (beta1, sub double ma (mul double beta1 meanIs))

/-- `detrend<double>`, scientific.hpp 163-174: the index is converted to the element type, here `double` -/
def detrend (as : Inp Fp) : Cpp ω (Inp Fp) := do
  let betas ← linearRegressionWithIndex as
  mapIx (fun i x => sub double x (add double (mul double betas.1 (ofInt double i)) betas.2)) as

end Efp.SciFloat
