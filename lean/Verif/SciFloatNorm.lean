import Verif.SciFloatMore

/-!
# scientific.hpp in floating-point arithmetic: the normalised errors
-/

namespace Efp.SciFloat

open Efp.Prelude Efp.Ieee

variable {ω : Type} (F : Fmt)

/-- `nrmse_mean`, scientific.hpp 44-47.  (The operands of the division are evaluated in either order; neither has an
effect.) -/
def nrmseMean (as bs : Inp Fp) : Cpp ω Fp := do
  let r ← rmse F as bs
  let m ← mean F bs
  pure (div F r m)

/-- `nrmse_max_min`, scientific.hpp 49-52 -/
def nrmseMaxMin (as bs : Inp Fp) : Cpp ω Fp := do
  let r ← rmse F as bs
  let d ← maxMin F bs
  pure (div F r d)

end Efp.SciFloat
