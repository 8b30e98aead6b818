import Verif.Spec.Ieee

/-!
# Numbers on a line (C155)
-/

namespace Efp.Spec

open Ieee

/-- the floating-point number `x` is exactly `q` -/
def Exactly (x : Fp) (q : ℚ) : Prop := Finite double x ∧ value x = q

/-- the elements of `l` are exactly `a`, `a + b`, `a + 2 * b`, ... -/
def OnLine (a b : Int) (l : List Fp) : Prop := ∀ (i : Nat) (x : Fp), l[i]? = some x → Exactly x (a + b * i)

end Efp.Spec
