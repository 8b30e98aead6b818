import Verif.Ieee

/-!
# Words to speak about floating-point numbers (C119-C123)
-/

namespace Efp.Ieee

/-- the format has the number `q`, apart from its size: an integer of `prec` bits times a power of two -/
def Rep (F : Fmt) (q : ℚ) : Prop := ∃ m e : Int, q = m * 2 ^ e ∧ |m| < 2 ^ F.prec ∧ F.emin ≤ e

/-- the unit roundoff: `2^-53` for `double` -/
def unit (F : Fmt) : ℚ := 2 ^ (-(F.prec : Int))

/-- half the least positive number -/
def tiny (F : Fmt) : ℚ := 2 ^ (F.emin - 1)

/-- a finite number of the format -/
def Finite (F : Fmt) (x : Fp) : Prop := ∃ s m, x = .fin s m ∧ 0 ≤ m ∧ Rep F m ∧ m < 2 ^ F.emax

/-- the value of a finite number -/
def value : Fp → ℚ
  | .fin s m => signed s m
  | _ => 0

/-- a number that is zero or positive (possibly infinite), and not NaN -/
def NonNeg (x : Fp) : Prop := x = .inf false ∨ ∃ m, 0 ≤ m ∧ x = .fin false m

end Efp.Ieee
