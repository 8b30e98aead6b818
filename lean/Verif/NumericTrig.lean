import Mathlib.Analysis.Complex.Trigonometric

/-!
# `sin`, `cos`, `tan` and `complex_cast` (numeric.hpp 39-100)

The functions of `<cmath>` are a parameter: whatever they are, the library passes the argument on and converts the result to the
type of the argument.  Numbers are real numbers; a floating-point type is a set of them, an integer type the integers.

Simplification: an integer argument is passed on exactly (integers of up to 53 bits are), and a result is in the range of the
integer type (the magnitude of sines and cosines is at most 1; tangents of integers of 64 bits are far below `2 ^ 63`).
-/

namespace Efp.Trig

/-- Conversion of a floating-point number to an integer type: towards zero. -/
noncomputable def truncate (x : ℝ) : ℤ := if 0 ≤ x then ⌊x⌋ else ⌈x⌉

/-- `sin<A>`, `cos<A>` and `tan<A>` for a floating-point type `A`, numeric.hpp 39-52: `std::sin(a)` has the type of `a`, and
returning it converts nothing.  `std` is the function of `<cmath>`. -/
def ofFloat (std : ℝ → ℝ) (a : ℝ) : ℝ := std a

/-- `sin<A>`, `cos<A>` and `tan<A>` for an integer type `A`, numeric.hpp 39-52: `std::sin(a)` is a `double`, and the return type is
`A`. -/
noncomputable def ofInt (std : ℝ → ℝ) (a : ℤ) : ℤ := truncate (std a)

/-- A value of type `A` or `Complex<A>` (numeric.hpp 54-55). -/
inductive Num (α : Type) where
  | real (a : α)
  | complex (re im : α)
deriving DecidableEq, Repr

/-- `IsComplex`, numeric.hpp 57-61 -/
def Num.isComplex {α : Type} : Num α → Bool
  | .real _ => false
  | .complex _ _ => true

/-- The overloads of `complex_cast<to_complex>` that take part in a call, numeric.hpp 87-100, each with its result: the call is
well-formed if there is exactly one. -/
def complexCast {α : Type} (zero : α) (toComplex : Bool) (x : Num α) : List (Num α) :=
  (match x with
    | .complex re _ => if !toComplex then [.real re] else []
    | .real _ => []) ++
  (match x with
    | .real a => if toComplex then [.complex a zero] else []
    | .complex _ _ => []) ++
  (if toComplex == x.isComplex then [x] else [])

end Efp.Trig
