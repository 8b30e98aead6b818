import Mathlib.Algebra.Field.Basic

/-!
# Specification of the statistics functions: textbook definitions on lists
-/

namespace Efp.Spec.Scientific

variable {K : Type} [Field K]

/-- arithmetic mean -/
def avg (xs : List K) : K := xs.sum / (xs.length : K)

/-- sum of squared deviations from the mean -/
def sqDev (xs : List K) : K := (xs.map fun x => (x - avg xs) ^ 2).sum

/-- sum of products of deviations of corresponding elements -/
def coDev (xs ys : List K) : K := ((xs.zip ys).map fun p => (p.1 - avg xs) * (p.2 - avg ys)).sum

/-- sum of products of deviations of elements `lag` positions apart -/
def lagDev (lag : Nat) (xs : List K) : K :=
  ((xs.zip (xs.drop lag)).map fun p => (p.1 - avg xs) * (p.2 - avg xs)).sum

/-- sum of squared differences of corresponding elements -/
def sqErr (xs ys : List K) : K := ((xs.zip ys).map fun p => (p.1 - p.2) ^ 2).sum

/-- sum of the squared residuals of the line `y = c x + d` -/
def residual (pts : List (K × K)) (c d : K) : K := (pts.map fun p => (p.2 - (c * p.1 + d)) ^ 2).sum

/-- the indices `0, 1, ..., n - 1` as numbers -/
def indices (n : Nat) : List K := (List.range n).map fun i : Nat => (i : K)

/-- the sequence with the line `c i + d` added -/
def addTrend (c d : K) (xs : List K) : List K := xs.mapIdx fun i x => x + (c * (i : K) + d)

/-- the divisor of a mean over `n` terms, with or without Bessel's correction -/
def divisor (K : Type) [Field K] (bessel : Bool) (n : Nat) : K :=
  if bessel then ((n - 1 : Nat) : K) else (n : K)

/-- the divisor of an autocovariance: over all elements or, if adjusted, over the products formed -/
def autoDivisor (K : Type) [Field K] (bessel adjusted : Bool) (n lag : Nat) : K :=
  divisor K bessel (if adjusted then n - lag else n)

/-- a square root function -/
def IsSqrt [LE K] (sqrt : K → K) : Prop := ∀ x : K, 0 ≤ x → 0 ≤ sqrt x ∧ sqrt x * sqrt x = x

end Efp.Spec.Scientific
