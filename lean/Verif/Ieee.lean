import Mathlib.Algebra.Order.Floor.Ring
import Mathlib.Data.Rat.Floor
import Mathlib.Algebra.Order.Field.Power

/-!
# IEEE 754 binary arithmetic

What C++ on the supported targets means by `float` and `double`: binary32 and binary64 with results rounded to nearest,
ties to even, one operation at a time (no extended precision, no contraction to fused operations, no `-ffast-math`).
Nothing here is code of the repository; it is the arithmetic that numeric.hpp and scientific.hpp run on.
-/

namespace Efp.Ieee

/-- a binary format: bits of precision, exponent of the least bit of the least positive number, and the exponent at which
numbers become infinite -/
structure Fmt where
  prec : Nat
  emin : Int
  emax : Int

/-- binary64 -/
def double : Fmt := ⟨53, -1074, 1024⟩

/-- binary32 -/
def single : Fmt := ⟨24, -149, 128⟩

/-- a format with room for rounding: what the theorems ask for -/
structure Fmt.Ok (F : Fmt) : Prop where
  prec : 2 ≤ F.prec
  range : F.emin + F.prec ≤ 0
  top : F.prec < F.emax
  size : 64 < F.emax

/-- `⌊log2 q⌋` of a positive rational -/
def ilog (q : ℚ) : Int :=
  if (2 : ℚ) ^ ((Nat.log2 q.num.natAbs : Int) - (Nat.log2 q.den : Int)) ≤ q then (Nat.log2 q.num.natAbs : Int) - (Nat.log2 q.den : Int)
  else (Nat.log2 q.num.natAbs : Int) - (Nat.log2 q.den : Int) - 1

/-- nearest integer, ties to even -/
def nearestInt (x : ℚ) : Int :=
  if x - ⌊x⌋ < 1 / 2 then ⌊x⌋ else if 1 / 2 < x - ⌊x⌋ then ⌊x⌋ + 1 else if ⌊x⌋ % 2 = 0 then ⌊x⌋ else ⌊x⌋ + 1

/-- exponent of the last bit kept of `q` -/
def lastBit (F : Fmt) (q : ℚ) : Int := if q = 0 then F.emin else max F.emin (ilog |q| - (F.prec - 1))

/-- rounding to nearest, ties to even, with unbounded exponents above -/
def round (F : Fmt) (q : ℚ) : ℚ := nearestInt (q / 2 ^ lastBit F q) * 2 ^ lastBit F q

/-- a floating-point number; zeros are signed -/
inductive Fp where
  | nan
  | inf (neg : Bool)
  | fin (neg : Bool) (mag : ℚ)
  deriving DecidableEq

/-- the number a finite one stands for -/
def signed (neg : Bool) (mag : ℚ) : ℚ := if neg then -mag else mag

/-- the exact result `q` rounded to the format; `zneg` is the sign of the result if `q` is zero -/
def ofExact (F : Fmt) (zneg : Bool) (q : ℚ) : Fp :=
  if (2 : ℚ) ^ F.emax ≤ |round F q| then .inf (decide (q < 0))
  else .fin (if q = 0 then zneg else decide (q < 0)) |round F q|

/-- `-x` -/
def Fp.neg : Fp → Fp
  | .nan => .nan
  | .inf s => .inf (!s)
  | .fin s m => .fin (!s) m

/-- `x + y` -/
def add (F : Fmt) : Fp → Fp → Fp
  | .nan, _ => .nan
  | _, .nan => .nan
  | .inf s, .inf t => if s = t then .inf s else .nan
  | .inf s, .fin _ _ => .inf s
  | .fin _ _, .inf t => .inf t
  | .fin s a, .fin t b => ofExact F (s && t) (signed s a + signed t b)

/-- `x - y` -/
def sub (F : Fmt) (x y : Fp) : Fp := add F x y.neg

/-- `x * y` -/
def mul (F : Fmt) : Fp → Fp → Fp
  | .nan, _ => .nan
  | _, .nan => .nan
  | .inf s, .inf t => .inf (s ^^ t)
  | .inf s, .fin t b => if b = 0 then .nan else .inf (s ^^ t)
  | .fin s a, .inf t => if a = 0 then .nan else .inf (s ^^ t)
  | .fin s a, .fin t b => ofExact F (s ^^ t) (signed s a * signed t b)

/-- `x / y` -/
def div (F : Fmt) : Fp → Fp → Fp
  | .nan, _ => .nan
  | _, .nan => .nan
  | .inf _, .inf _ => .nan
  | .inf s, .fin t _ => .inf (s ^^ t)
  | .fin s _, .inf t => .fin (s ^^ t) 0
  | .fin s a, .fin t b =>
    if b = 0 then (if a = 0 then .nan else .inf (s ^^ t)) else ofExact F (s ^^ t) (signed s a / signed t b)

/-- a rational on the same side of every number with fewer than `p + 2` bits as the square root of `q`: the root to `p + 2`
bits, and a sticky bit -/
def sqrtApprox (p : Nat) (q : ℚ) : ℚ :=
  let k : Int := (ilog q) / 2 - (p + 2)
  let n : Nat := ⌊q / 2 ^ (2 * k)⌋.toNat
  let r := Nat.sqrt n
  (if (r : ℚ) * r * 2 ^ (2 * k) = q then (r : ℚ) else r + 1 / 2) * 2 ^ k

/-- `sqrt(x)`: the root rounded to nearest -/
def sqrt (F : Fmt) : Fp → Fp
  | .nan => .nan
  | .inf s => if s then .nan else .inf false
  | .fin s m => if m = 0 then .fin s 0 else if s then .nan else ofExact F false (sqrtApprox F.prec m)

/-- `x < y` -/
def lt : Fp → Fp → Bool
  | .nan, _ => false
  | _, .nan => false
  | .inf s, .inf t => s && !t
  | .inf s, .fin _ _ => s
  | .fin _ _, .inf t => !t
  | .fin s a, .fin t b => decide (signed s a < signed t b)

/-- `x == y` -/
def eq : Fp → Fp → Bool
  | .nan, _ => false
  | _, .nan => false
  | .inf s, .inf t => s == t
  | .inf _, .fin _ _ => false
  | .fin _ _, .inf _ => false
  | .fin s a, .fin t b => decide (signed s a = signed t b)

/-- `x <= y` -/
def le (x y : Fp) : Bool := lt x y || eq x y

/-- conversion of an integer -/
def ofInt (F : Fmt) (n : Int) : Fp := ofExact F false n

end Efp.Ieee
