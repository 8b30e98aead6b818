import Verif.Fmt.Float
import Verif.Fmt.Bigint

/-!
# Model of the texts of floating-point numbers with options (fmt/format.h 1820-1866, 3052-3058, 3335-3953): given
precisions, hexadecimal numbers and padding

A `float` or `double` is given by its bits.  The buffer of digits is the list of its characters; it holds 500 bytes and
grows when it is resized.  A `float` is converted to `double` on the way; the conversion is exact, and so is the one back.
-/

namespace Efp
namespace Fmt

open Dragonbox

/-- `static_cast<double>` of a finite `float`, on the bits below the sign, format.h 1917-1920 -/
def widen (m : Nat) : Nat :=
  let f := m % 2 ^ 23
  let b := m / 2 ^ 23
  if b = 0 then if f = 0 then 0 else (f.log2 + 874) * 2 ^ 52 + (f - 2 ^ f.log2) * 2 ^ (52 - f.log2)
  else (b + 896) * 2 ^ 52 + f * 2 ^ 29

/-- `convert_float`, format.h 1917-1920 -/
def convertFloat (F : Flt) (m : Nat) : Nat := if F.w = 32 then widen m else m

/-- `basic_fp::assign` of the number with bits `m`, format.h 1841-1863: `f`, `e` and whether the predecessor is closer -/
def fpAssign (F : Flt) (m : Nat) : Nat × Int × Bool :=
  let f := m &&& (2 ^ F.sigBits - 1)
  let biased := (m &&& (2 ^ F.expBits - 1) * 2 ^ F.sigBits) / 2 ^ F.sigBits
  let closer : Bool := f = 0 ∧ biased > 1
  let (biased, f) := if biased = 0 then (1, f) else (biased, f + 2 ^ F.sigBits)
  (f, biased - (F.maxExponent - 1) - F.sigBits, closer)

/-- `adjust_precision`, format.h 3052-3058; `precision` is at most the largest `int` -/
def adjustPrecision (precision exp10 : Int) : Res Int :=
  if exp10 > 0 ∧ precision > 2147483647 - exp10 then .err "number is too big" else .ok (precision + exp10)

/-- the next character, `++buf[i]` -/
def charSucc (c : Char) : Char := Char.ofNat (c.toNat + 1)

/-- the loops that propagate a carry, format.h 3467-3470 and 3849-3852, on the characters up to `i` from the last one
back; `over` says whether a character has gone beyond `9` -/
def carryLoop (over : Char → Bool) : Char → Str → Str
  | c, [] => [c]
  | c, d :: r => if over c then '0' :: carryLoop over (charSucc d) r else c :: d :: r

/-- numerator and denominator of `format_dragon`, format.h 3363-3398 -/
def dragonStart (f : Nat) (e : Int) (closer : Bool) (exp10 : Int) : Res (Bigint × Bigint) := do
  let shift : Int := if closer then 2 else 1
  if e ≥ 0 then
    let numerator ← Bigint.ofNat f
    let numerator ← numerator.shiftLeft (e + shift)
    let denominator ← Bigint.pow10 exp10
    let denominator ← denominator.shiftLeft shift
    .ok (numerator, denominator)
  else if exp10 < 0 then
    let numerator ← Bigint.pow10 (-exp10)
    let numerator ← numerator.mulWide f
    let numerator ← numerator.shiftLeft shift
    let denominator ← Bigint.ofNat 1
    let denominator ← denominator.shiftLeft (shift - e)
    .ok (numerator, denominator)
  else
    let numerator ← Bigint.ofNat f
    let numerator ← numerator.shiftLeft shift
    let denominator ← Bigint.pow10 exp10
    let denominator ← denominator.shiftLeft (shift - e)
    .ok (numerator, denominator)

/-- the loop that writes all digits but the last, format.h 3455-3459: the digits and the numerator -/
def dragonDigits (denominator : Bigint) : (n : Nat) → (numerator : Bigint) → Res (Str × Bigint)
  | 0, numerator => .ok ([], numerator)
  | n + 1, numerator => do
    let (digit, numerator) ← numerator.divmodAssign denominator
    let numerator ← numerator.mul 10
    let (rest, numerator) ← dragonDigits denominator n numerator
    .ok (Char.ofNat (48 + digit) :: rest, numerator)

/-- `format_dragon`, format.h 3346-3483, for a number of digits that is not negative and without the flag `fixup`: these
are for `long double` only, and so are the boundaries `lower` and `upper`.  The digits and the exponent. -/
def formatDragon (f : Nat) (e : Int) (closer fixed : Bool) (numDigits exp10 : Int) : Res (Str × Int) := do
  let (numerator, denominator) ← dragonStart f e closer exp10
  let exp10 := exp10 - (numDigits - 1)
  if numDigits ≤ 0 then
    let denominator ← denominator.mul 10
    .ok ([if Bigint.addCompare numerator numerator denominator > 0 then '1' else '0'], exp10)
  else
    let (digits, numerator) ← dragonDigits denominator (numDigits.toNat - 1) numerator
    let (digit, numerator) ← numerator.divmodAssign denominator
    let result := Bigint.addCompare numerator numerator denominator
    if result > 0 ∨ result = 0 ∧ digit % 2 ≠ 0 then
      if digit = 9 then
        let s := (carryLoop (· = ':') ':' digits.reverse).reverse
        if s.head? = some ':' then
          if fixed then .ok ('1' :: s.drop 1 ++ ['0'], exp10) else .ok ('1' :: s.drop 1, exp10 + 1)
        else .ok (s, exp10)
      else .ok (digits ++ [Char.ofNat (48 + (digit + 1))], exp10)
    else .ok (digits ++ [Char.ofNat (48 + digit)], exp10)

/-- `fractional_part_rounding_thresholds`, format.h 3575-3584 -/
def thresholds : List Nat :=
  [0x9999999a, 0x828f5c29, 0x80418938, 0x80068db9, 0x8000a7c6, 0x800010c7, 0x800001ae, 0x8000002b]

/-- `copy2` of `digits2`, format.h 1263-1270 and 1449-1456: reading beyond the table is `ub` -/
def copyDigits2 (digits : Nat) : Res Str := if digits < 100 then .ok (digits2 digits) else .ub

/-- the loop of `print_subsegment` over digit pairs, format.h 3760-3765, with `n` pairs to go: text, `prod` and
`digits` -/
def printPairs : (n prod digits : Nat) → Res (Str × Nat × Nat)
  | 0, prod, digits => .ok ([], prod, digits)
  | n + 1, prod, _ => do
    let prod := prod % 2 ^ 32 * 100
    let digits := prod / 2 ^ 32
    let s ← copyDigits2 digits
    let (t, prod, digits) ← printPairs n prod digits
    .ok (s ++ t, prod, digits)

/-- `print_subsegment`, format.h 3730-3766, for `n` digits: text, `prod` and `digits`.  Unsigned products of 32-bit
numbers fit in 64 bits. -/
def printSubsegment (n subsegment : Nat) : Res (Str × Nat × Nat) :=
  if n % 2 ≠ 0 then do
    let prod := subsegment * 720575941 / 2 ^ 24 + 1
    let digits := prod / 2 ^ 32
    let (t, prod, digits) ← printPairs (n / 2) prod digits
    .ok (Char.ofNat (48 + (subsegment * 720575941 / 2 ^ 24 + 1) / 2 ^ 32) :: t, prod, digits)
  else do
    let prod := subsegment * 450359963 / 2 ^ 20 + 1
    let digits := prod / 2 ^ 32
    let s ← copyDigits2 digits
    let (t, prod, digits) ← printPairs (n / 2 - 1) prod digits
    .ok (s ++ t, prod, digits)

/-- rounding inside a subsegment, format.h 3787-3796 and 3824-3834; `further` says whether there are nonzero digits
after it -/
def roundInside (n prod digits : Nat) (further more : Bool) : Res Bool := do
  let fractional := prod % 2 ^ 32
  let threshold ← lookup thresholds (8 - n)
  .ok (fractional ≥ threshold ∨ (fractional / 2 ^ 31 % 2 = 1 ∧ (digits % 2 = 1 ∨ further ∨ more)))

/-- the digits of the first segment and whether to round up, format.h 3718-3844, for `0 < precision < 19` -/
def segmentDigits (segment : Nat) (more : Bool) (precision : Nat) : Res (Str × Bool) := do
  let first := umul128Upper64 segment 7922816251426433760 / 2 ^ 32 % 2 ^ 32
  let rest := (segment + 2 ^ 64 - first * 10000000000 % 2 ^ 64) % 2 ^ 64
  let n := if precision > 9 then 9 else precision
  let (s, prod, digits) ← printSubsegment n first
  if precision ≤ 9 then
    if precision < 9 then do
      let up ← roundInside n prod digits (rest ≠ 0) more
      .ok (s, up)
    else .ok (s, rest > 5000000000 ∨ (rest = 5000000000 ∧ (digits % 2 ≠ 0 ∨ more)))
  else do
    let second := umul128Upper64 rest 1844674407370955162 % 2 ^ 32
    let third := (rest % 2 ^ 32 + 2 ^ 32 - second * 10 % 2 ^ 32) % 2 ^ 32
    let (t, prod, digits) ← printSubsegment (precision - 9) second
    if precision < 18 then do
      let up ← roundInside (precision - 9) prod digits (third ≠ 0) more
      .ok (s ++ t, up)
    else .ok (s ++ t, third > 5 ∨ (third = 5 ∧ (digits % 2 ≠ 0 ∨ more)))

/-- rounding up, format.h 3847-3860: the digits and the exponent -/
def roundUpDigits (s : Str) (up fixed : Bool) (exp : Int) : Str × Int :=
  if up then
    let s := match s.reverse with
      | c :: r => (carryLoop (· > '9') (charSucc c) r).reverse
      | [] => []
    match s with
    | c :: r => if c > '9' then (if fixed then ('1' :: r ++ ['0'], exp) else ('1' :: r, exp + 1)) else (s, exp)
    | [] => (s, exp)
  else (s, exp)

/-- the normalized significand and the exponent of a `double`, format.h 3632-3655; `min_exponent` is -1021 -/
def normalize (br : Nat) : Res (Nat × Int) :=
  let significand := br &&& (2 ^ 52 - 1)
  let exponent : Int := ((br &&& (2 ^ 11 - 1) * 2 ^ 52) / 2 ^ 52 : Nat)
  if exponent ≠ 0 then do
    let significand ← shl 64 (significand ||| 2 ^ 52) 1
    .ok (significand, exponent - (1023 + 52))
  else do
    assert (significand ≠ 0)
    let shift : Int := 63 - significand.log2
    assert (shift ≥ 64 - 52)
    let shift := shift - (64 - 52 - 2)
    let significand ← shl 64 significand shift
    .ok (significand, (-1021 - 52) - shift)

/-- the first segment, format.h 3657-3680: aligned to 19 digits, whether there is more, the number of digits, `exp` -/
def firstSegment (significand : Nat) (exponent : Int) : Res (Nat × Bool × Int × Int) := do
  let l ← floorLog10Pow2 exponent
  let k := 2 - l
  let l ← floorLog2Pow10 k
  let beta := exponent + l
  let u ← shl 64 significand beta
  let cache ← doubleCachedPower k
  let r := umul192Upper128 u cache
  if r.hi ≥ 1000000000000000000 then .ok (r.hi, r.lo ≠ 0, 19, -k) else .ok (r.hi * 10 % 2 ^ 64, r.lo ≠ 0, 18, -k)

/-- the loop that removes trailing zeros, format.h 3886-3890, on the characters from the last one back -/
def stripZeros : Str → Int → Str × Int
  | c :: r, exp => if c = '0' then stripZeros r (exp + 1) else (c :: r, exp)
  | [], exp => ([], exp)

/-- the digits of a number greater than 0 once its first segment and the number of digits asked for are known, format.h
3688-3883: those of the segment if they are enough -/
def digitsAfter (F : Flt) (m segment : Nat) (more : Bool) (digits exp precision : Int) (fixed binary32 : Bool) :
    Res (Str × Int) :=
  if digits > precision then
    if precision ≤ 0 then
      if precision < 0 then .ok ([], exp + digits)
      else .ok ([if segment ||| (if more then 1 else 0) > 5000000000000000000 then '1' else '0'], exp + digits)
    else do
      let (s, up) ← segmentDigits segment more precision.toNat
      .ok (roundUpDigits s up fixed (exp + (digits - precision)))
  else
    let (f, e, closer) := if binary32 then fpAssign flt32 m else fpAssign flt64 (convertFloat F m)
    formatDragon f e closer fixed (if precision > 767 then 767 else precision) (exp + (digits - 1))

/-- the digits of a number greater than 0 for a precision that is not negative, format.h 3632-3883 -/
def formatDigits (F : Flt) (m : Nat) (precision : Int) (fixed binary32 : Bool) : Res (Str × Int) := do
  let (significand, exponent) ← normalize (convertFloat F m)
  let (segment, more, digits, exp) ← firstSegment significand exponent
  let precision ← if fixed then adjustPrecision precision (exp + digits) else .ok precision
  digitsAfter F m segment more digits exp precision fixed binary32

/-- `format_float` of the number with bits `m`, format.h 3586-3894; the branch for `long double` is not modelled -/
def formatFloat (F : Flt) (m : Nat) (precision : Int) (fs : FloatSpecs) : Res (Str × Int) :=
  let fixed : Bool := fs.format = .fixed
  if convertFloat F m = 0 then
    if precision ≤ 0 ∨ !fixed then .ok (['0'], 0)
    else .ok (List.replicate precision.toNat '0', -precision)
  else if precision < 0 then do
    let dec ← if fs.binary32 then toDecimal flt32 m else toDecimal flt64 (convertFloat F m)
    let s ← writeIntDefault (if fs.binary32 then 32 else 64) dec.significand
    .ok (s, dec.exponent)
  else do
    let (s, exp) ← formatDigits F m precision fixed fs.binary32
    if !fixed && !fs.showpoint then
      let (s, exp) := stripZeros s.reverse exp
      .ok (s.reverse, exp)
    else .ok (s, exp)

/-- the number of hexadecimal digits of the fraction to print without trailing zeros, format.h 3544-3545 -/
def stripXdigits (xdigits : Str) : (n : Nat) → Nat
  | 0 => 0
  | n + 1 => if xdigits[n + 1]? = some '0' then stripXdigits xdigits n else n + 1

/-- the rounding of `format_hexfloat`, format.h 3515-3537: the significand and the number of digits to print -/
def roundHexfloat (f : Nat) (precision : Int) : Res (Nat × Nat) :=
  if precision ≥ 0 ∧ 13 > precision then do
    let shift := (13 - precision - 1) * 4
    let v := f / 2 ^ shift.toNat % 16
    if v ≥ 8 then do
      let inc ← shl 64 1 (shift + 4)
      .ok ((f + inc) % 2 ^ 64 / inc * inc, precision.toNat)
    else .ok (f, precision.toNat)
  else .ok (f, 13)

/-- `format_hexfloat` of the `double` with bits `d`, format.h 3486-3567: it has 53 fraction bits and 14 digits.  The
leading digit is 0 or 1, so that the exponent stays.  `xdigits` holds 16 bytes. -/
def formatHexfloat (d : Nat) (precision : Int) (fs : FloatSpecs) : Res Str := do
  let (f, e, _) := fpAssign flt64 d
  let e := e + 52
  let leading := f / 2 ^ 52 % 16
  let e := if leading > 1 then e - leading.log2 else e
  let (f, print) ← roundHexfloat f precision
  let (room, text) ← formatUintLoop 4 fs.upper 14 f []
  let xdigits := List.replicate room '0' ++ text
  let print := stripXdigits xdigits print
  let expDigits ← countDigits 32 e.natAbs
  let expText ← formatDecimal 32 e.natAbs expDigits
  .ok ('0' :: (if fs.upper then 'X' else 'x') :: xdigits.take 1 ++
    (if fs.showpoint ∨ print > 0 ∨ print < precision then ['.'] else []) ++ (xdigits.drop 1).take print ++
    List.replicate (precision - print).toNat '0' ++ (if fs.upper then 'P' else 'p') ::
    (if e < 0 then '-' else '+') :: expText)

/-- the rest of `write_float` for a finite number, once the sign is known, format.h 3920-3943 -/
def writeFloatFinite (F : Flt) (m : Nat) (sp : Specs) (fs : FloatSpecs) : Res Str :=
  if fs.format = .hex then do
    let text ← formatHexfloat (convertFloat F m) sp.precision fs
    let text := signStr fs.sign ++ text
    .ok (writePadded true sp text.length text)
  else do
    let precision := if sp.precision ≥ 0 ∨ sp.type = .none then sp.precision else 6
    let precision ←
      if fs.format = .exp then
        if precision = 2147483647 then .err "number is too big" else .ok (precision + 1)
      else if fs.format ≠ .fixed ∧ precision = 0 then .ok 1
      else .ok precision
    let fs := { fs with binary32 := F.w = 32 }
    let (s, exp) ← formatFloat F m precision fs
    doWriteFloat (.text s) exp sp { fs with precision := precision }

/-- `write_float` with specs, format.h 3896-3943, and `write`, format.h 3945-3953 -/
def writeFloat (F : Flt) (bits : Nat) (sp : Specs) : Res Str := do
  let fs ← parseFloatTypeSpec sp
  let fs := { fs with sign := if signbit F bits then .minus else if sp.sign = .minus then .none else sp.sign }
  if nonfinite F bits then .ok (writeNonfinite (isnan F bits) sp fs)
  else if sp.align = .numeric ∧ fs.sign ≠ .none then do
    let sp := if sp.width ≠ 0 then { sp with width := sp.width - 1 } else sp
    let text ← writeFloatFinite F (magBits F bits) sp { fs with sign := .none }
    .ok (signStr fs.sign ++ text)
  else writeFloatFinite F (magBits F bits) sp fs

end Fmt
end Efp
