import Verif.Fmt.Format
import Verif.Fmt.Dragonbox

/-!
# Model of the texts of floating-point numbers (fmt/format.h 1796-1818, 2638-2971, 3955-3977): layout, non-finite values
and the bare `{}`

A `float` or `double` is given by its bits.  `decimal_point` and the digit grouping are those without a locale:
`EFP_FMT_STATIC_THOUSANDS_SEPARATOR` is defined (core.h 29), so that the point is `.` (format-inl.h 112-115), there is no
separator and the flag `L` has no effect.
-/

namespace Efp
namespace Fmt

open Dragonbox

/-- `float_format`, format.h 2639-2644 -/
inductive FloatFormat
  | general | exp | fixed | hex
  deriving DecidableEq, Repr

/-- `float_specs`, format.h 2646-2654; without `locale`, which has no effect -/
structure FloatSpecs where
  precision : Int := 0
  format : FloatFormat := .general
  sign : Sign := .none
  upper : Bool := false
  binary32 : Bool := false
  showpoint : Bool := false
  deriving DecidableEq, Repr

/-- `parse_float_type_spec`, format.h 2656-2697 -/
def parseFloatTypeSpec (sp : Specs) : Res FloatSpecs :=
  match sp.type with
  | .none => .ok { format := .general, showpoint := sp.alt }
  | .generalUpper => .ok { format := .general, showpoint := sp.alt, upper := true }
  | .generalLower => .ok { format := .general, showpoint := sp.alt }
  | .expUpper => .ok { format := .exp, showpoint := sp.alt || sp.precision ≠ 0, upper := true }
  | .expLower => .ok { format := .exp, showpoint := sp.alt || sp.precision ≠ 0 }
  | .fixedUpper => .ok { format := .fixed, showpoint := sp.alt || sp.precision ≠ 0, upper := true }
  | .fixedLower => .ok { format := .fixed, showpoint := sp.alt || sp.precision ≠ 0 }
  | .hexfloatUpper => .ok { format := .hex, showpoint := sp.alt, upper := true }
  | .hexfloatLower => .ok { format := .hex, showpoint := sp.alt }
  | _ => .err "invalid format specifier"

/-- the optional sign and its character, format.h 1273-1279 -/
def signStr : Sign → Str
  | .none => []
  | .minus => ['-']
  | .plus => ['+']
  | .space => [' ']

/-- `write_nonfinite`, format.h 2699-2717 -/
def writeNonfinite (isnan : Bool) (sp : Specs) (fs : FloatSpecs) : Str :=
  let str := if isnan then (if fs.upper then "NAN" else "nan") else if fs.upper then "INF" else "inf"
  let sp := if sp.fill = ['0'] then { sp with fill := [' '] } else sp
  writePadded false sp (3 + (signStr fs.sign).length) (signStr fs.sign ++ str.toList)

/-- `write_exponent`, format.h 1798-1818 -/
def writeExponent (exp : Int) : Res Str := do
  assert (-10000 < exp ∧ exp < 10000)
  let sign := if exp < 0 then '-' else '+'
  let exp := exp.natAbs
  if exp ≥ 100 then
    let top := digits2 (exp / 100)
    .ok (sign :: (if exp ≥ 1000 then top else top.drop 1) ++ digits2 (exp % 100))
  else .ok (sign :: digits2 exp)

/-- the significand of a `decimal_fp`, an unsigned integer of `w` bits, or of a `big_decimal_fp`, a text: format.h
1756-1761 and 2719-2724 -/
inductive Significand
  | uint (w n : Nat)
  | text (s : Str)
  deriving DecidableEq, Repr

/-- `get_significand_size`, format.h 2726-2733 -/
def Significand.size : Significand → Res Nat
  | .uint w n => countDigits w n
  | .text s => .ok s.length

/-- `write_significand` without a point, format.h 2735-2744 -/
def Significand.write (size : Nat) : Significand → Res Str
  | .uint w n => formatDecimal w n size
  | .text s => .ok s

/-- the loop of `write_significand` for integers, format.h 2777-2781: `i` digit pairs are taken off -/
def significandPairs : (i significand : Nat) → (acc : Str) → Nat × Str
  | 0, significand, acc => (significand, acc)
  | i + 1, significand, acc => significandPairs i (significand / 100) (digits2 (significand % 100) ++ acc)

/-- `write_significand` with a point after `integral` digits, format.h 2764-2827, or, if `point` is false, without.  The
integer is written into a local buffer of `digits10 + 2` bytes. -/
def Significand.writePoint (size integral : Nat) (point : Bool) : Significand → Res Str
  | .uint w n =>
    if !point then formatDecimal w n size
    else if decimalRoom w < size ∨ size < integral then .ub
    else do
      let fl := size - integral
      let (n, acc) := significandPairs (fl / 2) n []
      let (n, acc) := if fl % 2 ≠ 0 then (n / 10, Char.ofNat (48 + n % 10) :: acc) else (n, acc)
      let whole ← formatDecimal w n integral
      .ok (whole ++ '.' :: acc)
  | .text s =>
    if s.length < integral then .ub
    else .ok (s.take integral ++ if point then '.' :: s.drop integral else [])

/-- `do_write_float`, format.h 2853-2971; the sums are far below the range of `int` -/
def doWriteFloat (significand : Significand) (exponent : Int) (sp : Specs) (fs : FloatSpecs) : Res Str := do
  let size ← significand.size
  let sign := signStr fs.sign
  let outputExp := exponent + size - 1
  if fs.format = .exp ∨
      fs.format = .general ∧ (outputExp < -4 ∨ outputExp ≥ if fs.precision > 0 then fs.precision else 16) then
    let numZeros := if fs.showpoint then (fs.precision - size).toNat else 0
    let point : Bool := fs.showpoint || size ≠ 1
    let expDigits := if outputExp.natAbs ≥ 100 then if outputExp.natAbs ≥ 1000 then 4 else 3 else 2
    let width := size + sign.length + numZeros + (if point then 1 else 0) + 2 + expDigits
    let digits ← significand.writePoint size 1 point
    let e ← writeExponent outputExp
    let text := sign ++ digits ++ List.replicate numZeros '0' ++ (if fs.upper then 'E' else 'e') :: e
    .ok (if sp.width > 0 then writePadded true sp width text else text)
  else
    let exp := exponent + size
    if exponent ≥ 0 then
      let numZeros := (fs.precision - exp).toNat
      let width := size + sign.length + exponent.toNat + if fs.showpoint then 1 + numZeros else 0
      let digits ← significand.write size
      .ok (writePadded true sp width (sign ++ digits ++ List.replicate exponent.toNat '0' ++
        if fs.showpoint then '.' :: List.replicate numZeros '0' else []))
    else if exp > 0 then
      let numZeros := if fs.showpoint then (fs.precision - size).toNat else 0
      let width := size + sign.length + 1 + numZeros
      let digits ← significand.writePoint size exp.toNat true
      .ok (writePadded true sp width (sign ++ digits ++ List.replicate numZeros '0'))
    else
      let numZeros := -exp
      let numZeros := if size = 0 ∧ fs.precision ≥ 0 ∧ fs.precision < numZeros then fs.precision else numZeros
      let pointy : Bool := numZeros ≠ 0 || size ≠ 0 || fs.showpoint
      let width := size + sign.length + 1 + (if pointy then 1 else 0) + numZeros.toNat
      let digits ← significand.write size
      .ok (writePadded true sp width (sign ++ '0' ::
        if pointy then '.' :: List.replicate numZeros.toNat '0' ++ digits else []))

/-- the bits of a number without the sign bit -/
def magBits (F : Flt) (bits : Nat) : Nat := bits % 2 ^ (F.sigBits + F.expBits)

/-- `signbit`, format.h 3039-3050 -/
def signbit (F : Flt) (bits : Nat) : Bool := bits / 2 ^ (F.sigBits + F.expBits) % 2 = 1

/-- whether the exponent bits are all set, format.h 3971-3972 -/
def nonfinite (F : Flt) (bits : Nat) : Bool :=
  (magBits F bits &&& (2 ^ F.expBits - 1) * 2 ^ F.sigBits) = (2 ^ F.expBits - 1) * 2 ^ F.sigBits

/-- `std::isnan` of a number that is not finite -/
def isnan (F : Flt) (bits : Nat) : Bool := magBits F bits % 2 ^ F.sigBits ≠ 0

/-- `write` of a `float` or `double` without specs, format.h 3955-3977; `write_float`, format.h 2991-3011, only chooses
the digit grouping -/
def writeFloatDefault (F : Flt) (bits : Nat) : Res Str := do
  let fs : FloatSpecs := { sign := if signbit F bits then .minus else .none }
  if nonfinite F bits then .ok (writeNonfinite (isnan F bits) {} fs)
  else
    let dec ← toDecimal F (magBits F bits)
    doWriteFloat (.uint F.w dec.significand) dec.exponent {} fs

end Fmt
end Efp
