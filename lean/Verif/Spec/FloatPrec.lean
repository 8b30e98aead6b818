import Verif.Spec.Float
import Verif.Spec.Fmt
import Verif.Spec.FmtGrammar

/-!
# Specification: decimal texts of numbers rounded to a given precision, as in `printf`
-/

namespace Efp
namespace Spec

open _root_.Efp.Fmt (Str)

/-- `n` is `q` rounded to an integer, to the nearest one and to the even one of two -/
def IsRoundEven (q : ℚ) (n : Nat) : Prop := |q - n| ≤ 1 / 2 ∧ (|q - n| = 1 / 2 → n % 2 = 0)

/-- the decimal exponent of `q`, that of its first digit -/
def IsExp10 (q : ℚ) (k : Int) : Prop := 10 ^ k ≤ q ∧ q < 10 ^ (k + 1)

/-- `q > 0` rounded to `p + 1` significant digits is `n * 10 ^ (x - p)`, where `n` has `p + 1` digits: `x` is the decimal
exponent of `q`, or the next one when rounding takes it up to a power of 10 -/
def IsRounded (q : ℚ) (p n : Nat) (x : Int) : Prop :=
  10 ^ p ≤ n ∧ n < 10 ^ (p + 1) ∧
  ∃ k n', IsExp10 q k ∧ IsRoundEven (q / 10 ^ (k - p)) n' ∧ (n * 10 ^ (x - p) : ℚ) = n' * 10 ^ (k - p)

/-- fixed notation of `n / 10 ^ p` with `p` digits after the point; `alt` keeps the point when there are none -/
def fixedText (n p : Nat) (alt : Bool) : Str :=
  let ds := List.replicate (p + 1 - digitCount n) '0' ++ Nat.toDigits 10 n
  ds.take (ds.length - p) ++ if p = 0 ∧ alt = false then [] else '.' :: ds.drop (ds.length - p)

/-- scientific notation of the digits `ds` with the decimal exponent `x` of the first one; `alt` keeps the point when
there is only one -/
def expText (mark : Char) (ds : Str) (x : Int) (alt : Bool) : Str :=
  ds.take 1 ++ (if ds.length = 1 ∧ alt = false then [] else '.' :: ds.drop 1) ++ mark :: exponentText x

/-- `ds` without the zeros at its end -/
def dropTrailing (ds : Str) : Str := (ds.reverse.dropWhile (· = '0')).reverse

/-- the shorter of fixed and scientific notation of the digits `ds`, of which there are `p`, with the decimal exponent
`x` of the first one: zeros at the end of a fraction are left out unless `alt` is given -/
def generalText (mark : Char) (ds : Str) (x : Int) (p : Nat) (alt : Bool) : Str :=
  let ds' := if alt then ds else dropTrailing ds
  if -4 ≤ x ∧ x < p then
    positional ds' (x + 1 - ds'.length) ++ if alt = true ∧ x + 1 = p then ['.'] else []
  else expText mark ds' x alt

/-- `text` is `q` in fixed notation with `p` digits after the point -/
def IsFixed (q : ℚ) (p : Nat) (alt : Bool) (text : Str) : Prop :=
  ∃ n, IsRoundEven (q * 10 ^ p) n ∧ text = fixedText n p alt

/-- `text` is `q` in scientific notation with `p` digits after the point -/
def IsScientific (mark : Char) (q : ℚ) (p : Nat) (alt : Bool) (text : Str) : Prop :=
  q = 0 ∧ text = expText mark (List.replicate (p + 1) '0') 0 alt ∨
  0 < q ∧ ∃ n x, IsRounded q p n x ∧ text = expText mark (Nat.toDigits 10 n) x alt

/-- `text` is `q` in general notation with `p ≥ 1` significant digits -/
def IsGeneral (mark : Char) (q : ℚ) (p : Nat) (alt : Bool) (text : Str) : Prop :=
  q = 0 ∧ text = fixedText 0 (if alt then p - 1 else 0) alt ∨
  0 < q ∧ ∃ n x, IsRounded q (p - 1) n x ∧ text = generalText mark (Nat.toDigits 10 n) x p alt

/-- the decimal `n * 10 ^ E` with options but without type and precision; `alt` keeps the point -/
def shortText (n : Nat) (E : Int) (alt : Bool) : Str :=
  let ds := Nat.toDigits 10 n
  let k := E + ds.length - 1
  if -4 ≤ k ∧ k < 16 then positional ds E ++ if alt = true ∧ 0 ≤ E then ['.'] else [] else expText 'e' ds k alt

/-! ## Hexadecimal notation -/

/-- `n` in hexadecimal with at least `w` digits -/
def hexDigits (upper : Bool) (w n : Nat) : Str :=
  if upper then (Spec.Fmt.hex w n).map Char.toUpper else Spec.Fmt.hex w n

/-- hexadecimal notation of the digits `ds` with the binary exponent `e`; `alt` keeps the point when there is only one
digit -/
def hexText (upper : Bool) (ds : Str) (e : Int) (alt : Bool) : Str :=
  '0' :: (if upper then 'X' else 'x') :: ds.take 1 ++ (if ds.length = 1 ∧ alt = false then [] else '.' :: ds.drop 1) ++
    (if upper then 'P' else 'p') :: (if e < 0 then '-' else '+') :: Nat.toDigits 10 e.natAbs

/-- the binary exponent of `q` as a `double`: at least -1022 -/
def IsExp2 (q : ℚ) (e : Int) : Prop := -1022 ≤ e ∧ q < 2 ^ (e + 1) ∧ (2 ^ e ≤ q ∨ e = -1022)

/-- `n` is `q` rounded to the nearest integer, to the greater one of two -/
def IsRoundUp (q : ℚ) (n : Nat) : Prop := n ≤ q + 1 / 2 ∧ q + 1 / 2 < n + 1

/-- `text` is `q` in hexadecimal notation: all its digits after the point but zeros at the end, or the number of digits
asked for -/
def IsHex (upper : Bool) (q : ℚ) (prec : Int) (alt : Bool) (text : Str) : Prop :=
  ∃ (e : Int) (n : Nat), IsExp2 q e ∧
    (prec < 0 ∧ q = n * 2 ^ (e - 52) ∧ n < 16 ^ 14 ∧
        text = hexText upper ((hexDigits upper 14 n).take 1 ++ dropTrailing ((hexDigits upper 14 n).drop 1)) e alt ∨
      0 ≤ prec ∧ IsRoundUp (q / 2 ^ (e - 4 * prec)) n ∧ n < 16 ^ (prec.toNat + 1) ∧
        text = hexText upper (hexDigits upper (prec.toNat + 1) n) e alt)

/-- a hexadecimal digit -/
def IsXdigit (c : Char) : Prop := c.isDigit = true ∨ 'a' ≤ c ∧ c ≤ 'f' ∨ 'A' ≤ c ∧ c ≤ 'F'

/-- `s` is a hexadecimal floating-point numeral of C++ with the value `q`: one digit, perhaps a point followed by more
digits, and a binary exponent -/
def IsHexNumeral (upper : Bool) (s : Str) (q : ℚ) : Prop :=
  ∃ d ds point expo e, s = '0' :: (if upper then 'X' else 'x') :: d :: (point ++ ds ++ expo) ∧
    (point = [] ∧ ds = [] ∨ point = ['.']) ∧ (∀ c ∈ d :: ds, IsXdigit c) ∧
    expo ≠ [] ∧ IsExponent (if upper then 'P' else 'p') expo e ∧
    q = Spec.Fmt.readNat 16 (d :: ds) * 2 ^ (e - 4 * ds.length)

/-! ## Fields -/

/-- the precision asked for, 6 if there is none -/
def precOr6 (p : Int) : Nat := if p < 0 then 6 else p.toNat

/-- the sign in front of a number -/
def floatSign (neg : Bool) : Fmt.Sign → Str
  | .plus => if neg then ['-'] else ['+']
  | .space => if neg then ['-'] else [' ']
  | _ => if neg then ['-'] else []

/-- a number in its field: the zero flag puts the fill behind the sign -/
def placed (sp : Fmt.Specs) (sign body : Str) : Str :=
  if sp.align = .numeric then sign ++ Spec.Fmt.pad true { sp with width := sp.width - sign.length } body.length body
  else Spec.Fmt.pad true sp (sign ++ body).length (sign ++ body)

end Spec
end Efp
