import Verif.Fmt.Parse
import Mathlib.Algebra.Order.Field.Rat
import Mathlib.Algebra.Order.Field.Basic

/-!
# Specification: binary floating-point formats and decimal texts

The formats are those of IEEE 754 and the numerals those of C++; nothing here mentions the library.
-/

namespace Efp
namespace Spec

open Fmt (Str)

/-- An IEEE 754 binary interchange format: the stored bits of the significand and the bits of the exponent. -/
structure Format where
  sig : Nat
  expo : Nat

/-- `float` -/
def binary32 : Format := ⟨23, 8⟩

/-- `double` -/
def binary64 : Format := ⟨52, 11⟩

/-- the exponent bias -/
def Format.bias (F : Format) : Int := 2 ^ (F.expo - 1) - 1

/-- The bits below the sign, `m`, are the stored significand and, above it, the biased exponent. -/
def Format.frac (F : Format) (m : Nat) : Nat := m % 2 ^ F.sig

@[inherit_doc Format.frac]
def Format.biased (F : Format) (m : Nat) : Nat := m / 2 ^ F.sig

/-- the largest biased exponent marks infinities and NaNs -/
def Format.Finite (F : Format) (m : Nat) : Prop := F.biased m < 2 ^ F.expo - 1

/-- The number with the bits `m` below the sign: subnormal when the biased exponent is 0, normal otherwise.  The scale
goes on beyond the largest exponent, as rounding does before the check for overflow. -/
def Format.mag (F : Format) (m : Nat) : ℚ :=
  if F.biased m = 0 then F.frac m * 2 ^ (1 - F.bias - F.sig)
  else (2 ^ F.sig + F.frac m) * 2 ^ (F.biased m - F.bias - F.sig)

/-- The number `q ≥ 0` is converted to the bits `m` by rounding to the nearest value, ties to even, without overflow. -/
def Format.Rounds (F : Format) (q : ℚ) (m : Nat) : Prop :=
  F.Finite m ∧ ∀ m', m' ≠ m → |q - F.mag m| < |q - F.mag m'| ∨ (|q - F.mag m| = |q - F.mag m'| ∧ m % 2 = 0)

/-- the number of decimal digits of `n` -/
def digitCount (n : Nat) : Nat := (Nat.toDigits 10 n).length

/-- `n * 10 ^ E` is the shortest decimal converted to the bits `m`, and the one closest to their value among the
shortest; between two equally close ones `n` is even. -/
def Format.Shortest (F : Format) (m n : Nat) (E : Int) : Prop :=
  F.Rounds (n * 10 ^ E) m ∧
  ∀ (n' : Nat) (E' : Int), n' ≠ 0 → F.Rounds (n' * 10 ^ E') m → digitCount n ≤ digitCount n' ∧
    (digitCount n' = digitCount n →
      |(n * 10 ^ E : ℚ) - F.mag m| ≤ |(n' * 10 ^ E' : ℚ) - F.mag m| ∧
      (|(n * 10 ^ E : ℚ) - F.mag m| = |(n' * 10 ^ E' : ℚ) - F.mag m| →
        (n' * 10 ^ E' : ℚ) = n * 10 ^ E ∨ n % 2 = 0))

/-- a non-empty text of decimal digits -/
def IsDigits (s : Str) : Prop := s ≠ [] ∧ ∀ c ∈ s, c.isDigit = true

/-- the number a text of decimal digits denotes -/
def digitsValue (s : Str) : Nat := s.foldl (fun v c => v * 10 + (c.toNat - 48)) 0

/-- `s` is the exponent part of a numeral, with the value `e` -/
def IsExponent (mark : Char) (s : Str) (e : Int) : Prop :=
  (s = [] ∧ e = 0) ∨
  ∃ ds, IsDigits ds ∧ (s = mark :: '+' :: ds ∧ e = digitsValue ds ∨ s = mark :: '-' :: ds ∧ e = -digitsValue ds)

/-- `s` is an unsigned decimal numeral with the value `q`: digits, perhaps a point followed by more digits, perhaps an
exponent -/
def IsNumeral (mark : Char) (s : Str) (q : ℚ) : Prop :=
  ∃ whole fraction expo e, s = whole ++ fraction ++ expo ∧ IsDigits whole ∧ IsExponent mark expo e ∧
    (fraction = [] ∧ q = digitsValue whole * 10 ^ e ∨
      ∃ ds, IsDigits ds ∧ fraction = '.' :: ds ∧ q = digitsValue (whole ++ ds) * 10 ^ (e - ds.length))

/-- an exponent: its sign and at least two digits -/
def exponentText (k : Int) : Str :=
  (if k < 0 then '-' else '+') :: (if k.natAbs < 10 then ['0'] else []) ++ Nat.toDigits 10 k.natAbs

/-- scientific notation of the digits `ds` with the decimal exponent `k` of the first one -/
def scientific (mark : Char) (ds : Str) (k : Int) : Str :=
  ds.take 1 ++ (if ds.length = 1 then [] else '.' :: ds.drop 1) ++ mark :: exponentText k

/-- positional notation of the digits `ds` times `10 ^ E` -/
def positional (ds : Str) (E : Int) : Str :=
  if 0 ≤ E then ds ++ List.replicate E.toNat '0'
  else if 0 < E + ds.length then ds.take (E + ds.length).toNat ++ '.' :: ds.drop (E + ds.length).toNat
  else '0' :: '.' :: List.replicate (-E - ds.length).toNat '0' ++ ds

/-- the decimal `n * 10 ^ E` in a bare `{}`: positional from 0.0001 to below 10 ^ 16, scientific otherwise -/
def plainText (n : Nat) (E : Int) : Str :=
  let ds := Nat.toDigits 10 n
  let k := E + ds.length - 1
  if -4 ≤ k ∧ k < 16 then positional ds E else scientific 'e' ds k

end Spec
end Efp
