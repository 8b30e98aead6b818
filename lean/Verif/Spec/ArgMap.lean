import Verif.Fmt.ArgMap
import Verif.Spec.Fmt

/-!
# Specification of what a caller passes to `format`
-/

namespace Efp
namespace Spec
namespace Fmt

open Efp.Fmt (CInt Str Passed)

/-- the least value of an integer type -/
def least : CInt → Int
  | .schar => -2 ^ 7 | .short => -2 ^ 15 | .int => -2 ^ 31 | .long | .llong => -2 ^ 63 | .int128 => -2 ^ 127
  | .uchar | .ushort | .uint | .ulong | .ullong | .uint128 => 0

/-- the greatest value of an integer type -/
def greatest : CInt → Int
  | .schar => 2 ^ 7 - 1 | .short => 2 ^ 15 - 1 | .int => 2 ^ 31 - 1 | .long | .llong => 2 ^ 63 - 1 | .int128 => 2 ^ 127 - 1
  | .uchar => 2 ^ 8 - 1 | .ushort => 2 ^ 16 - 1 | .uint => 2 ^ 32 - 1 | .ulong | .ullong => 2 ^ 64 - 1
  | .uint128 => 2 ^ 128 - 1

/-- the value passed is one of its type -/
def Fits : Passed → Prop
  | .integer t v | .formatAs t v => least t ≤ v ∧ v ≤ greatest t
  | .bool _ => True
  | .char c => c.toNat < 256
  | .charPtr addr s => addr < 2 ^ 64 ∧ Bytes s
  | .string s => Bytes s
  | .pointer addr => addr < 2 ^ 64
  | .named _ p => Fits p

/-- the text of what is passed, in a bare field: an integer of any type in decimal, an object with a `format_as` as what
that returns, a named argument as the argument; there is none for a null `char*` -/
def plainText : Passed → Option Str
  | .integer _ v | .formatAs _ v => some (showIntDefault v)
  | .bool v => some (if v then "true".toList else "false".toList)
  | .char c => some [c]
  | .charPtr addr s => if addr = 0 then none else some s
  | .string s => some s
  | .pointer addr => some ('0' :: 'x' :: Nat.toDigits 16 addr)
  | .named _ p => plainText p

/-- the number passed, of an integer or of what `format_as` returns -/
def number : Passed → Option Int
  | .integer _ v | .formatAs _ v => some v
  | .named _ p => number p
  | _ => none

/-- texts in the order of dictionaries, byte by byte -/
inductive Before : Str → Str → Prop
  | nil (c b) : Before [] (c :: b)
  | head {c d : Char} (a b) (h : c.toNat < d.toNat) : Before (c :: a) (d :: b)
  | tail (c) {a b} (h : Before a b) : Before (c :: a) (c :: b)

end Fmt
end Spec
end Efp
