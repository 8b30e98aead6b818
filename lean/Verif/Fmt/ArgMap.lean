import Verif.Fmt.Format

/-!
# Model of `arg_mapper` and of `basic_string_view` (include/efp/fmt/core.h)
-/

namespace Efp
namespace Fmt

/-- the integer types of a caller on a platform with 64-bit `long` -/
inductive CInt
  | schar | uchar | short | ushort | int | uint | long | ulong | llong | ullong | int128 | uint128
  deriving DecidableEq, Repr

/-- the conversion of an integer to a signed type of `w` bits -/
def toSigned (w : Nat) (v : Int) : Int :=
  let r := v % 2 ^ w
  if r < 2 ^ (w - 1) then r else r - 2 ^ w

/-- the conversion of an integer to an unsigned type of `w` bits -/
def toUnsigned (w : Nat) (v : Int) : Nat := (v % 2 ^ w).toNat

/-- what a caller passes to `format` -/
inductive Passed
  | integer (t : CInt) (v : Int)
  | bool (v : Bool)
  | char (c : Char)
  /-- a `char*`, a `const char*` or an array of `char`, with the text up to the first zero byte -/
  | charPtr (addr : Nat) (s : Str)
  /-- an `efp::String` or a `string_view` -/
  | string (s : Str)
  /-- a `void*`, a `const void*` or `nullptr` -/
  | pointer (addr : Nat)
  /-- an object of a class or enumeration with a `format_as` that returns the given integer; `std::byte` is one, core.h
  301-304 -/
  | formatAs (t : CInt) (v : Int)
  /-- `efp_fmt::arg(name, value)`, core.h 2112-2116 -/
  | named (name : Str) (p : Passed)

/-- `arg_mapper::map` of an integer, core.h 1523-1569: `long_type` is `long long`, core.h 1496-1499 -/
def mapInt : CInt → Int → Arg
  | .schar, v => .int (toSigned 32 v)
  | .uchar, v => .uint (toUnsigned 32 v)
  | .short, v => .int (toSigned 32 v)
  | .ushort, v => .uint (toUnsigned 32 v)
  | .int, v => .int (toSigned 32 v)
  | .uint, v => .uint (toUnsigned 32 v)
  | .long, v => .longLong (toSigned 64 v)
  | .ulong, v => .ulongLong (toUnsigned 64 v)
  | .llong, v => .longLong (toSigned 64 v)
  | .ullong, v => .ulongLong (toUnsigned 64 v)
  | .int128, v => .int128 (toSigned 128 v)
  | .uint128, v => .uint128 (toUnsigned 128 v)

/-- `arg_mapper::map`, core.h 1523-1703, and the constructors of `value`, core.h 1427-1462 -/
def argMap : Passed → Arg
  | .integer t v => mapInt t v
  | .bool v => .bool v
  | .char c => .char c
  | .charPtr addr s => .cstring addr s
  | .string s => .string s
  | .pointer addr => .pointer addr
  | .formatAs t v => mapInt t v
  | .named _ p => argMap p

/-- the name of an argument, core.h 1342-1352 -/
def argName : Passed → Option Str
  | .named name _ => some name
  | _ => none

/-- `make_format_args`, core.h 2097-2099, of what the caller passes -/
def passedArgs (l : List Passed) : List (Option Str × Arg) := l.map fun p => (argName p, argMap p)

namespace View

/-- `std::char_traits<char>::compare` of the first `n` bytes, which it compares as `unsigned char` values; only the sign
of the result is specified, here it is -1, 0 or 1.  Reading past the end of a text is `none`. -/
def traitsCompare : Nat → Str → Str → Option Int
  | 0, _, _ => some 0
  | n + 1, c :: a, d :: b => if c.toNat < d.toNat then some (-1) else if d.toNat < c.toNat then some 1 else traitsCompare n a b
  | _ + 1, _, _ => none

/-- `basic_string_view::compare`, core.h 494-500 -/
def compare (a b : Str) : Option Int := do
  let n := if a.length < b.length then a.length else b.length
  let result ← traitsCompare n a b
  if result = 0 then some (if a.length = b.length then 0 else if a.length < b.length then -1 else 1) else some result

/-- `operator==`, core.h 502-505 -/
def eq (a b : Str) : Option Bool := (compare a b).map fun r => decide (r = 0)

/-- `operator!=`, core.h 507-509 -/
def ne (a b : Str) : Option Bool := (compare a b).map fun r => decide (r ≠ 0)

/-- `operator<`, core.h 511-513 -/
def lt (a b : Str) : Option Bool := (compare a b).map fun r => decide (r < 0)

/-- `operator<=`, core.h 515-517 -/
def le (a b : Str) : Option Bool := (compare a b).map fun r => decide (r ≤ 0)

/-- `operator>`, core.h 519-521 -/
def gt (a b : Str) : Option Bool := (compare a b).map fun r => decide (r > 0)

/-- `operator>=`, core.h 523-525 -/
def ge (a b : Str) : Option Bool := (compare a b).map fun r => decide (r ≥ 0)

/-- `starts_with` of a view, core.h 481-483 -/
def startsWith (a b : Str) : Option Bool :=
  if a.length ≥ b.length then (traitsCompare b.length a b).map fun r => decide (r = 0) else some false

/-- `starts_with` of a character, core.h 485-487 -/
def startsWithChar (a : Str) (c : Char) : Option Bool :=
  if a.length ≥ 1 then a.head?.map fun d => decide (d = c) else some false

/-- `remove_prefix`, core.h 476-479; more than the size is undefined -/
def removePrefix (n : Nat) (a : Str) : Option Str := if n ≤ a.length then some (a.drop n) else none

end View

end Fmt
end Efp
