import Verif.Fmt.Buffer

/-!
# Model of `format_int` (include/efp/fmt/format.h 4313-4384)
-/

namespace Efp
namespace Fmt

/-- `buffer_size`, format.h 4319: `digits10` of `unsigned long long` is 19 -/
def fiBufferSize : Nat := 19 + 3

/-- `format_int`, format.h 4321-4322: `buffer_` and the offset of `str_` in it -/
structure FormatInt where
  buffer : Cells
  str : Nat

namespace FormatInt

/-- `format_unsigned`, format.h 4324-4328, for an unsigned integer type of `w` bits, with the assertion of
`format_decimal`, format.h 1470: the digits are written backwards from the last byte but one -/
def formatUnsigned (w value : Nat) : Res FormatInt := do
  let count ← countDigits w value
  if fiBufferSize - 1 < count then .ub else pure ()
  let (room, text) ← formatDecimalLoop 64 (fiBufferSize - 1) value []
  .ok ⟨List.replicate room none ++ text.map some ++ [none], room⟩

/-- `format_signed`, format.h 4330-4340, for an integer type of `w` bits; a write before the buffer is `ub` -/
def formatSigned (w : Nat) (value : Int) : Res FormatInt := do
  let abs := (value % 2 ^ w).toNat
  let negative := value < 0
  let abs := if negative then (2 ^ w - abs) % 2 ^ w else abs
  let f ← formatUnsigned w abs
  if negative then
    if f.str = 0 then .ub else .ok ⟨f.buffer.set (f.str - 1) (some '-'), f.str - 1⟩
  else .ok f

/-- the constructors, format.h 4343-4353: `int` and `unsigned` have 32 bits, the others 64 -/
def make : Arg → Res FormatInt
  | .int v => formatSigned 32 v
  | .longLong v => formatSigned 64 v
  | .uint v => formatUnsigned 32 v
  | .ulongLong v => formatUnsigned 64 v
  | _ => .ub

/-- `size`, format.h 4356-4358 -/
def size (f : FormatInt) : Nat := fiBufferSize - 1 - f.str

/-- the bytes from `data()`, format.h 4364-4366; `none` if one of the first `size()` of them has no value -/
def data (f : FormatInt) : Option Str := ((f.buffer.drop f.str).take f.size).mapM id

/-- the bytes from `c_str()`, format.h 4372-4375, to the end of the buffer; `none` if one of them has no value -/
def cStr (f : FormatInt) : Option Str := ((f.buffer.set (fiBufferSize - 1) (some (Char.ofNat 0))).drop f.str).mapM id

/-- `str()`, format.h 4382-4384: the constructor of `efp::String` copies `size()` bytes -/
def toStr (f : FormatInt) : Option Str := f.data

end FormatInt

end Fmt
end Efp
