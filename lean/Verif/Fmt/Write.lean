import Verif.Fmt.Escape

/-!
# Model of the writers of the bundled formatting library (include/efp/fmt/format.h): integers, characters, strings,
booleans, pointers and padding

A writer returns the text it appends to the output.  The space that `reserve` and `to_pointer` set aside is modelled
with the buffer (`Verif.Fmt.Buffer`); here only its use is: digits written outside the space that was counted are
`ub`, and so is counted space left unwritten.
-/

namespace Efp
namespace Fmt

/-- `digits2`, format.h 1263-1270 -/
def digits2 (value : Nat) : Str :=
  (("0001020304050607080910111213141516171819" ++ "2021222324252627282930313233343536373839"
    ++ "4041424344454647484950515253545556575859" ++ "6061626364656667686970717273747576777879"
    ++ "8081828384858687888990919293949596979899").toList.drop (value * 2)).take 2

/-- `count_digits_fallback`, format.h 1282-1299; `fuel` bounds the number of turns -/
def countDigitsFallback : (fuel n count : Nat) → Res Nat
  | 0, _, _ => .ub
  | fuel + 1, n, count =>
    if n < 10 then .ok count
    else if n < 100 then .ok (count + 1)
    else if n < 1000 then .ok (count + 2)
    else if n < 10000 then .ok (count + 3)
    else countDigitsFallback fuel (n / 10000) (count + 4)

/-- `bsr2log10`, format.h 1314-1318 -/
def bsr2log10 : List Nat :=
  [1, 1, 1, 2, 2, 2, 3, 3, 3, 4, 4, 4, 4, 5, 5, 5, 6, 6, 6, 7, 7, 7, 7, 8, 8, 8, 9, 9, 9, 10, 10, 10, 10, 11, 11, 11,
   12, 12, 12, 13, 13, 13, 13, 14, 14, 14, 15, 15, 15, 16, 16, 16, 16, 17, 17, 17, 18, 18, 18, 19, 19, 19, 19, 20]

/-- `zero_or_powers_of_10`, format.h 1320-1321 -/
def zeroOrPowersOf10 : List Nat :=
  [0, 0, 10, 100, 1000, 10000, 100000, 1000000, 10000000, 100000000, 1000000000, 10000000000, 100000000000,
   1000000000000, 10000000000000, 100000000000000, 1000000000000000, 10000000000000000, 100000000000000000,
   1000000000000000000, 10000000000000000000]

/-- `do_count_digits(uint64_t)`, format.h 1309-1323; `clzll(n | 1) ^ 63` is the index of the highest bit.  Reading
outside a table is `ub`. -/
def countDigits64 (n : Nat) : Res Nat :=
  match bsr2log10[(n ||| 1).log2]? with
  | none => .ub
  | some t =>
    match zeroOrPowersOf10[t]? with
    | none => .ub
    | some p => .ok (t - if n < p then 1 else 0)

/-- the arguments of `EFP_FMT_INC` with the lengths of their texts, format.h 1361-1373 -/
def incArgs : List (Nat × Nat) :=
  [(0, 1), (0, 1), (0, 1), (10, 2), (10, 2), (10, 2), (100, 3), (100, 3), (100, 3), (1000, 4), (1000, 4), (1000, 4),
   (10000, 5), (10000, 5), (10000, 5), (100000, 6), (100000, 6), (100000, 6), (1000000, 7), (1000000, 7), (1000000, 7),
   (10000000, 8), (10000000, 8), (10000000, 8), (100000000, 9), (100000000, 9), (100000000, 9), (1000000000, 10),
   (1000000000, 10), (1000000000, 10), (1000000000, 10), (1000000000, 10)]

/-- `do_count_digits(uint32_t)`, format.h 1357-1377, in 64-bit arithmetic -/
def countDigits32 (n : Nat) : Res Nat :=
  match incArgs[(n ||| 1).log2]? with
  | none => .ub
  | some (t, len) => .ok (((n + (len <<< 32 + 2 ^ 64 - t) % 2 ^ 64) % 2 ^ 64) >>> 32)

/-- `count_digits` of an unsigned integer type with `w` bits, format.h 1301-1303, 1328-1335 and 1380-1387 -/
def countDigits (w n : Nat) : Res Nat :=
  if w ≤ 32 then countDigits32 n else if w ≤ 64 then countDigits64 n else countDigitsFallback 10 n 1

/-- the lambda of `count_digits<BITS>`, format.h 1345-1351; `fuel` bounds the number of turns -/
def countDigitsLoop (bits : Nat) : (fuel m numDigits : Nat) → Res Nat
  | 0, _, _ => .ub
  | fuel + 1, m, k =>
    if m >>> bits ≠ 0 then countDigitsLoop bits fuel (m >>> bits) (k + 1) else .ok (k + 1)

/-- `count_digits<BITS>`, format.h 1339-1352 -/
def countDigitsBits (bits w n : Nat) : Res Nat :=
  if w = 32 then .ok ((n ||| 1).log2 / bits + 1) else countDigitsLoop bits w n 0

/-- the body of `format_decimal`, format.h 1473-1486: `room` bytes of the buffer are left before `out`; the bytes left
at the end and the text written.  A write before the buffer is `ub`; `fuel` bounds the number of turns. -/
def formatDecimalLoop : (fuel room value : Nat) → (acc : Str) → Res (Nat × Str)
  | 0, _, _, _ => .ub
  | fuel + 1, room, value, acc =>
    if value ≥ 100 then
      if room < 2 then .ub else formatDecimalLoop fuel (room - 2) (value / 100) (digits2 (value % 100) ++ acc)
    else if value < 10 then
      if room < 1 then .ub else .ok (room - 1, Char.ofNat (48 + value) :: acc)
    else if room < 2 then .ub
    else .ok (room - 2, digits2 value ++ acc)

/-- `digits10<UInt>() + 1` for an unsigned integer type with `w` bits, format.h 1389-1402 -/
def decimalRoom (w : Nat) : Nat := if w ≤ 32 then 10 else if w ≤ 64 then 20 else 39

/-- `format_decimal`, format.h 1468-1501, with `size` the counted number of digits: into the output when it has room,
or through a local buffer of `digits10 + 1` bytes.  All counted bytes must be written. -/
def formatDecimal (w value size : Nat) : Res Str := do
  if decimalRoom w < size then .ub else pure ()
  let (room, text) ← formatDecimalLoop 64 size value []
  if room = 0 then .ok text else .ub

/-- `format_uint`, format.h 1504-1528, as `formatDecimal` -/
def formatUint (bits w value numDigits : Nat) (upper : Bool) : Res Str := do
  if w / bits + 1 < numDigits then .ub else pure ()
  let (room, text) ← formatUintLoop bits upper numDigits value []
  if room = 0 then .ok text else .ub

/-- `fill`, format.h 1922-1931: `fill_n` of the one byte, or copies of the whole fill -/
def fillStr (n : Nat) (fill : Str) : Str := (List.replicate n fill).flatten

/-- the index of `specs.align` in `shifts`, core.h 2258-2260 -/
def Align.index : Align → Nat
  | .none => 0 | .left => 1 | .right => 2 | .center => 3 | .numeric => 4

/-- `shifts`, format.h 1945, with the terminating zero of the literal -/
def shifts (right : Bool) : List Nat := if right then [0x00, 0x1f, 0x00, 0x01, 0] else [0x1f, 0x1f, 0x00, 0x01, 0]

/-- `write_padded`, format.h 1936-1961, of the text `body` whose width is said to be `width`; `right` is the default
alignment -/
def writePadded (right : Bool) (sp : Specs) (width : Nat) (body : Str) : Str :=
  let padding := if sp.width > width then sp.width - width else 0
  let left := padding >>> (shifts right).getD sp.align.index 0
  fillStr left sp.fill ++ body ++ fillStr (padding - left) sp.fill

/-- `write_ptr`, format.h 1973-1983, for 64-bit addresses with specs -/
def writePtr (value : Nat) (sp : Specs) : Res Str := do
  let n ← countDigitsBits 4 64 value
  let text ← formatUint 4 64 value n false
  .ok (writePadded true sp (n + 2) ('0' :: 'x' :: text))

/-- `write_char`, format.h 2146-2156: the width is taken to be 1, for a debug presentation too -/
def writeChar (value : Char) (sp : Specs) : Res Str := do
  let body ← if sp.type = .debug then writeEscapedChar value else .ok [value]
  .ok (writePadded false sp 1 body)

/-- the bytes of a prefix, format.h 2205-2206 and 2212-2213; `fuel` bounds the number of turns (three bytes at most) -/
def prefixBytes : (fuel p : Nat) → Str
  | 0, _ => []
  | fuel + 1, p => if p ≠ 0 then Char.ofNat (p &&& 0xff) :: prefixBytes fuel (p >>> 8) else []

/-- `write_int_data`, format.h 2170-2187: size and padding -/
def writeIntData (numDigits pre : Nat) (sp : Specs) : Nat × Nat :=
  if sp.align = .numeric then
    if sp.width > pre >>> 24 + numDigits then (sp.width, sp.width - (pre >>> 24 + numDigits))
    else (pre >>> 24 + numDigits, 0)
  else if sp.precision > numDigits then
    (pre >>> 24 + sp.precision.toNat, (sp.precision - numDigits).toNat)
  else (pre >>> 24 + numDigits, 0)

/-- `write_int` over a digit writer, format.h 2194-2217 -/
def writeIntDigits (numDigits pre : Nat) (sp : Specs) (digits : Str) : Str :=
  if sp.width = 0 ∧ sp.precision = -1 then
    (if pre ≠ 0 then prefixBytes 4 (pre &&& 0xffffff) else []) ++ digits
  else
    writePadded true sp (writeIntData numDigits pre sp).1
      (prefixBytes 4 (pre &&& 0xffffff) ++ (List.replicate (writeIntData numDigits pre sp).2 '0' ++ digits))

/-- `prefix_append`, format.h 2331-2334, on 32-bit `unsigned` -/
def prefixAppend (pre value : Nat) : Nat :=
  ((pre ||| if pre ≠ 0 then value <<< 8 % 2 ^ 32 else value) + (1 + if value > 0xff then 1 else 0) <<< 24) % 2 ^ 32

/-- `make_write_int_arg`, format.h 2343-2355: the absolute value, as an unsigned integer of `w` bits, and the prefix -/
def makeWriteIntArg (w : Nat) (value : Int) (sign : Sign) : Nat × Nat :=
  let abs := (value % 2 ^ w).toNat
  if value < 0 then ((2 ^ w - abs) % 2 ^ w, 0x01000000 ||| '-'.toNat)
  else (abs, match sign with
    | .none | .minus => 0
    | .plus => 0x1000000 ||| '+'.toNat
    | .space => 0x1000000 ||| ' '.toNat)

/-- `write_int` by presentation type, format.h 2386-2435, for a `w`-bit absolute value -/
def writeIntArg (w absValue pre : Nat) (sp : Specs) : Res Str :=
  match sp.type with
  | .none | .dec => do
    let n ← countDigits w absValue
    let digits ← formatDecimal w absValue n
    .ok (writeIntDigits n pre sp digits)
  | .hexLower | .hexUpper => do
    let pre := if sp.alt then
      prefixAppend pre ((if sp.type = .hexUpper then 'X'.toNat else 'x'.toNat) <<< 8 ||| '0'.toNat) else pre
    let n ← countDigitsBits 4 w absValue
    let digits ← formatUint 4 w absValue n (sp.type = .hexUpper)
    .ok (writeIntDigits n pre sp digits)
  | .binLower | .binUpper => do
    let pre := if sp.alt then
      prefixAppend pre ((if sp.type = .binUpper then 'B'.toNat else 'b'.toNat) <<< 8 ||| '0'.toNat) else pre
    let n ← countDigitsBits 1 w absValue
    let digits ← formatUint 1 w absValue n false
    .ok (writeIntDigits n pre sp digits)
  | .oct => do
    let n ← countDigitsBits 3 w absValue
    let pre := if sp.alt ∧ sp.precision ≤ n ∧ absValue ≠ 0 then prefixAppend pre '0'.toNat else pre
    let digits ← formatUint 3 w absValue n false
    .ok (writeIntDigits n pre sp digits)
  | .chr => writeChar (Char.ofNat (absValue % 256)) sp
  | _ => .err "invalid format specifier"

/-- `write` of an integer of `w` bits with specs, format.h 2456-2460; `write_loc` returns false (the project defines
`EFP_FMT_STATIC_THOUSANDS_SEPARATOR`), so a localized integer is written as any other -/
def writeInt (w : Nat) (value : Int) (sp : Specs) : Res Str :=
  writeIntArg w (makeWriteIntArg w value sp.sign).1 (makeWriteIntArg w value sp.sign).2 sp

/-- `write` of an integer of `w` bits without specs, format.h 2572-2591 -/
def writeIntDefault (w : Nat) (value : Int) : Res Str := do
  let abs := (value % 2 ^ w).toNat
  let abs := if value < 0 then (2 ^ w - 1 - abs + 1) % 2 ^ w else abs
  let n ← countDigits w abs
  let digits ← formatDecimal w abs n
  .ok ((if value < 0 then ['-'] else []) ++ digits)

/-- `check_char_specs`, core.h 2893-2901 -/
def checkCharSpecs (sp : Specs) : Res Bool :=
  if sp.type ≠ .none ∧ sp.type ≠ .chr ∧ sp.type ≠ .debug then .ok false
  else if sp.align = .numeric ∨ sp.sign ≠ .none ∨ sp.alt = true then .err "invalid format specifier for char"
  else .ok true

/-- `write` of a `char` with specs, format.h 2158-2165 -/
def writeCharSpecs (value : Char) (sp : Specs) : Res Str := do
  if ← checkCharSpecs sp then writeChar value sp else writeInt 32 value.toNat sp

/-- `write` of a `bool` with specs, format.h 4021-4025 -/
def writeBool (value : Bool) (sp : Specs) : Res Str :=
  if sp.type ≠ .none ∧ sp.type ≠ .string then writeInt 32 (if value then 1 else 0) sp
  else
    let text := if value then "true".toList else "false".toList
    .ok (writePadded false sp text.length text)

/-- the size of the text that is kept, format.h 2527-2529 -/
def strSize (s : Str) (sp : Specs) : Res Nat :=
  if 0 ≤ sp.precision ∧ sp.precision.toNat < s.length then codePointIndex s sp.precision.toNat else .ok s.length

/-- the text that is written, format.h 2538-2542 -/
def strBody (s : Str) (sp : Specs) (size : Nat) : Res Str :=
  if sp.type = .debug then writeEscapedString s else .ok (s.take size)

/-- the width that is counted, format.h 2531-2537; for a debug presentation `write_escaped_string` counts bytes -/
def strWidth (s : Str) (sp : Specs) (size : Nat) : Res Nat :=
  if sp.width ≠ 0 then
    if sp.type = .debug then do
      let e ← writeEscapedString s
      .ok e.length
    else computeWidth (s.take size)
  else .ok 0

/-- `write` of a string view with specs, format.h 2522-2543 -/
def writeStr (s : Str) (sp : Specs) : Res Str := do
  let size ← strSize s sp
  let width ← strWidth s sp size
  let body ← strBody s sp size
  .ok (writePadded false sp width body)

end Fmt
end Efp
