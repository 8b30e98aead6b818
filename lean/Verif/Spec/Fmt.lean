import Verif.Fmt.Format

/-!
# Specification of the bundled formatting library

What `efp::format` should produce, stated without the library's parser, writers or tables.  The only things taken from
the model are its data types: byte strings, arguments (`Arg`) and the options of a replacement field (`Specs`).
Digits are Lean's `Nat.toDigits`, UTF-8 is Lean's `String.utf8EncodeChar`.
-/

namespace Efp
namespace Spec
namespace Fmt

open Efp.Fmt (Str Specs Arg Align Sign Pres Ty ArgRef)

/-- `n` copies of the fill -/
def copies (n : Nat) (fill : Str) : Str := (List.replicate n fill).flatten

/-- `body`, which takes `width` columns, padded to the field width.  Without an alignment it is placed right or left by
default; the zero flag (`numeric`) places it right. -/
def pad (rightByDefault : Bool) (sp : Specs) (width : Nat) (body : Str) : Str :=
  let missing := sp.width - width
  let left := match sp.align with
    | .left => 0
    | .right => missing
    | .numeric => missing
    | .center => missing / 2
    | .none => if rightByDefault then missing else 0
  copies left sp.fill ++ body ++ copies (missing - left) sp.fill

/-- the sign in front of an integer -/
def signText (v : Int) (s : Sign) : Str :=
  if v < 0 then ['-'] else if s = .plus then ['+'] else if s = .space then [' '] else []

/-- base, base prefix of the alternate form and letter case of an integer presentation -/
def baseOf (n : Nat) : Pres → Option (Nat × Str × Bool)
  | .none | .dec => some (10, [], false)
  | .hexLower => some (16, ['0', 'x'], false)
  | .hexUpper => some (16, ['0', 'X'], true)
  | .binLower => some (2, ['0', 'b'], false)
  | .binUpper => some (2, ['0', 'B'], false)
  | .oct => some (8, if n = 0 then [] else ['0'], false)
  | _ => none

/-- An integer: sign, base prefix, digits; the zero flag puts zeros between prefix and digits up to the width.  With
presentation `c` it is the character with that code (modulo 256, without sign). -/
def showInt (v : Int) (sp : Specs) : Option Str :=
  if sp.type = .chr then some (pad false sp 1 [Char.ofNat (v.natAbs % 256)])
  else do
    let (base, pre, upper) ← baseOf v.natAbs sp.type
    let digits := if upper then (Nat.toDigits base v.natAbs).map Char.toUpper else Nat.toDigits base v.natAbs
    let front := signText v sp.sign ++ if sp.alt then pre else []
    if sp.align = .numeric then
      some (front ++ List.replicate (sp.width - (front.length + digits.length)) '0' ++ digits)
    else some (pad true sp (front.length + digits.length) (front ++ digits))

/-- An integer in a bare `{}`. -/
def showIntDefault (v : Int) : Str := (if v < 0 then ['-'] else []) ++ Nat.toDigits 10 v.natAbs

/-! ## Texts as UTF-8 -/

/-- a text is a sequence of bytes -/
def Bytes (s : Str) : Prop := ∀ c ∈ s, c.toNat < 256

/-- the UTF-8 encoding of a character, one `Char` per byte; the encoder is that of the Lean library -/
def utf8 (c : Char) : Str := (String.utf8EncodeChar c).map fun b => Char.ofNat b.toNat

/-- the character whose encoding the text begins with, if there is one; the decoder is that of the Lean library -/
def firstChar (s : Str) : Option Char := ((s.map fun c => c.toNat.toUInt8).toByteArray).utf8DecodeChar? 0

/-- at most `n` pieces of the text: a piece is an encoded character or else a single stray byte -/
def piecesN : Nat → Str → List (Option Char × Str)
  | 0, _ => []
  | _, [] => []
  | n + 1, b :: r =>
    match firstChar (b :: r) with
    | some c => (some c, utf8 c) :: piecesN n ((b :: r).drop (utf8 c).length)
    | none => (none, [b]) :: piecesN n r

/-- the pieces of a text: the longest cut from the left into encoded characters and single stray bytes -/
def pieces (s : Str) : List (Option Char × Str) := piecesN s.length s

/-- visiting the pieces from left to right with a callback that may stop the visit: it is told the code point (`bad` for
a stray byte), the offset and the bytes of each piece -/
def visit {σ : Type} (bad : Nat) (f : Nat → Nat → Str → σ → Bool × σ) : Nat → List (Option Char × Str) → σ → σ
  | _, [], s => s
  | off, (c, t) :: ps, s =>
    let (go, s) := f (match c with | some c => c.toNat | none => bad) off t s
    if go then visit bad f (off + t.length) ps s else s

/-- the ranges of code points that take two columns -/
def wideRanges : List (Nat × Nat) :=
  [(0x1100, 0x115f), (0x2329, 0x232a), (0x2e80, 0x303e), (0x3040, 0xa4cf), (0xac00, 0xd7a3), (0xf900, 0xfaff),
    (0xfe10, 0xfe19), (0xfe30, 0xfe6f), (0xff00, 0xff60), (0xffe0, 0xffe6), (0x1f300, 0x1f64f), (0x1f900, 0x1f9ff),
    (0x20000, 0x2fffd), (0x30000, 0x3fffd)]

/-- the columns of a piece: two for a wide character, one for any other and for a stray byte -/
def pieceColumns : Option Char × Str → Nat
  | (some c, _) => if wideRanges.any fun r => r.1 ≤ c.toNat && c.toNat ≤ r.2 then 2 else 1
  | (none, _) => 1

/-- the columns of a sequence of pieces -/
def columns (ps : List (Option Char × Str)) : Nat := (ps.map pieceColumns).sum

/-- the bytes of a sequence of pieces -/
def join (ps : List (Option Char × Str)) : Str := (ps.map (·.2)).flatten

/-! ## Debug text -/

/-- at least `w` hexadecimal digits -/
def hex (w n : Nat) : Str := List.replicate (w - (Nat.toDigits 16 n).length) '0' ++ Nat.toDigits 16 n

/-- a piece inside a quoted text; `printable` says which characters are shown as they are -/
def escapePiece (printable : Nat → Bool) : Option Char × Str → Str
  | (none, t) => t.flatMap fun b => '\\' :: 'x' :: hex 2 b.toNat
  | (some c, t) =>
    if c = '\n' then ['\\', 'n'] else if c = '\r' then ['\\', 'r'] else if c = '\t' then ['\\', 't']
    else if c = '"' then ['\\', '"'] else if c = '\\' then ['\\', '\\']
    else if 0x20 ≤ c.toNat ∧ c.toNat ≠ 0x7f ∧ printable c.toNat = true then t
    else if c.toNat < 0x100 then '\\' :: 'x' :: hex 2 c.toNat
    else if c.toNat < 0x10000 then '\\' :: 'u' :: hex 4 c.toNat
    else '\\' :: 'U' :: hex 8 c.toNat

/-- a quoted text -/
def escape (printable : Nat → Bool) (s : Str) : Str := '"' :: (pieces s).flatMap (escapePiece printable) ++ ['"']

/-- a quoted byte: the quote that needs escaping is the single one; a byte above 127 is no character -/
def escapeByte (printable : Nat → Bool) (b : Char) : Str :=
  '\'' :: (if b = '\'' then ['\\', '\''] else if b = '"' then ['"']
    else escapePiece printable (if b.toNat < 128 then some b else none, [b])) ++ ['\'']

/-! ## Arguments -/

/-- A text: cut to the precision, counted in pieces, and padded by columns.  A debug text is quoted, its precision is
ignored and it is padded by bytes. -/
def showStr (printable : Nat → Bool) (s : Str) (sp : Specs) : Str :=
  if sp.type = .debug then pad false sp (escape printable s).length (escape printable s)
  else
    let kept := if 0 ≤ sp.precision then (pieces s).take sp.precision.toNat else pieces s
    pad false sp (columns kept) (join kept)

/-- A `char`: itself (one column, also when quoted), or its code for an integer presentation. -/
def showChar (printable : Nat → Bool) (c : Char) (sp : Specs) : Option Str :=
  if sp.type = .none ∨ sp.type = .chr ∨ sp.type = .debug then
    if sp.align = .numeric ∨ sp.sign ≠ .none ∨ sp.alt = true then none
    else some (pad false sp 1 (if sp.type = .debug then escapeByte printable c else [c]))
  else showInt c.toNat sp

/-- A `bool`: its name, or 0 or 1 for an integer presentation. -/
def showBool (v : Bool) (sp : Specs) : Option Str :=
  if sp.type = .none ∨ sp.type = .string then
    some (pad false sp (if v then 4 else 5) (if v then "true".toList else "false".toList))
  else showInt (if v then 1 else 0) sp

/-- A pointer: its address in base 16. -/
def showPtr (addr : Nat) (sp : Specs) : Str :=
  pad true sp (2 + (Nat.toDigits 16 addr).length) ('0' :: 'x' :: Nat.toDigits 16 addr)

/-- the result of a computation, if there is one -/
def okOnly {α : Type} : Efp.Fmt.Res α → Option α
  | .ok a => some a
  | _ => none

/-- An argument in a bare `{}`.  Floating-point values and values of user-defined types bring their own text. -/
def showDefault : Arg → Option Str
  | .int v | .longLong v | .int128 v => some (showIntDefault v)
  | .uint v | .ulongLong v | .uint128 v => some (showIntDefault v)
  | .bool v => some (if v then "true".toList else "false".toList)
  | .char c => some [c]
  | .float t _ | .double t _ | .longDouble t _ => okOnly t
  | .cstring addr s => if addr = 0 then none else some s
  | .string s => some s
  | .pointer addr => some ('0' :: 'x' :: Nat.toDigits 16 addr)
  | .custom f => (okOnly (f [] 0)).map (·.2.2)

/-- An argument with options; `none` where the options do not fit the argument.  (User-defined types read their own
options.) -/
def showSpecs (printable : Nat → Bool) (sp : Specs) : Arg → Option Str
  | .int v | .longLong v | .int128 v => showInt v sp
  | .uint v | .ulongLong v | .uint128 v => showInt v sp
  | .bool v => showBool v sp
  | .char c => showChar printable c sp
  | .float _ f | .double _ f | .longDouble _ f => okOnly (f sp)
  | .cstring addr s =>
    if sp.type = .pointer then some (showPtr addr sp) else if addr = 0 then none else some (showStr printable s sp)
  | .string s => some (showStr printable s sp)
  | .pointer addr => some (showPtr addr sp)
  | .custom _ => none

/-- The values a C++ caller can pass: integers in the range of their type, bytes, 64-bit addresses.  Formatters of
floating-point and user-defined types have no undefined behaviour of their own; a user-defined one leaves the position
somewhere in the text it was given. -/
def ArgOk : Arg → Prop
  | .int v => -2 ^ 31 ≤ v ∧ v < 2 ^ 31
  | .uint v => v < 2 ^ 32
  | .longLong v => -2 ^ 63 ≤ v ∧ v < 2 ^ 63
  | .ulongLong v => v < 2 ^ 64
  | .int128 v => -2 ^ 127 ≤ v ∧ v < 2 ^ 127
  | .uint128 v => v < 2 ^ 128
  | .bool _ => True
  | .char c => c.toNat < 256
  | .float t f | .double t f | .longDouble t f => t ≠ .ub ∧ ∀ sp, f sp ≠ .ub
  | .cstring addr s => addr < 2 ^ 64 ∧ Bytes s
  | .string s => Bytes s
  | .pointer addr => addr < 2 ^ 64
  | .custom f => ∀ pos next, f pos next ≠ .ub ∧ ∀ pos' next' text, f pos next = .ok (pos', next', text) → pos' <:+ pos

/-- the place of the first argument with the given name -/
def nameIndex (l : List (Option Str × Arg)) (name : Str) : Option Nat := l.findIdx? fun p => p.1 = some name

end Fmt
end Spec
end Efp
