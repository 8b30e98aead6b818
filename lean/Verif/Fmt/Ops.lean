import Verif.Fmt.Buffer

/-!
# Model of what the writers of the bundled formatting library do to the output buffer

The functions of `Verif.Fmt.Write` and `Verif.Fmt.Format` again, with the operations on the buffer instead of the text
they leave in it (`Verif.Fmt.OpsLemmas` proves that the text is the same): what is reserved, what is pushed byte by
byte, what is appended and what is written in place.  An escaped text is pushed byte by byte; the code appends the runs
between escape sequences.  The text of a floating-point value or of a user-defined formatter is appended.
-/

namespace Efp
namespace Fmt

/-- bytes pushed one by one -/
def pushes (t : Str) : List Op := t.map .push

/-- `fill`, format.h 1922-1931: one byte is pushed `n` times, a longer fill appended -/
def fillOps (n : Nat) (fill : Str) : List Op :=
  match fill with
  | [c] => List.replicate n (.push c)
  | _ => List.replicate n (.append fill)

/-- `write_padded`, format.h 1936-1955 -/
def writePaddedOps (right : Bool) (sp : Specs) (size width : Nat) (body : List Op) : List Op :=
  let padding := if sp.width > width then sp.width - width else 0
  let left := padding >>> (shifts right).getD sp.align.index 0
  .reserve (size + padding * sp.fill.length) ::
    (fillOps left sp.fill ++ body ++ fillOps (padding - left) sp.fill)

/-- `write_ptr`, format.h 1973-1983 -/
def writePtrOps (value : Nat) (sp : Specs) : Res (List Op) := do
  let n ← countDigitsBits 4 64 value
  let text ← formatUint 4 64 value n false
  .ok (writePaddedOps true sp (n + 2) (n + 2) [.push '0', .push 'x', .direct [] text])

/-- `write_char`, format.h 2146-2156 -/
def writeCharOps (value : Char) (sp : Specs) : Res (List Op) := do
  let body ← if sp.type = .debug then writeEscapedChar value else .ok [value]
  .ok (writePaddedOps false sp 1 1 (pushes body))

/-- `write_int` over a digit writer, format.h 2194-2217; `fill_n` pushes -/
def writeIntDigitsOps (numDigits pre : Nat) (sp : Specs) (digits : List Op) : List Op :=
  if sp.width = 0 ∧ sp.precision = -1 then
    .reserve (numDigits + pre >>> 24) :: ((if pre ≠ 0 then pushes (prefixBytes 4 (pre &&& 0xffffff)) else []) ++ digits)
  else
    writePaddedOps true sp (writeIntData numDigits pre sp).1 (writeIntData numDigits pre sp).1
      (pushes (prefixBytes 4 (pre &&& 0xffffff)) ++ (pushes (List.replicate (writeIntData numDigits pre sp).2 '0') ++ digits))

/-- `write_int` by presentation type, format.h 2386-2435: decimal digits are appended from a local array, other digits
written in place -/
def writeIntArgOps (w absValue pre : Nat) (sp : Specs) : Res (List Op) :=
  match sp.type with
  | .none | .dec => do
    let n ← countDigits w absValue
    let digits ← formatDecimal w absValue n
    .ok (writeIntDigitsOps n pre sp [.append digits])
  | .hexLower | .hexUpper => do
    let pre := if sp.alt then
      prefixAppend pre ((if sp.type = .hexUpper then 'X'.toNat else 'x'.toNat) <<< 8 ||| '0'.toNat) else pre
    let n ← countDigitsBits 4 w absValue
    let digits ← formatUint 4 w absValue n (sp.type = .hexUpper)
    .ok (writeIntDigitsOps n pre sp [.direct [] digits])
  | .binLower | .binUpper => do
    let pre := if sp.alt then
      prefixAppend pre ((if sp.type = .binUpper then 'B'.toNat else 'b'.toNat) <<< 8 ||| '0'.toNat) else pre
    let n ← countDigitsBits 1 w absValue
    let digits ← formatUint 1 w absValue n false
    .ok (writeIntDigitsOps n pre sp [.direct [] digits])
  | .oct => do
    let n ← countDigitsBits 3 w absValue
    let pre := if sp.alt ∧ sp.precision ≤ n ∧ absValue ≠ 0 then prefixAppend pre '0'.toNat else pre
    let digits ← formatUint 3 w absValue n false
    .ok (writeIntDigitsOps n pre sp [.direct [] digits])
  | .chr => writeCharOps (Char.ofNat (absValue % 256)) sp
  | _ => .err "invalid format specifier"

/-- `write` of an integer with specs, format.h 2456-2460 -/
def writeIntOps (w : Nat) (value : Int) (sp : Specs) : Res (List Op) :=
  writeIntArgOps w (makeWriteIntArg w value sp.sign).1 (makeWriteIntArg w value sp.sign).2 sp

/-- `write` of an integer without specs, format.h 2572-2591: in place, or the sign pushed and the digits appended -/
def writeIntDefaultOps (w : Nat) (value : Int) : Res (List Op) := do
  let abs := (value % 2 ^ w).toNat
  let abs := if value < 0 then (2 ^ w - 1 - abs + 1) % 2 ^ w else abs
  let n ← countDigits w abs
  let digits ← formatDecimal w abs n
  .ok [.reserve ((if value < 0 then 1 else 0) + n), .direct (if value < 0 then ['-'] else []) digits]

/-- `write` of a `char` with specs, format.h 2158-2165 -/
def writeCharSpecsOps (value : Char) (sp : Specs) : Res (List Op) := do
  if ← checkCharSpecs sp then writeCharOps value sp else writeIntOps 32 value.toNat sp

/-- `write` of a `bool` with specs, format.h 4021-4025, with `write_bytes`, format.h 1963-1970 -/
def writeBoolOps (value : Bool) (sp : Specs) : Res (List Op) :=
  if sp.type ≠ .none ∧ sp.type ≠ .string then writeIntOps 32 (if value then 1 else 0) sp
  else
    let text := if value then "true".toList else "false".toList
    .ok (writePaddedOps false sp text.length text.length [.append text])

/-- `write` of a string view with specs, format.h 2522-2543 -/
def writeStrOps (s : Str) (sp : Specs) : Res (List Op) := do
  let size ← strSize s sp
  let width ← strWidth s sp size
  let body ← strBody s sp size
  .ok (writePaddedOps false sp size width (if sp.type = .debug then pushes body else [.append body]))

/-- `write` of a string view without specs, format.h 3994-3999 -/
def writeTextOps (s : Str) : List Op := [.reserve s.length, .append s]

/-- `default_arg_formatter`, format.h 4079-4098, over the `write` overloads without specs, format.h 3989-4050 -/
def writeDefaultOps : Arg → Res (List Op)
  | .int v => writeIntDefaultOps 32 v
  | .uint v => writeIntDefaultOps 32 v
  | .longLong v => writeIntDefaultOps 64 v
  | .ulongLong v => writeIntDefaultOps 64 v
  | .int128 v => writeIntDefaultOps 128 v
  | .uint128 v => writeIntDefaultOps 128 v
  | .bool v => writeBoolOps v {}
  | .char c => .ok [.reserve 1, .push c]
  | .float t _ | .double t _ | .longDouble t _ => do
    let text ← t
    .ok [.append text]
  | .cstring addr s => if addr = 0 then .err "string pointer is null" else .ok (writeTextOps s)
  | .string s => .ok (writeTextOps s)
  | .pointer addr => writePtrOps addr {}
  | .custom f => do
    let (_, _, text) ← f [] 0
    .ok [.append text]

/-- `arg_formatter`, format.h 4101-4119, over the `write` overloads with specs -/
def writeSpecsOps (sp : Specs) : Arg → Res (List Op)
  | .int v => writeIntOps 32 v sp
  | .uint v => writeIntOps 32 v sp
  | .longLong v => writeIntOps 64 v sp
  | .ulongLong v => writeIntOps 64 v sp
  | .int128 v => writeIntOps 128 v sp
  | .uint128 v => writeIntOps 128 v sp
  | .bool v => writeBoolOps v sp
  | .char c => writeCharSpecsOps c sp
  | .float _ f | .double _ f | .longDouble _ f => do
    let text ← f sp
    .ok [.append text]
  | .cstring addr s =>
    if sp.type = .pointer then writePtrOps addr sp
    else if addr = 0 then .err "string pointer is null"
    else writeStrOps s sp
  | .string s => writeStrOps s sp
  | .pointer addr => writePtrOps addr sp
  | .custom _ => .ok []

/-- the state of `format_handler`, format.h 4742-4752: the argument counter of the parse context and the operations on
the output so far -/
structure OSt where
  next : Int
  out : List Op

/-- `format_handler::on_format_specs`, format.h 4782-4806 -/
def onFormatSpecsOps (a : Args) (id : Nat) (begin_ : Str) (s : OSt) : Res (Str × OSt) := do
  let arg ← getArg a id
  match arg with
  | .custom f => do
    let (pos, next, text) ← f begin_ s.next
    .ok (pos, ⟨next, s.out ++ [.append text]⟩)
  | arg => do
    let (sp, pos, next) ← parseFormatSpecs arg.ty begin_ s.next
    let w ← handleDynamicSpec "width" a sp.width sp.widthRef
    let p ← handleDynamicSpec "precision" a sp.precision sp.precisionRef
    match pos with
    | [] => .err "missing '}' in format string"
    | c :: _ =>
      if c ≠ '}' then .err "missing '}' in format string"
      else do
        let ops ← writeSpecsOps { sp with width := w.toNat, precision := p, widthRef := .none, precisionRef := .none } arg
        .ok (pos, ⟨next, s.out ++ ops⟩)

/-- `format_handler`, format.h 4742-4807 -/
def formatHandlerOps (a : Args) : Handler OSt where
  onText t s := .ok ⟨s.next, s.out ++ writeTextOps t⟩
  onArgId id s :=
    match id with
    | .auto => do
      let (n, next) ← nextArgId s.next
      .ok (n, ⟨next, s.out⟩)
    | .index n => do
      let next ← checkArgId s.next
      .ok (n, ⟨next, s.out⟩)
    | .name name =>
      match a.getId name with
      | none => .err "argument not found"
      | some id => .ok (id, s)
  onReplacementField id s := do
    let arg ← getArg a id
    let ops ← writeDefaultOps arg
    .ok ⟨s.next, s.out ++ ops⟩
  onFormatSpecs := onFormatSpecsOps a

/-- `vformat_to`, format.h 4727-4810: the operations on the buffer -/
def vformatToOps (fmt : Str) (a : Args) : Res (List Op) :=
  if fmt = ['{', '}'] then do
    let arg ← getArg a 0
    writeDefaultOps arg
  else do
    let s ← parseFormatString (formatHandlerOps a) fmt ⟨0, []⟩
    .ok s.out

/-! ## The functions that take an output

The array given as `junk` is the uninitialized one inside a buffer. -/

/-- `format_to` an output iterator that has been given `out`, core.h 3158-3184: what it has been given at the end -/
def formatToIterator (out : Str) (junk : List Char) (fmt : Str) (l : List (Option Str × Arg)) : Res Str := do
  let ops ← vformatToOps fmt (makeArgs l)
  match runOps Flushing.kind ops (Flushing.start out none junk) with
  | .ok b => .ok (Flushing.flush b).rest.out
  | _ => .ub

/-- `format_to` a pointer to offset `off` of an array, core.h 3158-3184: the array at the end and the offset returned -/
def formatToPointer (array : List Char) (off : Nat) (fmt : Str) (l : List (Option Str × Arg)) : Res (List Char × Nat) := do
  let ops ← vformatToOps fmt (makeArgs l)
  match runOps Raw.kind ops (Raw.start array off) with
  | .ok b => .ok (b.rest.array, b.rest.out + b.size)
  | _ => .ub

/-- `format_to` a back inserter of a contiguous container, core.h 3158-3184: the container at the end -/
def formatToContainer (junk : Nat → Char) (c : Container) (fmt : Str) (l : List (Option Str × Arg)) : Res Container := do
  let ops ← vformatToOps fmt (makeArgs l)
  match runOps (Into.kind junk) ops (Into.start c) with
  | .ok b => .ok b.rest.container
  | _ => .ub

/-- `format_to_n` with a pointer, core.h 3194-3221: the array at the end, the offset of `out` and `size`.  `out()`
flushes before `count()` is called. -/
def formatToN (array : List Char) (off n : Nat) (junk : List Char) (fmt : Str) (l : List (Option Str × Arg)) :
    Res (List Char × Nat × Nat) := do
  let ops ← vformatToOps fmt (makeArgs l)
  match runOps Fixed.kind ops (Fixed.start array off n junk) with
  | .ok b => .ok ((Fixed.flush b).rest.array, (Fixed.flush b).rest.out,
      wrap ((Fixed.flush b).rest.count + (Fixed.flush b).size))
  | _ => .ub

/-- `format_to_n` with another output iterator, core.h 3194-3221: what it has been given, and `size` -/
def formatToNIterator (out : Str) (n : Nat) (junk : List Char) (fmt : Str) (l : List (Option Str × Arg)) :
    Res (Str × Nat) := do
  let ops ← vformatToOps fmt (makeArgs l)
  match runOps Flushing.kind ops (Flushing.start out (some n) junk) with
  | .ok b => .ok ((Flushing.flush b).rest.out, wrap ((Flushing.flush b).rest.count + (Flushing.flush b).size))
  | _ => .ub

/-- `formatted_size`, core.h 3223-3229 -/
def formattedSize (junk : List Char) (fmt : Str) (l : List (Option Str × Arg)) : Res Nat := do
  let ops ← vformatToOps fmt (makeArgs l)
  match runOps Counting.kind ops (Counting.start junk) with
  | .ok b => .ok (Counting.total b)
  | _ => .ub

end Fmt
end Efp
