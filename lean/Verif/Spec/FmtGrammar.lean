import Verif.Spec.Fmt

/-!
# Specification of format strings

The format strings `efp::format` takes and the text each one stands for, as a grammar: a format string is put together
from literal text, doubled braces and replacement fields, and `Formats` says what each of these contributes to the
result.  Nothing here scans a string.
-/

namespace Efp
namespace Spec
namespace Fmt

open Efp.Fmt (Str Specs Arg Align Sign Pres Ty ArgRef)

/-- how a field says which argument it means -/
inductive Ref
  | auto
  | index (n : Nat)
  | name (s : Str)

/-- how it is written: nothing, a decimal number without leading zeros, or the name -/
def Ref.text : Ref → Str
  | .auto => []
  | .index n => Nat.toDigits 10 n
  | .name s => s

/-- a name is a letter or underscore followed by letters, underscores and digits -/
def Ref.Valid : Ref → Prop
  | .name s => ∃ c r, s = c :: r ∧ (c.isAlpha = true ∨ c = '_') ∧ ∀ d ∈ r, d.isAlphanum = true ∨ d = '_'
  | _ => True

/-- The place of the argument meant, and the new counter.  The counter is the number of arguments taken automatically
so far, or -1 once a number has been written; the two ways of numbering do not mix. -/
def Ref.take (l : List (Option Str × Arg)) : Ref → Int → Option (Nat × Int)
  | .auto, n => if n < 0 then none else some (n.toNat, n + 1)
  | .index i, n => if 0 < n then none else some (i, -1)
  | .name s, n => (nameIndex l s).map fun i => (i, n)

/-- a width or a precision: none, a literal, or the value of an argument -/
inductive Num
  | none
  | lit (digits : Str)
  | arg (r : Ref)

/-- how it is written -/
def Num.text : Num → Str
  | .none => []
  | .lit d => d
  | .arg r => '{' :: (r.text ++ ['}'])

/-- the number a row of digits stands for -/
def decimal (d : Str) : Nat := Nat.ofDigitChars 10 d 0

/-- a literal has at most ten digits and is at most `INT_MAX` -/
def Num.Valid : Num → Prop
  | .none => True
  | .lit d => d ≠ [] ∧ (∀ c ∈ d, c.isDigit = true) ∧ d.length ≤ 10 ∧ decimal d ≤ 2147483647
  | .arg r => r.Valid

/-- The width or precision an argument stands for: an integer from 0 to `INT_MAX`.  (A 128-bit integer is first reduced
modulo 2^64.) -/
def dynValue : Arg → Option Int
  | .int v | .longLong v | .int128 v => if 0 ≤ v ∧ v % 2 ^ 64 ≤ 2147483647 then some (v % 2 ^ 64) else none
  | .uint v | .ulongLong v | .uint128 v => if v % 2 ^ 64 ≤ 2147483647 then some ((v % 2 ^ 64 : Nat) : Int) else none
  | _ => none

/-- the value of a width or precision (`absent` if there is none) and the new counter -/
def Num.value (l : List (Option Str × Arg)) (absent : Int) : Num → Int → Option (Int × Int)
  | .none, n => some (absent, n)
  | .lit d, n => some (decimal d, n)
  | .arg r, n => do
    let (i, n) ← r.take l n
    let a ← l[i]?
    let v ← dynValue a.2
    some (v, n)

/-- the options of a field -/
structure Opts where
  fill : Str := []
  align : Align := .none
  sign : Sign := .none
  alt : Bool := false
  zero : Bool := false
  width : Num := .none
  prec : Option Num := none
  loc : Bool := false
  type : Pres := .none

/-- how an alignment is written -/
def alignText : Align → Str
  | .left => ['<'] | .right => ['>'] | .center => ['^'] | _ => []

/-- how a sign option is written -/
def signOptText : Sign → Str
  | .none => [] | .minus => ['-'] | .plus => ['+'] | .space => [' ']

/-- how a presentation type is written -/
def typeText : Pres → Str
  | .none => [] | .dec => ['d'] | .oct => ['o'] | .hexLower => ['x'] | .hexUpper => ['X'] | .binLower => ['b']
  | .binUpper => ['B'] | .hexfloatLower => ['a'] | .hexfloatUpper => ['A'] | .expLower => ['e'] | .expUpper => ['E']
  | .fixedLower => ['f'] | .fixedUpper => ['F'] | .generalLower => ['g'] | .generalUpper => ['G'] | .chr => ['c']
  | .string => ['s'] | .pointer => ['p'] | .debug => ['?']

/-- how a precision is written -/
def precText : Option Num → Str
  | none => []
  | some p => '.' :: p.text

/-- how the options are written: each in its place -/
def Opts.text (o : Opts) : Str :=
  o.fill ++ (alignText o.align ++ (signOptText o.sign ++ ((if o.alt then ['#'] else []) ++ ((if o.zero then ['0'] else [])
    ++ (o.width.text ++ (precText o.prec ++ ((if o.loc then ['L'] else []) ++ typeText o.type)))))))

/-- signed integers -/
def signedInt (t : Ty) : Prop := t = .int ∨ t = .longLong ∨ t = .int128
/-- integers, `bool` and `char` -/
def integerLike (t : Ty) : Prop := signedInt t ∨ t = .uint ∨ t = .ulongLong ∨ t = .uint128 ∨ t = .bool ∨ t = .char
/-- floating-point numbers -/
def floating (t : Ty) : Prop := t = .float ∨ t = .double ∨ t = .longDouble
/-- texts -/
def textual (t : Ty) : Prop := t = .string ∨ t = .cstring

/-- the presentation types an argument type takes -/
def Presents (t : Ty) : Pres → Prop
  | .none => True
  | .dec | .oct | .hexLower | .hexUpper | .binLower | .binUpper | .chr => integerLike t
  | .hexfloatLower | .hexfloatUpper | .expLower | .expUpper | .fixedLower | .fixedUpper | .generalLower
  | .generalUpper => floating t
  | .string => t = .bool ∨ textual t
  | .pointer => t = .pointer ∨ t = .cstring
  | .debug => t = .char ∨ textual t

/-- the number of bytes that follow the first byte of a fill -/
def fillTail (b : Char) : Nat :=
  if b.toNat < 0xc0 then 0 else if b.toNat < 0xe0 then 1 else if b.toNat < 0xf0 then 2 else if b.toNat < 0xf8 then 3 else 0

/-- The options an argument of type `t` takes: a fill needs an alignment and is one code point other than a brace, a
width does not begin with a zero, and an empty precision is followed by something. -/
structure Opts.Valid (t : Ty) (o : Opts) : Prop where
  align : o.align ≠ .numeric
  fill : o.fill ≠ [] → o.align ≠ .none ∧ ∃ b r, o.fill = b :: r ∧ b ≠ '{' ∧ b ≠ '}' ∧ r.length = fillTail b
  sign : o.sign ≠ .none → signedInt t ∨ floating t
  alt : o.alt = true → integerLike t ∨ floating t
  zero : o.zero = true → integerLike t ∨ floating t
  width : o.width.Valid ∧ ∀ d, o.width = .lit d → d.head? ≠ some '0'
  prec : ∀ p, o.prec = some p → (floating t ∨ textual t) ∧ p.Valid ∧ (p = .none → o.loc = true ∨ o.type ≠ .none)
  loc : o.loc = true → integerLike t ∨ floating t
  type : Presents t o.type

/-- What the options stand for, given the values of width and precision.  The zero flag counts only without an
alignment. -/
def Opts.meaning (o : Opts) (width precision : Int) : Specs where
  width := width.toNat
  precision := precision
  type := o.type
  align := if o.align = .none ∧ o.zero = true then .numeric else o.align
  sign := o.sign
  alt := o.alt
  localized := o.loc
  fill := if o.fill ≠ [] then o.fill else if o.align = .none ∧ o.zero = true then ['0'] else [' ']

/-- the value of a precision option -/
def precValue (l : List (Option Str × Arg)) : Option Num → Int → Option (Int × Int)
  | none, n => some (-1, n)
  | some p, n => p.value l (-1) n

/-- `Formats printable l n fmt out`: with arguments `l` and counter `n`, the format string `fmt` stands for the text
`out`. -/
inductive Formats (printable : Nat → Bool) (l : List (Option Str × Arg)) : Int → Str → Str → Prop
  /-- the empty format string -/
  | done (n) : Formats printable l n [] []
  /-- a byte other than a brace stands for itself -/
  | char {n c f out} : c ≠ '{' → c ≠ '}' → Formats printable l n f out → Formats printable l n (c :: f) (c :: out)
  /-- a doubled brace stands for a brace -/
  | opening {n f out} : Formats printable l n f out → Formats printable l n ('{' :: '{' :: f) ('{' :: out)
  | closing {n f out} : Formats printable l n f out → Formats printable l n ('}' :: '}' :: f) ('}' :: out)
  /-- a field without options -/
  | plain {n f out} (r : Ref) {i n' a text} : r.Valid → r.take l n = some (i, n') → l[i]? = some a →
      showDefault a.2 = some text → Formats printable l n' f out →
      Formats printable l n ('{' :: (r.text ++ '}' :: f)) (text ++ out)
  /-- a field with options: argument, width and precision take their arguments in this order -/
  | opts {n f out} (r : Ref) (o : Opts) {i n1 n2 n3 a w p text} : r.Valid → r.take l n = some (i, n1) →
      l[i]? = some a → a.2.ty ≠ .custom → o.Valid a.2.ty → o.width.value l 0 n1 = some (w, n2) →
      precValue l o.prec n2 = some (p, n3) → showSpecs printable (o.meaning w p) a.2 = some text →
      Formats printable l n3 f out →
      Formats printable l n ('{' :: (r.text ++ ':' :: (o.text ++ '}' :: f))) (text ++ out)
  /-- a field for an argument of a user-defined type, whose formatter reads its own options up to the closing brace -/
  | custom {n f out} (r : Ref) {i n1 n2 x g b text} : r.Valid → r.take l n = some (i, n1) →
      l[i]? = some (x, .custom g) → g b n1 = .ok ('}' :: f, n2, text) → Formats printable l n2 f out →
      Formats printable l n ('{' :: (r.text ++ ':' :: b)) (text ++ out)

/-! ## Reading texts back -/

/-- text without braces -/
def NoBraces (t : Str) : Prop := ∀ c ∈ t, c ≠ '{' ∧ c ≠ '}'

/-- a text with its braces doubled -/
def doubled (s : Str) : Str := s.flatMap fun c => if c = '{' ∨ c = '}' then [c, c] else [c]

/-- `k` fields without options -/
def fields : Nat → Str
  | 0 => []
  | k + 1 => '{' :: '}' :: fields k

/-- the value of a digit, 0-9, a-f or A-F -/
def digitValue (c : Char) : Nat :=
  if c.toNat ≤ 57 then c.toNat - 48 else if c.toNat ≤ 70 then c.toNat - 55 else c.toNat - 87

/-- the number a row of digits stands for in a base -/
def readNat (base : Nat) (d : Str) : Nat := d.foldl (fun v c => v * base + digitValue c) 0

/-- the integer a text stands for: digits, with a minus sign in front of a negative number -/
def readInt (base : Nat) : Str → Int
  | '-' :: d => -(readNat base d : Int)
  | d => readNat base d

/-- the value of an argument of an integer type -/
def intValue : Arg → Option Int
  | .int v | .longLong v | .int128 v => some v
  | .uint v | .ulongLong v | .uint128 v => some v
  | _ => none

/-- the value of an argument of an integer type of at most 64 bits -/
def wordValue : Arg → Option Int
  | .int v | .longLong v => some v
  | .uint v | .ulongLong v => some v
  | _ => none

/-- how much of the fill goes left and how much right -/
def Sides (al : Align) (left right : Nat) : Prop :=
  (al = .left ∧ left = 0) ∨ (al = .right ∧ right = 0) ∨ (al = .center ∧ (left = right ∨ left + 1 = right))

/-- the UTF-8 encoding of a text -/
def encode (cs : List Char) : Str := cs.flatMap utf8

end Fmt
end Spec
end Efp
