/-!
# Model of the format-string parser of the bundled formatting library (include/efp/fmt/core.h)

`efp::format`, `efp::print` and `efp::println` (format.hpp 17-40) hand their format string to this parser at run time
(the project compiles as C++11, so nothing is checked at compile time).

A byte string is a `List Char`, one `Char` per byte (codes below 256).  A pointer into the format string is the list of
bytes from that pointer to the end, so `begin == end` is `[]` and `*begin` is the head; dereferencing at the end is `ub`.
-/

namespace Efp
namespace Fmt

/-- a byte string, one `Char` per byte -/
abbrev Str := List Char

/-- Outcome of a formatting call: a result, a thrown `format_error` with its message (format-inl.h 40-42), or
undefined behaviour (including a loop that never ends). -/
inductive Res (α : Type) where
  | ok (a : α)
  | err (msg : String)
  | ub
  deriving DecidableEq, Repr

namespace Res

variable {α β : Type}

/-- sequencing: errors and undefined behaviour end the computation -/
protected def bind : Res α → (α → Res β) → Res β
  | ok a, f => f a
  | err m, _ => err m
  | ub, _ => ub

instance : Monad Res where
  pure := ok
  bind := Res.bind

end Res

/-- `align::type`, core.h 2258-2260 -/
inductive Align | none | left | right | center | numeric
  deriving DecidableEq, Repr

/-- `sign::type`, core.h 2264-2266 -/
inductive Sign | none | minus | plus | space
  deriving DecidableEq, Repr

/-- `presentation_type`, core.h 2308-2328 -/
inductive Pres
  | none | dec | oct | hexLower | hexUpper | binLower | binUpper | hexfloatLower | hexfloatUpper | expLower | expUpper
  | fixedLower | fixedUpper | generalLower | generalUpper | chr | string | pointer | debug
  deriving DecidableEq, Repr

/-- `detail::type`, core.h 592-612 -/
inductive Ty
  | none | int | uint | longLong | ulongLong | int128 | uint128 | bool | char | float | double | longDouble | cstring
  | string | pointer | custom
  deriving DecidableEq, Repr

/-- `in(t, sint_set)`, core.h 655-656 -/
def Ty.sint : Ty → Bool
  | .int | .longLong | .int128 => true
  | _ => false

/-- `in(t, uint_set)`, core.h 657 -/
def Ty.usint : Ty → Bool
  | .uint | .ulongLong | .uint128 => true
  | _ => false

/-- `in(t, float_set)`, core.h 660 -/
def Ty.isFloat : Ty → Bool
  | .float | .double | .longDouble => true
  | _ => false

/-- `in(t, integral_set)`, core.h 2606 -/
def Ty.integral (t : Ty) : Bool := t.sint || t.usint || t == .bool || t == .char

/-- `is_arithmetic_type`, core.h 642-644 -/
def Ty.arith (t : Ty) : Bool := t.integral || t.isFloat

/-- `in(t, string_set | cstring_set)`, core.h 661-662 -/
def Ty.text (t : Ty) : Bool := t == .string || t == .cstring

/-- `arg_ref`, core.h 2352-2377 -/
inductive ArgRef
  | none
  | index (n : Nat)
  | name (s : Str)
  deriving DecidableEq, Repr

/-- `dynamic_format_specs`, core.h 2331-2345 and 2382-2386; `fill` is the used part of `fill_t`, core.h 2273-2305 -/
structure Specs where
  width : Nat := 0
  precision : Int := -1
  type : Pres := .none
  align : Align := .none
  sign : Sign := .none
  alt : Bool := false
  localized : Bool := false
  fill : Str := [' ']
  widthRef : ArgRef := .none
  precisionRef : ArgRef := .none
  deriving DecidableEq, Repr

/-- `code_point_length`, core.h 2400-2406 -/
def codePointLength (c : Char) : Nat := (0x3a55000000000000 >>> (2 * (c.toNat >>> 3))) % 4 + 1

/-- `'0' <= c && c <= '9'` -/
def isDigit (c : Char) : Bool := 48 ≤ c.toNat && c.toNat ≤ 57

/-- the loop of `parse_nonnegative_int`, core.h 2433-2437, at a digit `c`: the final `value` and `prev` (both
`unsigned`), the number of digits, the last digit read and the new position -/
def pniLoop : (c : Char) → Str → (value n : Nat) → Nat × Nat × Nat × Char × Str
  | c, [], value, n => ((value * 10 + (c.toNat - 48)) % 2 ^ 32, value, n + 1, c, [])
  | c, d :: r, value, n =>
    if isDigit d then pniLoop d r ((value * 10 + (c.toNat - 48)) % 2 ^ 32) (n + 1)
    else ((value * 10 + (c.toNat - 48)) % 2 ^ 32, value, n + 1, c, d :: r)

/-- `parse_nonnegative_int`, core.h 2427-2448, for 32-bit `int` (`digits10` is 9); the caller guarantees a digit at the
start -/
def parseNonnegativeInt (begin_ : Str) (errorValue : Int) : Res (Int × Str) :=
  match begin_ with
  | [] => .ub
  | c :: r =>
    match pniLoop c r 0 0 with
    | (value, prev, numDigits, last, p) =>
      if numDigits ≤ 9 then .ok (value, p)
      else if numDigits = 10 ∧ prev * 10 + (last.toNat - 48) ≤ 2147483647 then .ok (value, p)
      else .ok (errorValue, p)

/-- `parse_align`, core.h 2450-2460 -/
def parseAlign (c : Char) : Align :=
  if c = '<' then .left else if c = '>' then .right else if c = '^' then .center else .none

/-- `is_name_start`, core.h 2462-2465 -/
def isNameStart (c : Char) : Bool :=
  (97 ≤ c.toNat && c.toNat ≤ 122) || (65 ≤ c.toNat && c.toNat ≤ 90) || c == '_'

/-- the characters of a name after the first one, core.h 2489-2491: the name's tail and the position after it -/
def nameTail : Str → Str × Str
  | [] => ([], [])
  | c :: r => if isNameStart c || isDigit c then ((c :: (nameTail r).1), (nameTail r).2) else ([], c :: r)

/-- what `parse_arg_id` reports to its handler: `on_auto`, `on_index` or `on_name` -/
inductive ArgId
  | auto
  | index (n : Nat)
  | name (s : Str)
  deriving DecidableEq, Repr

/-- the number of an argument, core.h 2472-2477, at a digit `c` -/
def parseIndex (c : Char) (r : Str) : Res (Int × Str) :=
  if c ≠ '0' then parseNonnegativeInt (c :: r) 2147483647 else .ok (0, r)

/-- `do_parse_arg_id`, core.h 2467-2494 -/
def doParseArgId (begin_ : Str) : Res (ArgId × Str) :=
  match begin_ with
  | [] => .ub
  | c :: r =>
    if isDigit c then do
      let (index, b) ← parseIndex c r
      match b with
      | [] => .err "invalid format string"
      | d :: _ =>
        if d ≠ '}' ∧ d ≠ ':' then .err "invalid format string" else .ok (.index index.toNat, b)
    else if !isNameStart c then .err "invalid format string"
    else .ok (.name (c :: (nameTail r).1), (nameTail r).2)

/-- `parse_arg_id`, core.h 2496-2505; the caller guarantees `begin != end` -/
def parseArgId (begin_ : Str) : Res (ArgId × Str) :=
  match begin_ with
  | [] => .ub
  | c :: r => if c ≠ '}' ∧ c ≠ ':' then doParseArgId (c :: r) else .ok (.auto, c :: r)

/-- `basic_format_parse_context::next_arg_id`, core.h 736-744, on the counter `next_arg_id_` (`do_check_arg_id` does
nothing at run time) -/
def nextArgId (next : Int) : Res (Nat × Int) :=
  if next < 0 then .err "cannot switch from manual to automatic argument indexing" else .ok (next.toNat, next + 1)

/-- `basic_format_parse_context::check_arg_id`, core.h 750-757 -/
def checkArgId (next : Int) : Res Int :=
  if next > 0 then .err "cannot switch from automatic to manual argument indexing" else .ok (-1)

/-- `dynamic_spec_id_handler`, core.h 2507-2528 -/
def dynamicSpecId (id : ArgId) (next : Int) : Res (ArgRef × Int) :=
  match id with
  | .auto => do
    let (n, next) ← nextArgId next
    .ok (.index n, next)
  | .index n => do
    let next ← checkArgId next
    .ok (.index n, next)
  | .name s => .ok (.name s, next)

/-- `parse_dynamic_spec`, core.h 2531-2556: the new value, if the field gives a number, the argument reference, the
position and the counter -/
def parseDynamicSpec (begin_ : Str) (value : Int) (ref : ArgRef) (next : Int) : Res (Int × ArgRef × Str × Int) :=
  match begin_ with
  | [] => .ub
  | c :: r =>
    if isDigit c then do
      let (val, b) ← parseNonnegativeInt (c :: r) (-1)
      if val ≠ -1 then .ok (val, ref, b, next) else .err "number is too big"
    else if c = '{' then
      match r with
      | [] => .err "invalid format string"
      | d :: r' => do
        let (id, b) ← parseArgId (d :: r')
        let (ref, next) ← dynamicSpecId id next
        match b with
        | [] => .err "invalid format string"
        | e :: b' => if e = '}' then .ok (value, ref, b', next) else .err "invalid format string"
    else .ok (value, ref, c :: r, next)

/-- `parse_precision`, core.h 2558-2572, at the dot -/
def parsePrecision (begin_ : Str) (value : Int) (ref : ArgRef) (next : Int) : Res (Int × ArgRef × Str × Int) :=
  match begin_ with
  | [] => .ub
  | _ :: [] => .err "invalid precision"
  | _ :: d :: r => if d = '}' then .err "invalid precision" else parseDynamicSpec (d :: r) value ref next

/-- `state`, core.h 2574: the parts of a format specification in their order -/
inductive St | start | align | sign | hash | zero | width | precision | locale
  deriving DecidableEq, Repr

/-- the order of the enumerators of `state` -/
def St.toNat : St → Nat
  | .start => 0 | .align => 1 | .sign => 2 | .hash => 3 | .zero => 4 | .width => 5 | .precision => 6 | .locale => 7

/-- `enter_state`, core.h 2595-2603 -/
def enterState (cur s : St) (valid : Bool) : Res St :=
  if cur.toNat ≥ s.toNat ∨ valid = false then .err "invalid format specifier" else .ok s

/-- the presentation types and the argument types that take them, core.h 2699-2734 -/
def presOf (c : Char) : Option (Pres × (Ty → Bool)) :=
  if c = 'd' then some (.dec, Ty.integral)
  else if c = 'o' then some (.oct, Ty.integral)
  else if c = 'x' then some (.hexLower, Ty.integral)
  else if c = 'X' then some (.hexUpper, Ty.integral)
  else if c = 'b' then some (.binLower, Ty.integral)
  else if c = 'B' then some (.binUpper, Ty.integral)
  else if c = 'a' then some (.hexfloatLower, Ty.isFloat)
  else if c = 'A' then some (.hexfloatUpper, Ty.isFloat)
  else if c = 'e' then some (.expLower, Ty.isFloat)
  else if c = 'E' then some (.expUpper, Ty.isFloat)
  else if c = 'f' then some (.fixedLower, Ty.isFloat)
  else if c = 'F' then some (.fixedUpper, Ty.isFloat)
  else if c = 'g' then some (.generalLower, Ty.isFloat)
  else if c = 'G' then some (.generalUpper, Ty.isFloat)
  else if c = 'c' then some (.chr, Ty.integral)
  else if c = 's' then some (.string, fun t => t == .bool || t.text)
  else if c = 'p' then some (.pointer, fun t => t == .pointer || t == .cstring)
  else if c = '?' then some (.debug, fun t => t == .char || t.text)
  else none

/-- `fill_end = begin + code_point_length(begin)` and `begin = fill_end + 1`, core.h 2741-2756: the fill and alignment
at `begin_`, whose first byte is `b` -/
def parseFill (b : Char) (r : Str) (cur : St) (sp : Specs) : Res (Str × St × Specs) :=
  match (b :: r).drop (codePointLength b) with
  | [] => .err "invalid format specifier"
  | f :: rest =>
    if b = '{' then .err "invalid fill character '{'"
    else do
      let cur ← enterState cur .align (parseAlign f != .none)
      .ok (rest, cur, { sp with fill := (b :: r).take (codePointLength b), align := parseAlign f })

/-- the loop of `parse_format_specs`, core.h 2624-2760, at a non-empty position `b :: r` with the character `c` to
switch on: the specs, the position where parsing stopped and the argument counter.  `fuel` bounds the number of turns;
every turn consumes a byte, so the length of the text is enough. -/
def specLoop (ty : Ty) : (fuel : Nat) → (c b : Char) → (r : Str) → St → Specs → (next : Int) → Res (Specs × Str × Int)
  | 0, _, _, _, _, _, _ => .ub
  | fuel + 1, c, b, r, cur, sp, next =>
    let again (pos : Str) (cur : St) (sp : Specs) (next : Int) : Res (Specs × Str × Int) :=
      match pos with
      | [] => .ok (sp, [], next)
      | b :: r => specLoop ty fuel b b r cur sp next
    if c = '<' ∨ c = '>' ∨ c = '^' then do
      let cur ← enterState cur .align true
      again r cur { sp with align := parseAlign c } next
    else if c = '+' ∨ c = '-' ∨ c = ' ' then
      if ty = .none then .ok (sp, b :: r, next)
      else do
        let cur ← enterState cur .sign (ty.sint || ty.isFloat)
        again r cur { sp with sign := if c = '+' then .plus else if c = '-' then .minus else .space } next
    else if c = '#' then
      if ty = .none then .ok (sp, b :: r, next)
      else do
        let cur ← enterState cur .hash ty.arith
        again r cur { sp with alt := true } next
    else if c = '0' then do
      let cur ← enterState cur .zero true
      if !ty.arith then
        if ty = .none then .ok (sp, b :: r, next) else .err "format specifier requires numeric argument"
      else if sp.align = .none then again r cur { sp with align := .numeric, fill := sp.fill.set 0 '0' } next
      else again r cur sp next
    else if isDigit c || c == '{' then do
      let cur ← enterState cur .width true
      let (w, ref, pos, next) ← parseDynamicSpec (b :: r) sp.width sp.widthRef next
      again pos cur { sp with width := w.toNat, widthRef := ref } next
    else if c = '.' then
      if ty = .none then .ok (sp, b :: r, next)
      else do
        let cur ← enterState cur .precision (ty.isFloat || ty.text)
        let (p, ref, pos, next) ← parsePrecision (b :: r) sp.precision sp.precisionRef next
        again pos cur { sp with precision := p, precisionRef := ref } next
    else if c = 'L' then
      if ty = .none then .ok (sp, b :: r, next)
      else do
        let cur ← enterState cur .locale ty.arith
        again r cur { sp with localized := true } next
    else
      match presOf c with
      | some (p, set) =>
        if !set ty then
          if ty = .none then .ok (sp, b :: r, next) else .err "invalid format specifier"
        else .ok ({ sp with type := p }, r, next)
      | none =>
        if c = '}' ∨ b = '}' then .ok (sp, b :: r, next)
        else do
          let (pos, cur, sp) ← parseFill b r cur sp
          again pos cur sp next

/-- `parse_format_specs`, core.h 2576-2761 -/
def parseFormatSpecs (ty : Ty) (begin_ : Str) (next : Int) : Res (Specs × Str × Int) :=
  match begin_ with
  | [] => .ok ({}, [], next)
  | [b] => specLoop ty 1 b b [] .start {} next
  | b :: n :: r =>
    specLoop ty (r.length + 2) (if parseAlign n = .none then b else Char.ofNat 0) b (n :: r) .start {} next

/-- The callbacks of a format-string handler (core.h 2927-2985, format.h 4742-4807) over a state `σ`.
`on_format_specs` gets the text after the colon and returns the text where it stopped. -/
structure Handler (σ : Type) where
  onText : Str → σ → Res σ
  onArgId : ArgId → σ → Res (Nat × σ)
  onReplacementField : Nat → σ → Res σ
  onFormatSpecs : Nat → Str → σ → Res (Str × σ)

variable {σ : Type}

/-- `parse_replacement_field`, core.h 2763-2805; `after` is the text after the opening brace -/
def parseReplacementField (h : Handler σ) (after : Str) (s : σ) : Res (Str × σ) :=
  match after with
  | [] => .err "invalid format string"
  | c :: r =>
    if c = '}' then do
      let (id, s) ← h.onArgId .auto s
      let s ← h.onReplacementField id s
      .ok (r, s)
    else if c = '{' then do
      let s ← h.onText ['{'] s
      .ok (r, s)
    else do
      let (aid, b) ← parseArgId (c :: r)
      let (id, s) ← h.onArgId aid s
      match b with
      | [] => .err "missing '}' in format string"
      | d :: b' =>
        if d = '}' then do
          let s ← h.onReplacementField id s
          .ok (b', s)
        else if d = ':' then do
          let (e, s) ← h.onFormatSpecs id b' s
          match e with
          | [] => .err "unknown format specifier"
          | x :: e' => if x = '}' then .ok (e', s) else .err "unknown format specifier"
        else .err "missing '}' in format string"

/-- the loop for format strings of fewer than 32 bytes, core.h 2814-2828: `text` is the text from `begin` to `p`.
`fuel` bounds the number of turns. -/
def shortLoop (h : Handler σ) : (fuel : Nat) → (text p : Str) → σ → Res σ
  | _, text, [], s => h.onText text s
  | 0, _, _ :: _, _ => .ub
  | fuel + 1, text, c :: p, s =>
    if c = '{' then do
      let s ← h.onText text s
      let (p, s) ← parseReplacementField h p s
      shortLoop h fuel [] p s
    else if c = '}' then
      match p with
      | [] => .err "unmatched '}' in format string"
      | d :: p' =>
        if d ≠ '}' then .err "unmatched '}' in format string"
        else do
          let s ← h.onText (text ++ ['}']) s
          shortLoop h fuel [] p' s
    else shortLoop h fuel (text ++ [c]) p s

/-- `find` (`memchr`), core.h 2409-2423: the text before the first `v` and the text from it, if there is one -/
def find (v : Char) : Str → Option (Str × Str)
  | [] => none
  | c :: r => if c = v then some ([], c :: r) else (find v r).map fun (a, b) => (c :: a, b)

/-- the loop of `writer::operator()`, core.h 2835-2844; `fuel` bounds the number of turns -/
def writerLoop (h : Handler σ) : (fuel : Nat) → (text : Str) → σ → Res σ
  | 0, _, _ => .ub
  | fuel + 1, text, s =>
    match find '}' text with
    | none => h.onText text s
    | some (before, rest) =>
      match rest with
      | _ :: d :: rest' =>
        if d ≠ '}' then .err "unmatched '}' in format string"
        else do
          let s ← h.onText (before ++ ['}']) s
          writerLoop h fuel rest' s
      | _ => .err "unmatched '}' in format string"

/-- `writer::operator()`, core.h 2832-2845 -/
def writer (h : Handler σ) (text : Str) (s : σ) : Res σ :=
  if text = [] then .ok s else writerLoop h (text.length + 1) text s

/-- the loop for format strings of 32 bytes and more, core.h 2850-2858; `fuel` bounds the number of turns -/
def longLoop (h : Handler σ) : (fuel : Nat) → (begin_ : Str) → σ → Res σ
  | _, [], s => .ok s
  | 0, _ :: _, _ => .ub
  | fuel + 1, c :: r, s =>
    if c = '{' then do
      let s ← writer h [] s
      let (p, s) ← parseReplacementField h r s
      longLoop h fuel p s
    else
      match find '{' r with
      | none => writer h (c :: r) s
      | some (before, rest) => do
        let s ← writer h (c :: before) s
        let (p, s) ← parseReplacementField h rest.tail s
        longLoop h fuel p s

/-- `parse_format_string`, core.h 2807-2859 -/
def parseFormatString (h : Handler σ) (fmt : Str) (s : σ) : Res σ :=
  if fmt.length < 32 then shortLoop h fmt.length [] fmt s else longLoop h fmt.length fmt s

end Fmt
end Efp
