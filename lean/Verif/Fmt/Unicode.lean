import Verif.Fmt.Parse

/-!
# Model of the UTF-8 handling of the bundled formatting library (include/efp/fmt/format.h, format-inl.h)
-/

namespace Efp
namespace Fmt

/-- the length table of `utf8_decode`, format.h 739-740 (the literal has 31 characters and the terminating zero) -/
def utf8Len : List Nat :=
  [1, 1, 1, 1, 1, 1, 1, 1, 1, 1, 1, 1, 1, 1, 1, 1, 0, 0, 0, 0, 0, 0, 0, 0, 2, 2, 2, 2, 3, 3, 4, 0]

/-- `masks`, format.h 734 -/
def utf8Masks : List Nat := [0x00, 0x7f, 0x1f, 0x0f, 0x07]

/-- `mins`, format.h 735 -/
def utf8Mins : List Nat := [4194304, 0, 128, 2048, 65536]

/-- `shiftc`, format.h 736 -/
def utf8Shiftc : List Nat := [0, 18, 12, 6, 0]

/-- `shifte`, format.h 737 -/
def utf8Shifte : List Nat := [0, 6, 4, 2, 0]

/-- `utf8_decode`, format.h 733-767: the code point, the error bits and the number of bytes to the next character.
Four bytes are read. -/
def utf8Decode (s : Str) : Res (Nat × Nat × Nat) :=
  match s with
  | s0 :: s1 :: s2 :: s3 :: _ =>
    let len := utf8Len.getD (s0.toNat >>> 3) 0
    let c := ((s0.toNat &&& utf8Masks.getD len 0) <<< 18 ||| (s1.toNat &&& 0x3f) <<< 12
      ||| (s2.toNat &&& 0x3f) <<< 6 ||| (s3.toNat &&& 0x3f)) >>> utf8Shiftc.getD len 0
    let e := (if c < utf8Mins.getD len 0 then 1 else 0) <<< 6
      ||| (if c >>> 11 = 0x1b then 1 else 0) <<< 7
      ||| (if c > 0x10ffff then 1 else 0) <<< 8
      ||| (s1.toNat &&& 0xc0) >>> 2
      ||| (s2.toNat &&& 0xc0) >>> 4
      ||| s3.toNat >>> 6
    .ok (c, (e ^^^ 0x2a) >>> utf8Shifte.getD len 0, len + if len = 0 then 1 else 0)
  | _ => .ub

/-- `invalid_code_point`, format.h 769 -/
def invalidCodePoint : Nat := 2 ^ 32 - 1

variable {σ : Type}

/-- A callback of `for_each_codepoint`: it gets the code point, the offset and the text of the piece, updates its
state and says whether to go on. -/
abbrev CpFn (σ : Type) := Nat → Nat → Str → σ → Bool × σ

/-- the lambda `decode`, format.h 775-783: `buf` is where four bytes are read, `p` the same place in the string; the
number of bytes to advance, or `none` if the callback stops -/
def cpDecode (f : CpFn σ) (buf p : Str) (off : Nat) (s : σ) : Res (Option Nat × σ) := do
  let (cp, error, len) ← utf8Decode buf
  let (go, s) := f (if error ≠ 0 then invalidCodePoint else cp) off (p.take (if error ≠ 0 then 1 else len)) s
  .ok (if go then some (if error ≠ 0 then 1 else len) else none, s)

/-- the loop over the last bytes, format.h 797-803: `left` bytes of the zero-padded copy `buf` are left -/
def cpTail (f : CpFn σ) : (fuel : Nat) → (buf p : Str) → (off left : Nat) → σ → Res σ
  | 0, _, _, _, _, _ => .ub
  | fuel + 1, buf, p, off, left, s => do
    let (k, s) ← cpDecode f buf p off s
    match k with
    | none => .ok s
    | some k => if k < left then cpTail f fuel (buf.drop k) (p.drop k) (off + k) (left - k) s else .ok s

/-- the loop over full blocks, format.h 786-792, and what follows it, 793-804 -/
def cpMain (f : CpFn σ) : (fuel : Nat) → (p : Str) → (off : Nat) → σ → Res σ
  | 0, _, _, _ => .ub
  | fuel + 1, p, off, s =>
    if 4 ≤ p.length then do
      let (k, s) ← cpDecode f p p off s
      match k with
      | none => .ok s
      | some k => cpMain f fuel (p.drop k) (off + k) s
    else if p.length ≠ 0 then
      cpTail f 4 (p ++ List.replicate (7 - p.length) (Char.ofNat 0)) p off p.length s
    else .ok s

/-- `for_each_codepoint`, format.h 774-805; every turn of the loops advances, so the length of the string bounds them -/
def forEachCodepoint (f : CpFn σ) (s : Str) (st : σ) : Res σ := cpMain f (s.length + 1) s 0 st

/-- the code points that `compute_width` counts twice, format.h 823-841 -/
def isWide (cp : Nat) : Bool :=
  0x1100 ≤ cp && (cp ≤ 0x115f || cp == 0x2329 || cp == 0x232a || (0x2e80 ≤ cp && cp ≤ 0xa4cf && cp != 0x303f)
    || (0xac00 ≤ cp && cp ≤ 0xd7a3) || (0xf900 ≤ cp && cp ≤ 0xfaff) || (0xfe10 ≤ cp && cp ≤ 0xfe19)
    || (0xfe30 ≤ cp && cp ≤ 0xfe6f) || (0xff00 ≤ cp && cp ≤ 0xff60) || (0xffe0 ≤ cp && cp ≤ 0xffe6)
    || (0x20000 ≤ cp && cp ≤ 0x2fffd) || (0x30000 ≤ cp && cp ≤ 0x3fffd) || (0x1f300 ≤ cp && cp ≤ 0x1f64f)
    || (0x1f900 ≤ cp && cp ≤ 0x1f9ff))

/-- `compute_width`, format.h 813-849 -/
def computeWidth (s : Str) : Res Nat :=
  forEachCodepoint (fun cp _ _ n => (true, n + (1 + if isWide cp then 1 else 0))) s 0

/-- `code_point_index`, format.h 866-878: the state is `n` and `result` -/
def codePointIndex (s : Str) (n : Nat) : Res Nat := do
  let (_, r) ← forEachCodepoint
    (fun _ off _ (n, r) => if n ≠ 0 then (true, (n - 1, r)) else (false, (n, off))) s (n, s.length)
  .ok r

/-- one code point of `to_utf8::convert`, format.h 1620-1633; `none` is the rejection in lines 1634-1636 -/
def encodeUtf8 (c : Nat) : Option Str :=
  if c < 0x80 then some [Char.ofNat c]
  else if c < 0x800 then some [Char.ofNat (0xc0 ||| c >>> 6), Char.ofNat (0x80 ||| c &&& 0x3f)]
  else if (0x800 ≤ c ∧ c ≤ 0xd7ff) ∨ (0xe000 ≤ c ∧ c ≤ 0xffff) then
    some [Char.ofNat (0xe0 ||| c >>> 12), Char.ofNat (0x80 ||| (c &&& 0xfff) >>> 6), Char.ofNat (0x80 ||| c &&& 0x3f)]
  else if 0x10000 ≤ c ∧ c ≤ 0x10ffff then
    some [Char.ofNat (0xf0 ||| c >>> 18), Char.ofNat (0x80 ||| (c &&& 0x3ffff) >>> 12),
      Char.ofNat (0x80 ||| (c &&& 0xfff) >>> 6), Char.ofNat (0x80 ||| c &&& 0x3f)]
  else none

/-- `to_utf8<char32_t>::convert`, format.h 1602-1639, for 4-byte units: `none` is `return false` -/
def toUtf8of32 : List Nat → Option Str
  | [] => some []
  | c :: r => do
    let a ← encodeUtf8 c
    let b ← toUtf8of32 r
    some (a ++ b)

/-- `to_utf8<char16_t>::convert`, format.h 1602-1639, for 2-byte units; `replace` is the error policy.  As in the code,
the branch for a well-formed surrogate pair computes the code point and appends nothing. -/
def toUtf8of16 (replace : Bool) : List Nat → Option Str
  | [] => some []
  | c :: r =>
    if 0xd800 ≤ c ∧ c ≤ 0xdfff then
      match r with
      | [] => if replace then (some [Char.ofNat 0xef, Char.ofNat 0xbf, Char.ofNat 0xbd]) else none
      | d :: r' =>
        if c &&& 0xfc00 ≠ 0xd800 ∨ d &&& 0xfc00 ≠ 0xdc00 then
          if replace then
            (toUtf8of16 replace (d :: r')).map ([Char.ofNat 0xef, Char.ofNat 0xbf, Char.ofNat 0xbd] ++ ·)
          else none
        else toUtf8of16 replace r'
    else do
      let a ← encodeUtf8 c
      let b ← toUtf8of16 replace r
      some (a ++ b)

/-- `utf8_to_utf16`, format-inl.h 1408-1422, without the terminating zero: the state is the buffer, `none` the thrown
"invalid utf8" -/
def utf8ToUtf16 (s : Str) : Res (List Nat) := do
  let r ← forEachCodepoint
    (fun cp _ _ (buf : Option (List Nat)) =>
      if cp = invalidCodePoint then (false, none)
      else if cp ≤ 0xffff then (true, buf.map (· ++ [cp]))
      else (true, buf.map (· ++ [0xd800 + (cp - 0x10000) >>> 10, 0xdc00 + ((cp - 0x10000) &&& 0x3ff)])))
    s (some [])
  match r with
  | some b => .ok b
  | none => .err "invalid utf8"

end Fmt
end Efp
