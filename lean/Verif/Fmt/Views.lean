import Verif.Fmt.Format

/-!
# Model of the formatters that format.h and format.hpp define over other formatters: `join`, `bytes`, `group_digits` and
the containers

A formatter first parses its options and then writes.  Widths and precisions are looked up in the arguments of the call
(`ctx`).
-/

namespace Efp
namespace Fmt

/-- both calls of `handle_dynamic_spec`, as in format.h 4905-4910, 4486-4491 and 4533-4538 -/
def dynamicSpecs (ctx : Args) (sp : Specs) : Res Specs := do
  let w ← handleDynamicSpec "width" ctx sp.width sp.widthRef
  let p ← handleDynamicSpec "precision" ctx sp.precision sp.precisionRef
  .ok { sp with width := w.toNat, precision := p, widthRef := .none, precisionRef := .none }

/-- `formatter::parse` of a natively supported type, core.h 3046-3053 -/
def nativeParse (ty : Ty) (begin_ : Str) (next : Int) : Res (Specs × Str × Int) := do
  let (sp, pos, next) ← parseFormatSpecs ty begin_ next
  if ty = .char then do
    let _ ← checkCharSpecs sp
    .ok (sp, pos, next)
  else .ok (sp, pos, next)

/-- `formatter::format` of a natively supported type, format.h 4897-4914 -/
def nativeFormat (ctx : Args) (sp : Specs) (val : Arg) : Res Str :=
  if sp.widthRef ≠ .none ∨ sp.precisionRef ≠ .none then do
    let sp ← dynamicSpecs ctx sp
    writeSpecs sp val
  else writeSpecs sp val

/-- the loop of `formatter<join_view>::format`, format.h 4640-4645, over the elements left -/
def joinLoop (ctx : Args) (sp : Specs) (sep : Str) : List Arg → Str → Res Str
  | [], out => .ok out
  | v :: vs, out => do
    let text ← nativeFormat ctx sp v
    joinLoop ctx sp sep vs (out ++ sep ++ text)

/-- `formatter<join_view>::format`, format.h 4633-4648; the elements are of a natively supported type (the formatters of
containers do not compile here, as their `format` is not `const`) -/
def joinFormat (ctx : Args) (sp : Specs) (sep : Str) : List Arg → Res Str
  | [] => .ok []
  | v :: vs => do
    let text ← nativeFormat ctx sp v
    joinLoop ctx sp sep vs text

/-- `format_custom_arg`, core.h 1485-1491, of a `join_view` over elements of type `ty`, format.h 4602-4648 -/
def joinArg (ctx : Args) (ty : Ty) (sep : Str) (vs : List Arg) : Arg := .custom fun begin_ next => do
  let (sp, pos, next) ← nativeParse ty begin_ next
  let text ← joinFormat ctx sp sep vs
  .ok (pos, next, text)

/-- `write_bytes`, format.h 1963-1970 -/
def writeBytes (s : Str) (sp : Specs) : Str := writePadded false sp s.length s

/-- `formatter<bytes>`, format.h 4476-4495 -/
def bytesArg (ctx : Args) (s : Str) : Arg := .custom fun begin_ next => do
  let (sp, pos, next) ← parseFormatSpecs .string begin_ next
  let sp ← dynamicSpecs ctx sp
  .ok (pos, next, writeBytes s sp)

/-- `digit_grouping`, format.h 2220-2223: the group sizes, as signed characters, and the separator -/
structure DigitGrouping where
  grouping : List Int
  sep : Str

/-- `digit_grouping::next`, format.h 2235-2244: the position and the new state -/
def DigitGrouping.next (g : DigitGrouping) (group : Nat) (pos : Int) : Res (Int × Nat × Int) :=
  if g.sep = [] then .ok (2147483647, group, pos)
  else if group = g.grouping.length then
    match g.grouping.getLast? with
    | none => .ub
    | some c => .ok (pos + c, group, pos + c)
  else
    match g.grouping[group]? with
    | none => .ub
    | some c =>
      if c ≤ 0 ∨ c = 127 then .ok (2147483647, group, pos) else .ok (pos + c, group + 1, pos + c)

/-- the loop of `digit_grouping::count_separators`, format.h 2266-2267; `fuel` bounds the number of turns -/
def DigitGrouping.countLoop (g : DigitGrouping) (numDigits : Int) : (fuel group : Nat) → (pos : Int) → (count : Nat) → Res Nat
  | 0, _, _, _ => .ub
  | fuel + 1, group, pos, count => do
    let (i, group, pos) ← g.next group pos
    if numDigits > i then g.countLoop numDigits fuel group pos (count + 1) else .ok count

/-- `digit_grouping::count_separators`, format.h 2263-2269 -/
def DigitGrouping.countSeparators (g : DigitGrouping) (numDigits : Nat) : Res Nat := g.countLoop numDigits (numDigits + 1) 0 0 0

/-- the first loop of `digit_grouping::apply`, format.h 2278-2282: the positions, the last one first -/
def DigitGrouping.separators (g : DigitGrouping) (numDigits : Int) :
    (fuel group : Nat) → (pos : Int) → (acc : List Int) → Res (List Int)
  | 0, _, _, _ => .ub
  | fuel + 1, group, pos, acc => do
    let (i, group, pos) ← g.next group pos
    if i = 0 ∨ i ≥ numDigits then .ok acc else g.separators numDigits fuel group pos (i :: acc)

/-- the second loop of `digit_grouping::apply`, format.h 2283-2293; `seps` are the positions from `sep_index` down.  No
position left would be a read before the first one. -/
def DigitGrouping.applyLoop (g : DigitGrouping) : (digits : Str) → (seps : List Int) → Res Str
  | [], _ => .ok []
  | _ :: _, [] => .ub
  | d :: ds, i :: seps =>
    if ((d :: ds).length : Int) = i then do
      let rest ← g.applyLoop ds seps
      .ok (g.sep ++ d :: rest)
    else do
      let rest ← g.applyLoop ds (i :: seps)
      .ok (d :: rest)

/-- `digit_grouping::apply`, format.h 2272-2295 -/
def DigitGrouping.apply (g : DigitGrouping) (digits : Str) : Res Str := do
  let seps ← g.separators digits.length (digits.length + 1) 0 0 [0]
  g.applyLoop digits seps

/-- `write_int` with digit grouping, format.h 2299-2320, without prefix, for a value of `w` bits -/
def writeIntGrouped (w value : Nat) (sp : Specs) (g : DigitGrouping) : Res Str := do
  let n ← countDigits w value
  if 40 < n then .ub
  else do
    let digits ← formatDecimal w value n
    let seps ← g.countSeparators n
    let text ← g.apply digits
    .ok (writePadded true sp (n + seps) text)

/-- `formatter<group_digits_view>`, format.h 4521-4547, of an integer; `w` is the width of `uint64_or_128_t` -/
def groupDigitsArg (ctx : Args) (w : Nat) (v : Int) : Arg := .custom fun begin_ next => do
  let (sp, pos, next) ← parseFormatSpecs .int begin_ next
  let sp ← dynamicSpecs ctx sp
  let text ← writeIntGrouped w (v % 2 ^ w).toNat sp ⟨[3], [',']⟩
  .ok (pos, next, text)

/-- The formatters of `Array`, `ArrVec`, `Vector`, `Vcb` and `Vcq` with elements of type `ty`, format.hpp 53-125:
`parse` reads nothing, `format` formats the elements with `"[{}]"` and `join`.  The arguments of that inner call are the
`join_view` alone, which no width refers to. -/
def containerArg (ty : Ty) (vs : List Arg) : Arg := .custom fun begin_ next => do
  let inner := joinArg (makeArgs [(none, .custom fun _ _ => .ub)]) ty ", ".toList vs
  let text ← vformatTo "[{}]".toList (makeArgs [(none, inner)])
  .ok (begin_, next, text)

/-- what a caller passes: a value of a natively supported type, or one of the above -/
inductive Item
  | arg (a : Arg)
  | container (ty : Ty) (vs : List Arg)
  | join (ty : Ty) (vs : List Arg) (sep : Str)
  | bytes (s : Str)
  | groupDigits (w : Nat) (v : Int)

/-- an argument as `width_checker` and `precision_checker`, format.h 4135-4176, see it: a user-defined type is no
integer, whatever its formatter does -/
def Item.shadow : Item → Arg
  | .arg a => a
  | _ => .custom fun _ _ => .ub

/-- the argument of an item in a call with arguments `ctx` -/
def Item.toArg (ctx : Args) : Item → Arg
  | .arg a => a
  | .container ty vs => containerArg ty vs
  | .join ty vs sep => joinArg ctx ty sep vs
  | .bytes s => bytesArg ctx s
  | .groupDigits w v => groupDigitsArg ctx w v

/-- the arguments as seen by the look-up of widths and precisions -/
def shadows (l : List (Option Str × Item)) : List (Option Str × Arg) := l.map fun p => (p.1, p.2.shadow)

/-- the arguments of a call -/
def itemArgs (l : List (Option Str × Item)) : List (Option Str × Arg) :=
  l.map fun p => (p.1, p.2.toArg (makeArgs (shadows l)))

end Fmt
end Efp
