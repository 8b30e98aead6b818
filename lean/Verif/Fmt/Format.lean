import Verif.Fmt.Write

/-!
# Model of the arguments and of the format-string handler of the bundled formatting library (core.h, format.h,
format-inl.h): `format`, `print` and `println`
-/

namespace Efp
namespace Fmt

/-- A formatting argument after `arg_mapper`, core.h 1404-1500 and 1924-1964.  Pointers carry their address; a null
`const char*` has address 0.  The text of a floating-point value is not modelled in this file: the argument carries its
default text and its text for given specs.  An argument of a user-defined type carries what its formatter does: from
the position and the argument counter of the parse context to the new ones and the text. -/
inductive Arg
  | int (v : Int)
  | uint (v : Nat)
  | longLong (v : Int)
  | ulongLong (v : Nat)
  | int128 (v : Int)
  | uint128 (v : Nat)
  | bool (v : Bool)
  | char (c : Char)
  | float (text : Res Str) (withSpecs : Specs → Res Str)
  | double (text : Res Str) (withSpecs : Specs → Res Str)
  | longDouble (text : Res Str) (withSpecs : Specs → Res Str)
  | cstring (addr : Nat) (s : Str)
  | string (s : Str)
  | pointer (addr : Nat)
  | custom (f : Str → Int → Res (Str × Int × Str))

/-- `mapped_type_constant`, core.h 1711-1714 -/
def Arg.ty : Arg → Ty
  | .int _ => .int | .uint _ => .uint | .longLong _ => .longLong | .ulongLong _ => .ulongLong | .int128 _ => .int128
  | .uint128 _ => .uint128 | .bool _ => .bool | .char _ => .char | .float _ _ => .float | .double _ _ => .double
  | .longDouble _ _ => .longDouble | .cstring _ _ => .cstring | .string _ => .string | .pointer _ => .pointer
  | .custom _ => .custom

/-- the values of the enumeration `type`, core.h 592-612 -/
def Ty.code : Ty → Nat
  | .none => 0 | .int => 1 | .uint => 2 | .longLong => 3 | .ulongLong => 4 | .int128 => 5 | .uint128 => 6 | .bool => 7
  | .char => 8 | .float => 9 | .double => 10 | .longDouble => 11 | .cstring => 12 | .string => 13 | .pointer => 14
  | .custom => 15

/-- `basic_format_args`, core.h 2130-2242: the descriptor, the values and the table of names -/
structure Args where
  desc : Nat
  values : List Arg
  named : List (Str × Nat)

/-- `packed_arg_bits`, core.h 1716 -/
def packedArgBits : Nat := 4

/-- `max_packed_args`, core.h 1719 -/
def maxPackedArgs : Nat := 62 / packedArgBits

/-- `is_unpacked_bit`, core.h 1721 -/
def isUnpackedBit : Nat := 1 <<< 63

/-- `has_named_args_bit`, core.h 1723 -/
def hasNamedArgsBit : Nat := 1 <<< 62

/-- `encode_types`, core.h 1797-1806, in 64-bit arithmetic -/
def encodeTypes : List Arg → Nat
  | [] => 0
  | a :: r => a.ty.code ||| encodeTypes r <<< packedArgBits % 2 ^ 64

/-- `init_named_args`, core.h 1319-1352: the names and the indices of the named arguments from index `i` -/
def initNamedArgs (i : Nat) : List (Option Str × Arg) → List (Str × Nat)
  | [] => []
  | (none, _) :: r => initNamedArgs (i + 1) r
  | (some name, _) :: r => (name, i) :: initNamedArgs (i + 1) r

/-- `make_format_args`, core.h 2097-2099 and 2051-2085: arguments with the names given by `efp_fmt::arg` -/
def makeArgs (l : List (Option Str × Arg)) : Args where
  desc := (if l.length ≤ maxPackedArgs then encodeTypes (l.map (·.2)) else isUnpackedBit ||| l.length)
    ||| if initNamedArgs 0 l ≠ [] then hasNamedArgsBit else 0
  values := l.map (·.2)
  named := initNamedArgs 0 l

/-- `basic_format_args::is_packed`, core.h 2153-2155 -/
def Args.isPacked (a : Args) : Bool := a.desc &&& isUnpackedBit == 0

/-- `basic_format_args::max_size` of unpacked arguments, core.h 2238-2241: the conversion to `int` keeps 32 bits -/
def Args.maxSize (a : Args) : Nat := a.desc % 2 ^ 32

/-- `basic_format_args::get`, core.h 2204-2218, with `type`, core.h 2161-2165.  Reading outside the values, or a value as a type it does not have, is
`ub`. -/
def Args.get (a : Args) (id : Nat) : Res (Option Arg) :=
  if !a.isPacked then
    if id < a.maxSize then
      match a.values[id]? with
      | none => .ub
      | some v => .ok (some v)
    else .ok none
  else if id ≥ maxPackedArgs then .ok none
  else
    let type := (a.desc >>> (id * packedArgBits)) &&& (1 <<< packedArgBits - 1)
    if type = Ty.code .none then .ok none
    else
      match a.values[id]? with
      | none => .ub
      | some v => if v.ty.code = type then .ok (some v) else .ub

/-- the search of `basic_format_args::get_id`, core.h 2231-2234 -/
def findName (name : Str) : List (Str × Nat) → Option Nat
  | [] => none
  | (n, i) :: r => if n = name then some i else findName name r

/-- `basic_format_args::get_id`, core.h 2227-2236; `none` is `-1` -/
def Args.getId (a : Args) (name : Str) : Option Nat :=
  if a.desc &&& hasNamedArgsBit = 0 then none else findName name a.named

/-- `get_arg`, format.h 4187-4192 -/
def getArg (a : Args) (id : Nat) : Res Arg := do
  match ← a.get id with
  | none => .err "argument not found"
  | some v => .ok v

/-- `get_arg` by name, format.h 4187-4192 and core.h 2221-2224 -/
def getArgByName (a : Args) (name : Str) : Res Arg :=
  match a.getId name with
  | none => .err "argument not found"
  | some id => getArg a id

/-- `width_checker` and `precision_checker`, format.h 4135-4176: the value as `unsigned long long` -/
def checkDynamic (what : String) (arg : Arg) : Res Nat :=
  let integer (v : Int) : Res Nat := if v < 0 then .err ("negative " ++ what) else .ok (v % 2 ^ 64).toNat
  match arg with
  | .int v | .longLong v | .int128 v => integer v
  | .uint v | .ulongLong v | .uint128 v => integer v
  | _ => .err (what ++ " is not integer")

/-- `get_dynamic_spec`, format.h 4179-4184 -/
def getDynamicSpec (what : String) (arg : Arg) : Res Int := do
  let v ← checkDynamic what arg
  if v > 2147483647 then .err "number is too big" else .ok v

/-- `handle_dynamic_spec`, format.h 4196-4209 -/
def handleDynamicSpec (what : String) (a : Args) (value : Int) : ArgRef → Res Int
  | .none => .ok value
  | .index id => do
    let arg ← getArg a id
    getDynamicSpec what arg
  | .name s => do
    let arg ← getArgByName a s
    getDynamicSpec what arg

/-- `default_arg_formatter`, format.h 4079-4098, over the `write` overloads without specs, format.h 3989-4050 -/
def writeDefault : Arg → Res Str
  | .int v => writeIntDefault 32 v
  | .uint v => writeIntDefault 32 v
  | .longLong v => writeIntDefault 64 v
  | .ulongLong v => writeIntDefault 64 v
  | .int128 v => writeIntDefault 128 v
  | .uint128 v => writeIntDefault 128 v
  | .bool v => writeBool v {}
  | .char c => .ok [c]
  | .float t _ | .double t _ | .longDouble t _ => t
  | .cstring addr s => if addr = 0 then .err "string pointer is null" else .ok s
  | .string s => .ok s
  | .pointer addr => writePtr addr {}
  | .custom f => do
    let (_, _, text) ← f [] 0
    .ok text

/-- `arg_formatter`, format.h 4101-4119, over the `write` overloads with specs; a user-defined type never gets here -/
def writeSpecs (sp : Specs) : Arg → Res Str
  | .int v => writeInt 32 v sp
  | .uint v => writeInt 32 v sp
  | .longLong v => writeInt 64 v sp
  | .ulongLong v => writeInt 64 v sp
  | .int128 v => writeInt 128 v sp
  | .uint128 v => writeInt 128 v sp
  | .bool v => writeBool v sp
  | .char c => writeCharSpecs c sp
  | .float _ f | .double _ f | .longDouble _ f => f sp
  | .cstring addr s =>
    if sp.type = .pointer then writePtr addr sp
    else if addr = 0 then .err "string pointer is null"
    else writeStr s sp
  | .string s => writeStr s sp
  | .pointer addr => writePtr addr sp
  | .custom _ => .ok []

/-- the state of `format_handler`, format.h 4742-4752: the argument counter of the parse context and the output -/
structure HSt where
  next : Int
  out : Str
  deriving DecidableEq, Repr

/-- `format_handler::on_format_specs`, format.h 4782-4806; `arg_formatter` keeps the `format_specs` part of the specs -/
def onFormatSpecs (a : Args) (id : Nat) (begin_ : Str) (s : HSt) : Res (Str × HSt) := do
  let arg ← getArg a id
  match arg with
  | .custom f => do
    let (pos, next, text) ← f begin_ s.next
    .ok (pos, ⟨next, s.out ++ text⟩)
  | arg => do
    let (sp, pos, next) ← parseFormatSpecs arg.ty begin_ s.next
    let w ← handleDynamicSpec "width" a sp.width sp.widthRef
    let p ← handleDynamicSpec "precision" a sp.precision sp.precisionRef
    match pos with
    | [] => .err "missing '}' in format string"
    | c :: _ =>
      if c ≠ '}' then .err "missing '}' in format string"
      else do
        let text ← writeSpecs { sp with width := w.toNat, precision := p, widthRef := .none, precisionRef := .none } arg
        .ok (pos, ⟨next, s.out ++ text⟩)

/-- `format_handler`, format.h 4742-4807 -/
def formatHandler (a : Args) : Handler HSt where
  onText t s := .ok ⟨s.next, s.out ++ t⟩
  onArgId id s :=
    match id with
    | .auto => do
      let (n, next) ← nextArgId s.next
      .ok (n, ⟨next, s.out⟩)
    | .index n => do
      let next ← checkArgId s.next
      .ok (n, ⟨next, s.out⟩)
    | .name name =>
      match a.getId name with
      | none => .err "argument not found"
      | some id => .ok (id, s)
  onReplacementField id s := do
    let arg ← getArg a id
    let text ← writeDefault arg
    .ok ⟨s.next, s.out ++ text⟩
  onFormatSpecs := onFormatSpecs a

/-- `vformat_to`, format.h 4727-4810: the text appended to the buffer -/
def vformatTo (fmt : Str) (a : Args) : Res Str :=
  if fmt = ['{', '}'] then do
    let arg ← getArg a 0
    writeDefault arg
  else do
    let s ← parseFormatString (formatHandler a) fmt ⟨0, []⟩
    .ok s.out

/-- `efp::format`, format.hpp 17-20, and `vformat`, format-inl.h 1439-1445 -/
def format (fmt : Str) (l : List (Option Str × Arg)) : Res Str := vformatTo fmt (makeArgs l)

/-- A `FILE` for writing: what has been written to it and how many bytes it will still take. -/
structure Out1 where
  content : Str
  room : Nat
  deriving DecidableEq, Repr

/-- `fwrite_fully`, format-inl.h 76-80: `fwrite` writes as many bytes as the file takes -/
def fwriteFully (text : Str) (f : Out1) : Res Unit × Out1 :=
  (if f.room < text.length then .err "cannot write to file" else .ok (),
    ⟨f.content ++ text.take f.room, f.room - text.length⟩)

/-- `efp::print`, format.hpp 22-27, and `vprint`, format-inl.h 1492-1500, on a platform other than Windows -/
def print (fmt : Str) (l : List (Option Str × Arg)) (f : Out1) : Res Unit × Out1 :=
  match vformatTo fmt (makeArgs l) with
  | .ok text => fwriteFully text f
  | .err m => (.err m, f)
  | .ub => (.ub, f)

/-- `efp::println`, format.hpp 38-41, and `println`, core.h 3270-3273 -/
def println (fmt : Str) (l : List (Option Str × Arg)) (f : Out1) : Res Unit × Out1 :=
  match format fmt l with
  | .ok text => print "{}\n".toList [(none, .string text)] f
  | .err m => (.err m, f)
  | .ub => (.ub, f)

end Fmt
end Efp
