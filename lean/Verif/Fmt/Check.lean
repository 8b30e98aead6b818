import Verif.Fmt.Format

/-!
# Model of the compile-time check of format strings (core.h): `FormatString` under C++20, and `EFP_FMT_STRING`

The checker runs the parser of `Parse.lean` with a parse context that knows the number and the types of the arguments.
The model is for compilers where `is_constant_evaluated` is trusted (core.h 1165, 1175: every compiler but GCC before 12)
and for arguments without names or with names known at compile time (core.h 3093); otherwise nothing is checked.
-/

namespace Efp
namespace Fmt

/-- what the checker knows of the arguments: the name, if there is one, and the type -/
abbrev ArgTypes := List (Option Str × Ty)

/-- `compile_parse_context::next_arg_id`, core.h 793-798, and `do_check_arg_id`, core.h 1162-1170, which both check the number -/
def nextArgIdC (tys : ArgTypes) (next : Int) : Res (Nat × Int) := do
  let (n, next) ← nextArgId next
  if n ≥ tys.length then .err "argument not found" else .ok (n, next)

/-- `compile_parse_context::check_arg_id`, core.h 800-804, and `do_check_arg_id`, core.h 1162-1170 -/
def checkArgIdC (tys : ArgTypes) (id : Nat) (next : Int) : Res Int := do
  let next ← checkArgId next
  if id ≥ tys.length then .err "argument not found" else .ok next

/-- `compile_parse_context::check_dynamic_spec`, core.h 808-814 -/
def checkDynamicSpec (tys : ArgTypes) (id : Nat) : Res Unit :=
  match tys[id]? with
  | some (_, ty) => if !ty.integral then .err "width/precision is not integer" else .ok ()
  | none => .ok ()

/-- `dynamic_spec_id_handler`, core.h 2507-2528, on a context that checks; a name is not looked up (core.h 759) -/
def dynamicSpecIdC (tys : ArgTypes) (id : ArgId) (next : Int) : Res (ArgRef × Int) :=
  match id with
  | .auto => do
    let (n, next) ← nextArgIdC tys next
    checkDynamicSpec tys n
    .ok (.index n, next)
  | .index n => do
    let next ← checkArgIdC tys n next
    checkDynamicSpec tys n
    .ok (.index n, next)
  | .name s => .ok (.name s, next)

/-- `parse_dynamic_spec`, core.h 2531-2556, on a context that checks -/
def parseDynamicSpecC (tys : ArgTypes) (begin_ : Str) (value : Int) (ref : ArgRef) (next : Int) :
    Res (Int × ArgRef × Str × Int) :=
  match begin_ with
  | [] => .ub
  | c :: r =>
    if isDigit c then do
      let (val, b) ← parseNonnegativeInt (c :: r) (-1)
      if val ≠ -1 then .ok (val, ref, b, next) else .err "number is too big"
    else if c = '{' then
      match r with
      | [] => .err "invalid format string"
      | d :: r' => do
        let (id, b) ← parseArgId (d :: r')
        let (ref, next) ← dynamicSpecIdC tys id next
        match b with
        | [] => .err "invalid format string"
        | e :: b' => if e = '}' then .ok (value, ref, b', next) else .err "invalid format string"
    else .ok (value, ref, c :: r, next)

/-- `parse_precision`, core.h 2558-2572, on a context that checks -/
def parsePrecisionC (tys : ArgTypes) (begin_ : Str) (value : Int) (ref : ArgRef) (next : Int) :
    Res (Int × ArgRef × Str × Int) :=
  match begin_ with
  | [] => .ub
  | _ :: [] => .err "invalid precision"
  | _ :: d :: r => if d = '}' then .err "invalid precision" else parseDynamicSpecC tys (d :: r) value ref next

/-- the loop of `parse_format_specs`, core.h 2624-2760, on a context that checks; as `specLoop` but for the widths and
precisions taken from arguments -/
def specLoopC (tys : ArgTypes) (ty : Ty) :
    (fuel : Nat) → (c b : Char) → (r : Str) → St → Specs → (next : Int) → Res (Specs × Str × Int)
  | 0, _, _, _, _, _, _ => .ub
  | fuel + 1, c, b, r, cur, sp, next =>
    let again (pos : Str) (cur : St) (sp : Specs) (next : Int) : Res (Specs × Str × Int) :=
      match pos with
      | [] => .ok (sp, [], next)
      | b :: r => specLoopC tys ty fuel b b r cur sp next
    if c = '<' ∨ c = '>' ∨ c = '^' then do
      let cur ← enterState cur .align true
      again r cur { sp with align := parseAlign c } next
    else if c = '+' ∨ c = '-' ∨ c = ' ' then
      if ty = .none then .ok (sp, b :: r, next)
      else do
        let cur ← enterState cur .sign (ty.sint || ty.isFloat)
        again r cur { sp with sign := if c = '+' then .plus else if c = '-' then .minus else .space } next
    else if c = '#' then
      if ty = .none then .ok (sp, b :: r, next)
      else do
        let cur ← enterState cur .hash ty.arith
        again r cur { sp with alt := true } next
    else if c = '0' then do
      let cur ← enterState cur .zero true
      if !ty.arith then
        if ty = .none then .ok (sp, b :: r, next) else .err "format specifier requires numeric argument"
      else if sp.align = .none then again r cur { sp with align := .numeric, fill := sp.fill.set 0 '0' } next
      else again r cur sp next
    else if isDigit c || c == '{' then do
      let cur ← enterState cur .width true
      let (w, ref, pos, next) ← parseDynamicSpecC tys (b :: r) sp.width sp.widthRef next
      again pos cur { sp with width := w.toNat, widthRef := ref } next
    else if c = '.' then
      if ty = .none then .ok (sp, b :: r, next)
      else do
        let cur ← enterState cur .precision (ty.isFloat || ty.text)
        let (p, ref, pos, next) ← parsePrecisionC tys (b :: r) sp.precision sp.precisionRef next
        again pos cur { sp with precision := p, precisionRef := ref } next
    else if c = 'L' then
      if ty = .none then .ok (sp, b :: r, next)
      else do
        let cur ← enterState cur .locale ty.arith
        again r cur { sp with localized := true } next
    else
      match presOf c with
      | some (p, set) =>
        if !set ty then
          if ty = .none then .ok (sp, b :: r, next) else .err "invalid format specifier"
        else .ok ({ sp with type := p }, r, next)
      | none =>
        if c = '}' ∨ b = '}' then .ok (sp, b :: r, next)
        else do
          let (pos, cur, sp) ← parseFill b r cur sp
          again pos cur sp next

/-- `parse_format_specs`, core.h 2576-2761, on a context that checks -/
def parseFormatSpecsC (tys : ArgTypes) (ty : Ty) (begin_ : Str) (next : Int) : Res (Specs × Str × Int) :=
  match begin_ with
  | [] => .ok ({}, [], next)
  | [b] => specLoopC tys ty 1 b b [] .start {} next
  | b :: n :: r =>
    specLoopC tys ty (r.length + 2) (if parseAlign n = .none then b else Char.ofNat 0) b (n :: r) .start {} next

/-- `formatter::parse` of a natively supported type, core.h 3047-3053, or of a container, format.hpp 56, 70, 89, 104
and 118, where it returns `ctx.begin()` -/
def formatterParse (tys : ArgTypes) (ty : Ty) (begin_ : Str) (next : Int) : Res (Str × Int) :=
  if ty = .custom then .ok (begin_, next)
  else do
    let (sp, pos, next) ← parseFormatSpecsC tys ty begin_ next
    if ty = .char then do
      let _ ← checkCharSpecs sp
      .ok (pos, next)
    else .ok (pos, next)

/-- `get_arg_index_by_name`, core.h 2903-2925: the first argument with the name, from index `i` -/
def argIndexByName (name : Str) (i : Nat) : ArgTypes → Option Nat
  | [] => none
  | (some n, _) :: r => if name = n then some i else argIndexByName name (i + 1) r
  | (none, _) :: r => argIndexByName name (i + 1) r

/-- `format_string_checker::on_format_specs`, core.h 2976-2980 -/
def checkerFormatSpecs (tys : ArgTypes) (id : Nat) (begin_ : Str) (next : Int) : Res (Str × Int) :=
  match tys[id]? with
  | some (_, ty) => formatterParse tys ty begin_ next
  | none => .ok (begin_, next)

/-- `format_string_checker`, core.h 2927-2985.  Simplification: `on_replacement_field` runs the parser of the type at the
closing brace of the field, where it returns at once; here it gets just the brace. -/
def formatStringChecker (tys : ArgTypes) : Handler Int where
  onText _ next := .ok next
  onArgId id next :=
    match id with
    | .auto => nextArgIdC tys next
    | .index n => do
      let next ← checkArgIdC tys n next
      .ok (n, next)
    | .name name =>
      match argIndexByName name 0 tys with
      | none => .err "named argument is not found"
      | some i => .ok (i, next)
  onReplacementField id next := do
    let (_, next) ← checkerFormatSpecs tys id ['}'] next
    .ok next
  onFormatSpecs := checkerFormatSpecs tys

/-- the constructor of `basic_format_string`, core.h 3081-3100, and `check_format_string`, core.h 2999-3006: `ok` if the
format string is accepted, an error if the program does not compile -/
def checkFormatString (tys : ArgTypes) (fmt : Str) : Res Unit := do
  let _ ← parseFormatString (formatStringChecker tys) fmt 0
  .ok ()

end Fmt
end Efp
