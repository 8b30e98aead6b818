import Verif.Fmt.Views

/-!
# Model of `nested_formatter`, on which users build formatters of their own types

Such a formatter inherits `parse`, and its `format` calls `write_padded` with a function that formats some literal text
and some members of the object, each as `nested(member)`.
-/

namespace Efp
namespace Fmt

/-- a piece of what the function given to `write_padded` writes: literal text or `nested(v)` of a member `v` -/
inductive Part
  | text (s : Str)
  | member (v : Arg)

/-- the members among the pieces, in order -/
def Part.members : List Part → List Arg
  | [] => []
  | .text _ :: ps => Part.members ps
  | .member v :: ps => v :: Part.members ps

/-- the pieces written one after the other.  A member is written by `formatter<nested_view>::format`, format.h
4561-4563, with the specs `sp` of the inner formatter; `ctx` are the arguments of the inner formatting call. -/
def writeParts (ctx : Args) (sp : Specs) : List Part → Str → Res Str
  | [], out => .ok out
  | .text s :: ps, out => writeParts ctx sp ps (out ++ s)
  | .member v :: ps, out => do
    let text ← nativeFormat ctx sp v
    writeParts ctx sp ps (out ++ text)

/-- the arguments of the inner formatting call: one `nested_view` per member, format.h 4549-4553 and 4600-4602.  They are
of user-defined type, so no width or precision can refer to them. -/
def nestedCtx (ps : List Part) : Args := makeArgs ((Part.members ps).map fun _ => (none, .custom fun _ _ => .ub))

/-- `nested_formatter::parse`, format.h 4577-4585: the options of the whole, those of the members, the position and the
argument counter.  Of the options of the whole only width, fill and alignment are kept. -/
def nestedParse (ty : Ty) (begin_ : Str) (next : Int) : Res (Specs × Specs × Str × Int) := do
  let (sp, pos, next) ← parseFormatSpecs .none begin_ next
  let (inner, pos, next) ← nativeParse ty pos next
  .ok ({ width := sp.width, fill := sp.fill, align := sp.align }, inner, pos, next)

/-- `nested_formatter::write_padded`, format.h 4587-4598, of the text `text`: padded as a string if there is a width -/
def nestedPadded (sp : Specs) (text : Str) : Res Str := if sp.width = 0 then .ok text else writeStr text sp

/-- `format_custom_arg`, core.h 1485-1491, of an object whose formatter is derived from `nested_formatter`, format.h
4566-4603, with members of the natively supported type `ty`.  The arguments of the outer call do not matter: a width given
by an argument is parsed and then not looked up. -/
def nestedArg (ty : Ty) (ps : List Part) : Arg := .custom fun begin_ next => do
  let (sp, inner, pos, next) ← nestedParse ty begin_ next
  let text ← writeParts (nestedCtx ps) inner ps []
  let out ← nestedPadded sp text
  .ok (pos, next, out)

end Fmt
end Efp
