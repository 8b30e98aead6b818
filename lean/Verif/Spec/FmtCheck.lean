import Verif.Spec.FmtGrammar

/-!
# Specification of format strings that fit the types of the arguments

The grammar of `FmtGrammar.lean` with types in the place of values.
-/

namespace Efp
namespace Spec
namespace Fmt

open Efp.Fmt (Str Specs Arg Align Sign Pres Ty ArgRef)

/-- the names and types of arguments -/
def typesOf (l : List (Option Str × Arg)) : List (Option Str × Ty) := l.map fun p => (p.1, p.2.ty)

/-- the place of the argument meant, and the new counter, as `Ref.take` -/
def Ref.takeT (tys : List (Option Str × Ty)) : Ref → Int → Option (Nat × Int)
  | .auto, n => if n < 0 then none else some (n.toNat, n + 1)
  | .index i, n => if 0 < n then none else some (i, -1)
  | .name s, n => (tys.findIdx? fun p => p.1 = some s).map fun i => (i, n)

instance (t : Ty) : Decidable (integerLike t) := by unfold integerLike signedInt; infer_instance

/-- The arguments a width or precision is taken from, and the new counter.  An argument meant by its place exists and is
an integer, a `bool` or a `char`; an argument meant by its name may be anything. -/
def Num.uses (tys : List (Option Str × Ty)) : Num → Int → Option (List ArgRef × Int)
  | .none, n => some ([], n)
  | .lit _, n => some ([], n)
  | .arg (.name s), n => some ([.name s], n)
  | .arg r, n => do
    let (i, n) ← r.takeT tys n
    let t ← tys[i]?
    if integerLike t.2 then some ([.index i], n) else Option.none

/-- the arguments a precision option is taken from -/
def precUses (tys : List (Option Str × Ty)) : Option Num → Int → Option (List ArgRef × Int)
  | none, n => some ([], n)
  | some p, n => p.uses tys n

/-- A `char` shown as a character takes no sign, no `#` and no zero flag. -/
def Opts.FitsChar (o : Opts) : Prop :=
  o.type = .none ∨ o.type = .chr ∨ o.type = .debug → o.sign = .none ∧ o.alt = false ∧ (o.zero = true → o.align ≠ .none)

/-- `Accepts tys n fmt d`: with counter `n` the format string `fmt` fits arguments of the types `tys`, and takes widths and
precisions from the arguments `d`. -/
inductive Accepts (tys : List (Option Str × Ty)) : Int → Str → List ArgRef → Prop
  /-- the empty format string -/
  | done (n) : Accepts tys n [] []
  /-- a byte other than a brace -/
  | char {n c f d} : c ≠ '{' → c ≠ '}' → Accepts tys n f d → Accepts tys n (c :: f) d
  /-- doubled braces -/
  | opening {n f d} : Accepts tys n f d → Accepts tys n ('{' :: '{' :: f) d
  | closing {n f d} : Accepts tys n f d → Accepts tys n ('}' :: '}' :: f) d
  /-- a field without options -/
  | plain {n f d} (r : Ref) {i n'} : r.Valid → r.takeT tys n = some (i, n') → i < tys.length → Accepts tys n' f d →
      Accepts tys n ('{' :: (r.text ++ '}' :: f)) d
  /-- a field with options that the type takes -/
  | opts {n f d} (r : Ref) (o : Opts) {i n1 n2 n3 x ty d1 d2} : r.Valid → r.takeT tys n = some (i, n1) →
      tys[i]? = some (x, ty) → ty ≠ .custom → o.Valid ty → (ty = .char → o.FitsChar) →
      o.width.uses tys n1 = some (d1, n2) → precUses tys o.prec n2 = some (d2, n3) → Accepts tys n3 f d →
      Accepts tys n ('{' :: (r.text ++ ':' :: (o.text ++ '}' :: f))) (d1 ++ d2 ++ d)
  /-- containers take no options -/
  | custom {n f d} (r : Ref) {i n1 x} : r.Valid → r.takeT tys n = some (i, n1) → tys[i]? = some (x, .custom) →
      Accepts tys n1 f d → Accepts tys n ('{' :: (r.text ++ ':' :: '}' :: f)) d

/-- the argument a reference means -/
def argOf (l : List (Option Str × Arg)) : ArgRef → Option Arg
  | .none => none
  | .index i => l[i]?.map (·.2)
  | .name s => (nameIndex l s).bind fun i => l[i]?.map (·.2)

/-- no number of ten or more digits is written in the text -/
def ShortNumbers (fmt : Str) : Prop := ∀ d : Str, d <:+: fmt → (∀ c ∈ d, c.isDigit = true) → d.length < 10

/-- Arguments that can be shown with every fitting option and a precision below 10^9: no null C string; floating-point
numbers have their texts; the formatter of a container reads no options. -/
def Showable : Arg → Prop
  | .cstring addr _ => addr ≠ 0
  | .float t f | .double t f | .longDouble t f =>
    (∃ s, t = .ok s) ∧ ∀ sp : Specs, sp.width < 2 ^ 31 → -1 ≤ sp.precision → sp.precision < 1000000000 →
      Presents .double sp.type → ∃ s, f sp = .ok s
  | .custom f => ∀ b n, ∃ s, f b n = .ok (b, n, s)
  | _ => True

end Fmt
end Spec
end Efp
