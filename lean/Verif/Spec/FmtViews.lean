import Verif.Spec.FmtCheck
import Verif.Fmt.Views

/-!
# Specification of format strings with containers, joined ranges, raw bytes and grouped digits among the arguments
-/

namespace Efp
namespace Spec
namespace Fmt

open Efp.Fmt (Str Specs Arg Align Sign Pres Ty ArgRef Item shadows)

/-- digits with a comma between groups of three, counted from the right -/
def commas (digits : Str) : Str :=
  if _h : digits.length ≤ 3 then digits
  else commas (digits.take (digits.length - 3)) ++ ',' :: digits.drop (digits.length - 3)
termination_by digits.length
decreasing_by simp; omega

/-- the texts of elements with a separator between them -/
def joined (sep : Str) (texts : List Str) : Str := sep.intercalate texts

/-- The text of an item with options.  A container takes none: `showItem printable {}` is its only text.  Raw bytes are
padded by bytes and not cut.  Of the options of grouped digits only fill, alignment and width count. -/
def showItem (printable : Nat → Bool) (sp : Specs) : Item → Option Str
  | .arg a => showSpecs printable sp a
  | .container _ vs => (vs.mapM (showSpecs printable {})).map fun ts => '[' :: joined ", ".toList ts ++ [']']
  | .join _ vs sep => (vs.mapM (showSpecs printable sp)).map (joined sep)
  | .bytes s => some (pad false sp s.length s)
  | .groupDigits w v =>
    let text := commas (Nat.toDigits 10 (v % 2 ^ w).toNat)
    some (pad true sp text.length text)

/-- the text of an item in a field without options -/
def showItemDefault (printable : Nat → Bool) : Item → Option Str
  | .arg a => showDefault a
  | i => showItem printable {} i

/-- the type that says which options an item takes; `none` for a container -/
def optionType : Item → Option Ty
  | .arg a => some a.ty
  | .container _ _ => none
  | .join ty _ _ => some ty
  | .bytes _ => some .string
  | .groupDigits _ _ => some .int

/-- the items a caller can pass (user-defined types other than the ones above left out): elements have the type of their container, and an integer fits `uint64_or_128_t` -/
def ItemOk : Item → Prop
  | .arg a => a.ty ≠ .custom ∧ ArgOk a
  | .container ty vs | .join ty vs _ => ty ≠ .none ∧ ty ≠ .custom ∧ ∀ v ∈ vs, v.ty = ty ∧ ArgOk v
  | .bytes s => Bytes s
  | .groupDigits w _ => w = 64 ∨ w = 128

/-- the counter after a width or precision whose value does not matter -/
def Num.skip : Num → Int → Option Int
  | .arg .auto, n => if n < 0 then Option.none else some (n + 1)
  | .arg (.index _), n => if 0 < n then Option.none else some (-1)
  | _, n => some n

/-- the counter after a precision option whose value does not matter -/
def precSkip : Option Num → Int → Option Int
  | none, n => some n
  | some p, n => p.skip n

/-- `FormatsItems printable l n fmt out`: with items `l` and counter `n`, the format string `fmt` stands for the text
`out`.  As `Formats`. -/
inductive FormatsItems (printable : Nat → Bool) (l : List (Option Str × Item)) : Int → Str → Str → Prop
  /-- literal text and doubled braces -/
  | done (n) : FormatsItems printable l n [] []
  | char {n c f out} : c ≠ '{' → c ≠ '}' → FormatsItems printable l n f out → FormatsItems printable l n (c :: f) (c :: out)
  | opening {n f out} : FormatsItems printable l n f out → FormatsItems printable l n ('{' :: '{' :: f) ('{' :: out)
  | closing {n f out} : FormatsItems printable l n f out → FormatsItems printable l n ('}' :: '}' :: f) ('}' :: out)
  /-- a field without options -/
  | plain {n f out} (r : Ref) {i n' a text} : r.Valid → r.take (shadows l) n = some (i, n') → l[i]? = some a →
      showItemDefault printable a.2 = some text → FormatsItems printable l n' f out →
      FormatsItems printable l n ('{' :: (r.text ++ '}' :: f)) (text ++ out)
  /-- a field with options: argument, width and precision take their arguments in this order -/
  | opts {n f out} (r : Ref) (o : Opts) {i n1 n2 n3 a ty w p text} : r.Valid → r.take (shadows l) n = some (i, n1) →
      l[i]? = some a → optionType a.2 = some ty → o.Valid ty → o.width.value (shadows l) 0 n1 = some (w, n2) →
      precValue (shadows l) o.prec n2 = some (p, n3) → showItem printable (o.meaning w p) a.2 = some text →
      (∀ ty sep, a.2 ≠ .join ty [] sep) →
      FormatsItems printable l n3 f out →
      FormatsItems printable l n ('{' :: (r.text ++ ':' :: (o.text ++ '}' :: f))) (text ++ out)
  /-- the join of an empty range: the values of width and precision do not matter -/
  | empty {n f out} (r : Ref) (o : Opts) {i n1 n2 n3 x ty sep} : r.Valid → r.take (shadows l) n = some (i, n1) →
      l[i]? = some (x, .join ty [] sep) → o.Valid ty → (ty = .char → o.FitsChar) → o.width.skip n1 = some n2 →
      precSkip o.prec n2 = some n3 → FormatsItems printable l n3 f out →
      FormatsItems printable l n ('{' :: (r.text ++ ':' :: (o.text ++ '}' :: f))) out
  /-- a container takes no options -/
  | container {n f out} (r : Ref) {i n1 x ty vs text} : r.Valid → r.take (shadows l) n = some (i, n1) →
      l[i]? = some (x, .container ty vs) → showItem printable {} (.container ty vs) = some text →
      FormatsItems printable l n1 f out → FormatsItems printable l n ('{' :: (r.text ++ ':' :: '}' :: f)) (text ++ out)

end Fmt
end Spec
end Efp
