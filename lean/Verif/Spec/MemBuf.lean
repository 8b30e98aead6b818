import Verif.Fmt.MemWorld

/-!
# Specification of programs over `memory_buffer`s

Buffers are lists.  An element is `none` while it has no value: after a `resize` to a larger size.
-/

namespace Efp
namespace Spec
namespace MemBuf

open Efp.Fmt (Cmd Op)

/-- the elements of the buffers that exist, by name -/
abbrev Lists := Nat → Option (List (Option Char))

/-- the text an operation of the formatting library writes -/
def written : Op → List Char
  | .push c => [c]
  | .append t => t
  | .reserve _ => []
  | .direct p t => p ++ t

/-- one list replaced -/
def Lists.set (t : Lists) (i : Nat) (l : Option (List (Option Char))) : Lists := fun j => if j = i then l else t j

/-- What the caller must see to.  Sizes are `size_t` values. -/
def Legal (t : Lists) : Cmd → Prop
  | .create i => t i = none
  | .destroy i => t i ≠ none
  | .push i _ => ∃ l, t i = some l ∧ l.length + 1 < 2 ^ 64
  | .append i s => ∃ l, t i = some l ∧ l.length + s.length < 2 ^ 64
  | .reserve i n => t i ≠ none ∧ n < 2 ^ 64
  | .resize i n => t i ≠ none ∧ n < 2 ^ 64
  | .clear i => t i ≠ none
  | .set i k _ => ∃ l, t i = some l ∧ k < l.length
  | .format i o => ∃ l, t i = some l ∧ l.length + (o.flatMap written).length < 2 ^ 64
  | .moveCtor i j => t i = none ∧ t j ≠ none
  | .moveAssign i j => i ≠ j ∧ t i ≠ none ∧ t j ≠ none

/-- What a command does when it completes.  A buffer that was moved from is left as it was or empty. -/
def Done (t t' : Lists) : Cmd → Prop
  | .create i => t' = t.set i (some [])
  | .destroy i => t' = t.set i none
  | .push i c => ∃ l, t i = some l ∧ t' = t.set i (some (l ++ [some c]))
  | .append i s => ∃ l, t i = some l ∧ t' = t.set i (some (l ++ s.map some))
  | .reserve _ _ => t' = t
  | .resize i n => ∃ l more, t i = some l ∧ more.length = n ∧ t' = t.set i (some ((l ++ more).take n))
  | .clear i => t' = t.set i (some [])
  | .set i k c => ∃ l, t i = some l ∧ t' = t.set i (some (l.set k (some c)))
  | .format i o => ∃ l, t i = some l ∧ t' = t.set i (some (l ++ (o.flatMap written).map some))
  | .moveCtor i j | .moveAssign i j =>
    ∃ l, t j = some l ∧ ∃ l', (l' = l ∨ l' = []) ∧ t' = (t.set i (some l)).set j (some l')

/-- What a command that throws leaves: what was there, except that a part of the text to format may have been written. -/
def Failed (t t' : Lists) : Cmd → Prop
  | .push _ _ | .append _ _ | .reserve _ _ | .resize _ _ => t' = t
  | .format i o => ∃ l s, t i = some l ∧ s <+: o.flatMap written ∧ t' = t.set i (some (l ++ s.map some))
  | _ => False

/-- the size a command asks for is at most `limit` -/
def Modest (limit : Nat) (t : Lists) : Cmd → Prop
  | .push i _ => ∀ l, t i = some l → l.length + 1 ≤ limit
  | .append i s => ∀ l, t i = some l → l.length + s.length ≤ limit
  | .reserve _ n => n ≤ limit
  | .resize _ n => n ≤ limit
  | .format i o => ∀ l, t i = some l → l.length + (o.flatMap written).length ≤ limit ∧
      ∀ n, .reserve n ∈ o → l.length + (o.flatMap written).length + n ≤ limit
  | _ => True

end MemBuf
end Spec
end Efp
