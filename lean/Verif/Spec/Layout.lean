import Verif.Layout

/-!
# What it means for objects to lie properly in memory
-/

namespace Efp.Spec
open Efp.Layout

/-- What C++ guarantees of the size and the alignment of every object type. -/
def ObjectType (T : Ty) : Prop := (∃ k, T.align = 2 ^ k) ∧ 0 < T.size ∧ T.align ∣ T.size

mutual
/-- A type a program can name: C++ has no arrays of no elements, and an `Enum` or `Tuple` has at least one alternative or
part. -/
def Nameable : Obj → Prop
  | .plain T => ObjectType T
  | .array n A => 0 < n ∧ Nameable A
  | .arrVec n A => 0 < n ∧ Nameable A
  | .vcb n A => 0 < n ∧ Nameable A
  | .vcq n A => 0 < n ∧ Nameable A
  | .enum As => As ≠ [] ∧ AllNameable As
  | .tuple As => As ≠ [] ∧ AllNameable As
def AllNameable : List Obj → Prop
  | [] => True
  | A :: As => Nameable A ∧ AllNameable As
end

/-- The object of type `x` at address `a` is the object of type `o` at `p`, or lies somewhere inside it, at any depth. -/
inductive Inside : Nat → Obj → Nat → Obj → Prop
  | self (p : Nat) (o : Obj) : Inside p o p o
  | deeper {p : Nat} {o : Obj} {b : Nat} {y : Obj} {a : Nat} {x : Obj} :
      (b, y) ∈ o.held p → Inside b y a x → Inside p o a x

/-- Two ranges of bytes, each given by an address and a size, share no byte. -/
def Apart (a s b t : Nat) : Prop := ∀ x, ¬ (a ≤ x ∧ x < a + s ∧ b ≤ x ∧ x < b + t)

end Efp.Spec
