import Verif.Prelude

/-!
# Standard containers as sequences (sequence.hpp 1441-1563)

The trait functions that make `std::array`, `std::vector` and `std::basic_string` arguments of the list functions.  `nth` returns a
reference; it is kept apart from reading through it, because `std::vector<bool>` has no elements to refer to.
-/

namespace Efp
namespace StdSequence

variable {α β ω : Type}

/-- a standard container -/
inductive StdSeq (α : Type) where
  /-- `std::array<A, n>`; `n` is the number of values -/
  | array (vals : List α)
  /-- `std::vector<A>` other than `std::vector<bool>`; an empty one may have a null `data()` -/
  | vector (vals : List α) (null : Bool)
  /-- `std::basic_string<A>`; the characters are followed by a zero -/
  | string (vals : List α) (zero : α)
  /-- `std::vector<bool>`, which packs its values into bits -/
  | packed (vals : List α)
  deriving DecidableEq, Repr

/-- the values of the container -/
def StdSeq.vals : StdSeq α → List α
  | .array vals => vals
  | .vector vals _ => vals
  | .string vals _ => vals
  | .packed vals => vals

/-- what a `const A&` that `nth` returns is bound to: an element (or the zero behind a string), or a temporary object, which has
ceased to exist when `nth` has returned -/
inductive Bound (α : Type) where
  | elem (i : Nat)
  | temp (a : α)
  deriving DecidableEq, Repr

/-- `CtSizeImpl` and `CtCapacityImpl`, sequence.hpp 1448-1456, 1489-1497, 1530-1538, as the efp container with the same ones -/
def StdSeq.ty : StdSeq α → Prelude.SeqTy
  | .array vals => .array vals.length
  | _ => .vector

/-- `length(as)`, sequence.hpp 1458-1461, 1499-1502, 1540-1543 -/
def length (as : StdSeq α) : Nat := as.vals.length

/-- `as[i]`: the reference or, for the packed bits, the value that a constant container gives; out of range undefined -/
def index (as : StdSeq α) (i : Nat) : Cpp ω (Bound α) :=
  match as with
  | .array vals => if i < vals.length then pure (.elem i) else Cpp.ub .oob
  | .vector vals _ => if i < vals.length then pure (.elem i) else Cpp.ub .oob
  | .string vals _ => if i ≤ vals.length then pure (.elem i) else Cpp.ub .oob
  | .packed vals => match vals[i]? with
    | some a => pure (.temp a)
    | none => Cpp.ub .oob

/-- `nth(i, as)` for a constant container, sequence.hpp 1463-1466, 1504-1507, 1545-1548: `return as[i];` to a `const A&` -/
def nth (i : Nat) (as : StdSeq α) : Cpp ω (Bound α) := index as i

/-- reading through the reference: a temporary is gone by now -/
def load (as : StdSeq α) : Bound α → Cpp ω α
  | .temp _ => Cpp.ub .wildPtr
  | .elem i => match as with
    | .string vals zero => match (vals ++ [zero])[i]? with
      | some a => pure a
      | none => Cpp.ub .oob
    | _ => match as.vals[i]? with
      | some a => pure a
      | none => Cpp.ub .oob

/-- `nth(i, as) = a` for a container that is not constant, sequence.hpp 1468-1471, 1509-1512, 1550-1553; the one for
`std::vector<bool>` does not compile, and the zero behind a string must not be overwritten -/
def assign (i : Nat) (a : α) : Cpp (StdSeq α) Unit := fun as =>
  match as with
  | .array vals => if i < vals.length then .ok () (.array (vals.set i a)) else .ub .oob
  | .vector vals nl => if i < vals.length then .ok () (.vector (vals.set i a) nl) else .ub .oob
  | .string vals z => if i < vals.length then .ok () (.string (vals.set i a) z) else .ub .oob
  | .packed _ => .ub .wildPtr

/-- elements `i`, `i + 1`, ..., `r` of them, each read as a list function reads it -/
def reads (as : StdSeq α) : (r i : Nat) → Cpp ω (List α)
  | 0, _ => pure []
  | r + 1, i => do
    let b ← nth i as
    let a ← load as b
    let rest ← reads as r (i + 1)
    pure (a :: rest)

/-- `as` as the argument of a list function: `length(as)`, `nth(i, as)` and `data(as)`, sequence.hpp 1473-1481, 1514-1522, 1555-1563 -/
def asArg (as : StdSeq α) : Cpp ω (Prelude.Inp α) := do
  let vals ← reads as (length as) 0
  pure ⟨as.ty, vals, 0, match as with | .vector [] nl => nl | _ => false⟩

end StdSequence
end Efp
