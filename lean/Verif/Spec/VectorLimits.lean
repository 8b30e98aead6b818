import Verif.VectorLimits
import Verif.Spec.Lists

/-!
# Specification of `Vector` at the limits of `size_t`
-/

namespace Efp.Spec

open VecS

variable {α : Type}

/-- `size_t` can hold the number 2 (C++ guarantees 16 bits) and elements have at least one byte -/
def PlatOk (p : Lim.Plat) : Prop := 2 ≤ p.w ∧ 1 ≤ p.esz

/-- what a machine can offer: no block of half the address space or more (`PTRDIFF_MAX` bytes is the most an
object can have) -/
def Possible (p : Lim.Plat) (avail : Nat → Bool) : Prop := ∀ b, avail b = true → b < 2 ^ (p.w - 1)

/-- the arguments of the call are values of `size_t` -/
def ArgFits (p : Lim.Plat) : Op α → Prop
  | .reserve n | .shrinkTo n | .insert n _ | .erase n | .setElem n _ => n < 2 ^ p.w
  | _ => True

/-- The number of slots a call has to allocate, in exact arithmetic: none when the capacity is enough. -/
def wanted (s : VecS α) : Op α → Option Nat
  | .push _ => if s.cap ≤ s.size + 1 then some (if s.size = 0 then 2 else 2 * s.size + 1) else none
  | .insert i _ =>
    if i ≤ s.size ∧ s.cap ≤ s.size + 1 then some (if s.cap = 0 then 2 else 2 * s.cap) else none
  | .reserve n => if s.cap < n then some n else none
  | .shrinkToFit => some (s.size + 1)
  | .shrinkTo n => if n ≤ s.size ∧ s.cap ≤ n then some (n + 1) else none
  | _ => none

/-- the calls of a history that did not throw -/
def finished (calls : List (Op α × (Nat → Bool))) (threw : List Bool) : List (Op α) :=
  ((calls.zip threw).filter (fun p => !p.2)).map (fun p => p.1.1)

/-- `s` is what some history of calls with `size_t` arguments leaves, on some machine -/
def LimReachable (p : Lim.Plat) (k : Kind) (s : VecS α) : Prop :=
  ∃ calls threw, (∀ c ∈ calls, ArgFits p c.1 ∧ Possible p c.2) ∧
    (k = .managed → ∀ c ∈ calls, ∀ m, endOp c.1 m) ∧
    Lim.runOps p k calls (VecS.mk0 {}) = .ok (s, threw)

end Efp.Spec
