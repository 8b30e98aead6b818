import Verif.SortFault
import Verif.Spec.SortAny

/-!
# What a sort leaves behind when the elements throw (C138)
-/

namespace Efp.Spec

open Sorting

variable {α : Type}

/-- the vector still has as many slots as `l` had elements, each holding a living object, and apart from at most `n` slots
they hold the elements of `l`, in any order -/
def Holes (n : Nat) (led : Ledger) (l : List α) (m : Mem α) : Prop :=
  m.led = led ∧ (∀ c ∈ m.cells, c.alive = true) ∧
  ∃ l' : List α, l'.Perm l ∧ m.cells.length = l'.length ∧
    ∃ bad : List Nat, bad.length ≤ n ∧ ∀ i, i ∉ bad → m.cells[i]? = l'[i]?.map .live

/-- the vector still has as many slots as `l` had elements, each holding a living object, and apart from at most one slot
each holds some element of `l` -/
def DrawnButOne (led : Ledger) (l : List α) (m : Mem α) : Prop :=
  m.led = led ∧ (∀ c ∈ m.cells, c.alive = true) ∧ m.cells.length = l.length ∧
    ∃ bad : Nat, ∀ i, i ≠ bad → i < l.length → ∃ x ∈ l, m.cells[i]? = some (.live x)

/-- a move that throws leaves the object it moved from as it was -/
def Client.Gentle (e : Client α) : Prop := ∀ n f, e.fault n = some f → f.src = .untouched

/-- nothing the element type does throws -/
def Client.Quiet (e : Client α) : Prop := ∀ n, e.fault n = none

end Efp.Spec
