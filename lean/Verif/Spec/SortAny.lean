import Verif.SortCost
import Verif.SortLemmas

/-!
# What a sort leaves behind when its comparator throws (C126)
-/

namespace Efp.Spec

open Sorting

variable {α β : Type}

/-- the outcome is not undefined: either the run returned and left elements with `ret`, or the comparator threw and the
elements it left have `thr` -/
def Ends (thr : Mem α → Prop) (ret : β → Mem α → Prop) : Out (Mem α × Nat) β → Prop
  | .ok b s => ret b s.1
  | .thrown s => thr s.1
  | .ub _ => False

/-- the elements are those of `l`, in any order, and each slot holds one -/
def Same (led : Ledger) (l : List α) (m : Mem α) : Prop := ∃ l', m = St led l' ∧ l'.Perm l

/-- the elements are those of `l`, in any order, except that one slot need not hold its element `key`: a living but
arbitrary, perhaps moved-from, object stands there -/
def OneHole (led : Ledger) (l : List α) (m : Mem α) : Prop :=
  ∃ pre c post key, m = ⟨pre.map .live ++ c :: post.map .live, led⟩ ∧ c.alive = true ∧ (pre ++ key :: post).Perm l

/-- every slot holds some element of `l`; the number of slots is unchanged, but an element of `l` may be missing and
another be there twice -/
def Drawn (led : Ledger) (l : List α) (m : Mem α) : Prop :=
  ∃ l', m = St led l' ∧ l'.length = l.length ∧ ∀ x ∈ l', x ∈ l

end Efp.Spec
