import Verif.SortTimExact
import Verif.Props.Sort

/-!
# Exactly which vectors `sort` sorts (C41)

Completes `C41_sort_small_partial` and `C41_sort_fails`: for every vector, of any length, whether the result is
sorted depends only on the order between blocks of 32 elements.
-/

namespace Efp
namespace Props

open Spec Sorting

variable {α : Type}

/-- C41 (exact): `sort` of any vector ends with a rearrangement of its elements.  The result is sorted if and
only if no element was greater than an element in a later block of 32, and then the sort was stable. -/
theorem C41_sort_iff (k : Kind) (comp : α → α → Bool) (hc : StrictWeakOrder comp) (led : Ledger) (l : List α) :
    ∃ l', sortBy k comp (St led l) = .ok () (St led l') ∧ l'.Perm l ∧ (Sorted comp l' ↔ BlocksInOrder comp l) ∧
      (Sorted comp l' → Stable comp l l') :=
  sortBy_exact l hc

/-- 33 elements of which the last belongs before the others: not sorted -/
example : ∃ l', sortBy .managed byKey (St {} (List.replicate 32 (5, 0) ++ [(4, 0)])) = .ok () (St {} l') ∧
    ¬ Sorted byKey l' := by
  obtain ⟨l', h, _, hs, _⟩ := C41_sort_iff .managed byKey byKey_swo {} (List.replicate 32 (5, 0) ++ [(4, 0)])
  refine ⟨l', h, fun hh => ?_⟩
  have := hs.mp hh 0 32 (5, 0) (4, 0) (by decide) (by decide) (by decide)
  exact absurd this (by decide)

/-- 34 elements, out of order within both blocks only: sorted -/
example : ∃ l', sortBy .managed byKey (St {} ((2, 0) :: List.replicate 31 (1, 0) ++ [(4, 0), (3, 0)])) =
    .ok () (St {} l') ∧ Sorted byKey l' := by
  obtain ⟨l', h, _, hs, _⟩ := C41_sort_iff .managed byKey byKey_swo {}
    ((2, 0) :: List.replicate 31 (1, 0) ++ [(4, 0), (3, 0)])
  refine ⟨l', h, hs.mpr ?_⟩
  exact (blocks_append (xs := (2, 0) :: List.replicate 31 (1, 0)) (rest := [(4, 0), (3, 0)]) (by decide)
    (fun _ => by decide)).mpr ⟨by decide, fun i j a b hij ha hb => by
      have : j < 2 := (List.getElem?_eq_some_iff.mp hb).1
      omega⟩

end Props
end Efp
