import Verif.SortMerge
import Verif.SortHeap
import Verif.SortTim

/-!
# Properties of the sorts (C35-C41)

`St led l` is the storage of a vector whose elements are `l`, with lifetime ledger `led`.  A run that ends in
`.ok () (St led l')` therefore terminated, touched only existing elements (any other access is `.ub`), left
every slot holding a value (no moved-from husk) and constructed or destroyed no element of the vector.
`k` is the element kind (`managed`: moving out of an element leaves it moved-from).
-/

namespace Efp
namespace Props

open Spec Sorting

variable {α : Type}

/-! ### a comparison used in the examples: on the first component only, so that distinct elements can be equivalent -/

/-- compares pairs by key -/
def byKey (a b : Nat × Nat) : Bool := decide (a.1 < b.1)

theorem byKey_swo : StrictWeakOrder byKey where
  irrefl := by intro a; simp [byKey]
  trans := by intro a b c; simp [byKey]; omega
  incomp := by intro a b c; simp [byKey]; omega

/-- `<=` by key -/
def byKeyLe (a b : Nat × Nat) : Bool := decide (a.1 ≤ b.1)

theorem byKeyLe_total : TotalPreorder byKeyLe where
  total := by intro a b; simp [byKeyLe]; omega
  trans := by intro a b c; simp [byKeyLe]; omega

/-! ### C35 -/

/-- C35: for EVERY comparison function, consistent or not, each sort of a whole vector ends normally with a
permutation of its input.  (`l.length < 2^64`: sizes are `size_t`.) -/
theorem C35_sorts_permute (k : Kind) (comp : α → α → Bool) (led : Ledger) (l : List α) (hl : l.length < 2 ^ 64) :
    (∃ l', quicksortBy k comp (St led l) = .ok () (St led l') ∧ l'.Perm l) ∧
    (∃ l', heapsortBy k comp (St led l) = .ok () (St led l') ∧ l'.Perm l) ∧
    (∃ l', insertionSortBy k comp (St led l) = .ok () (St led l') ∧ l'.Perm l) ∧
    (∃ l', sortUnstableBy k comp (St led l) = .ok () (St led l') ∧ l'.Perm l) ∧
    (∃ l', sortBy k comp (St led l) = .ok () (St led l') ∧ l'.Perm l) := by
  refine ⟨?_, ?_, ?_, ?_, sortBy_run l⟩
  · obtain ⟨l', h1, h2, _⟩ := quicksortBy_run (k := k) (comp := comp) (led := led) l hl
    exact ⟨l', h1, h2⟩
  · obtain ⟨l', h1, h2, _⟩ := heapsortBy_run (k := k) (comp := comp) (led := led) l
    exact ⟨l', h1, h2⟩
  · obtain ⟨l', h1, h2, _⟩ := insertionSortBy_run (k := k) (comp := comp) (led := led) l
    exact ⟨l', h1, h2⟩
  · obtain ⟨l', h1, h2, _⟩ := sortUnstableBy_run (k := k) (comp := comp) (led := led) l hl
    exact ⟨l', h1, h2⟩

/-- C35 for the sorts that take a range `[left, right]` inside the vector: they permute that range and leave
the elements before (`pre`) and after (`post`) it in place, for every comparison function -/
theorem C35_range_sorts_permute (k : Kind) (comp : α → α → Bool) (led : Ledger) (pre xs post : List α)
    (left right : Nat) (hleft : left = pre.length) (hright : right + 1 = pre.length + xs.length) (hxs : xs ≠ [])
    (hl : pre.length + xs.length < 2 ^ 64) :
    (∃ ys, quicksortRange k comp left right (St led (pre ++ xs ++ post)) = .ok () (St led (pre ++ ys ++ post)) ∧
      ys.Perm xs) ∧
    (∃ ys, mergeSortBy k comp left right (St led (pre ++ xs ++ post)) = .ok () (St led (pre ++ ys ++ post)) ∧
      ys.Perm xs) ∧
    (∃ ys, insertionRange k comp left right (St led (pre ++ xs ++ post)) = .ok () (St led (pre ++ ys ++ post)) ∧
      ys.Perm xs) := by
  have hpos : 0 < xs.length := List.length_pos_iff.mpr hxs
  refine ⟨?_, ?_, ?_⟩
  · obtain ⟨ys, h1, h2, _⟩ := quicksortF_run (k := k) (comp := comp) (led := led) (right - left + 1) xs pre post left
      right hleft hright (by omega) hl (by omega)
    exact ⟨ys, h1, h2⟩
  · obtain ⟨ys, h1, h2, _⟩ := mergeSortBy_run (k := k) (comp := comp) (led := led) xs pre post left right hleft
      hright hxs
    exact ⟨ys, h1, h2⟩
  · obtain ⟨ys, h1, h2, _⟩ := insertionRange_run (k := k) (comp := comp) (led := led) xs pre post hxs left right
      hleft hright
    exact ⟨ys, h1, h2⟩

/-- an inconsistent comparator (always "less") and a range in the middle -/
example : ∃ ys, quicksortRange .managed (fun _ _ => true) 1 3 (St {} ([9] ++ [3, 1, 2] ++ [0])) =
    .ok () (St {} ([9] ++ ys ++ [0])) ∧ ys.Perm [3, 1, 2] :=
  (C35_range_sorts_permute .managed (fun _ _ => true) {} [9] [3, 1, 2] [0] 1 3 rfl rfl (by simp) (by decide)).1

/-! ### C36 -/

/-- C36: quicksort with a strict weak order sorts the vector -/
theorem C36_quicksort_sorts (k : Kind) (comp : α → α → Bool) (hc : StrictWeakOrder comp) (led : Ledger) (l : List α)
    (hl : l.length < 2 ^ 64) :
    ∃ l', quicksortBy k comp (St led l) = .ok () (St led l') ∧ l'.Perm l ∧ Sorted comp l' := by
  obtain ⟨l', h1, h2, h3⟩ := quicksortBy_run (k := k) (comp := comp) (led := led) l hl
  exact ⟨l', h1, h2, h3 (swo_partial hc)⟩

/-- C36 for `quicksort_by(v, low, high, comp)`: the range is sorted, the rest untouched -/
theorem C36_quicksort_range_sorts (k : Kind) (comp : α → α → Bool) (hc : StrictWeakOrder comp) (led : Ledger)
    (pre xs post : List α) (low high : Nat) (hlow : low = pre.length) (hhigh : high + 1 = pre.length + xs.length)
    (hxs : xs ≠ []) (hl : pre.length + xs.length < 2 ^ 64) :
    ∃ ys, quicksortRange k comp low high (St led (pre ++ xs ++ post)) = .ok () (St led (pre ++ ys ++ post)) ∧
      ys.Perm xs ∧ Sorted comp ys := by
  have hpos : 0 < xs.length := List.length_pos_iff.mpr hxs
  obtain ⟨ys, h1, h2, h3⟩ := quicksortF_run (k := k) (comp := comp) (led := led) (high - low + 1) xs pre post low
    high hlow hhigh (by omega) hl (by omega)
  exact ⟨ys, h1, h2, h3 (swo_partial hc)⟩

/-- C36, stronger: a strict partial order is enough.  Whatever elements are incomparable, no element ends up
before a smaller one. -/
theorem C36_quicksort_under_partial_order (k : Kind) (comp : α → α → Bool) (hc : StrictPartialOrder comp) (led : Ledger)
    (l : List α) (hl : l.length < 2 ^ 64) :
    ∃ l', quicksortBy k comp (St led l) = .ok () (St led l') ∧ l'.Perm l ∧ Sorted comp l' := by
  obtain ⟨l', h1, h2, h3⟩ := quicksortBy_run (k := k) (comp := comp) (led := led) l hl
  exact ⟨l', h1, h2, h3 hc⟩

/-- componentwise `<`: a strict partial order that is not weak -/
def below (a b : Nat × Nat) : Bool := decide (a.1 < b.1) && decide (a.2 < b.2)

theorem below_spo : StrictPartialOrder below where
  irrefl := by intro a; simp [below]
  trans := by intro a b c; simp [below]; omega

example : ¬ StrictWeakOrder below := fun h => by
  have := h.incomp (1, 1) (0, 3) (2, 2) rfl rfl rfl rfl
  exact absurd this.1 (by decide)

example : ∃ l', quicksortBy .managed below (St {} [(2, 2), (0, 3), (1, 1)]) = .ok () (St {} l') ∧
    l'.Perm [(2, 2), (0, 3), (1, 1)] ∧ Sorted below l' :=
  C36_quicksort_under_partial_order .managed below below_spo {} _ (by decide)

example : ∃ l', quicksortBy .managed byKey (St {} [(3, 0), (1, 1), (3, 2), (2, 3)]) = .ok () (St {} l') ∧
    l'.Perm [(3, 0), (1, 1), (3, 2), (2, 3)] ∧ Sorted byKey l' :=
  C36_quicksort_sorts .managed byKey byKey_swo {} _ (by decide)

/-! ### C37 -/

/-- C37: heapsort with a strict weak order sorts the vector -/
theorem C37_heapsort_sorts (k : Kind) (comp : α → α → Bool) (hc : StrictWeakOrder comp) (led : Ledger) (l : List α) :
    ∃ l', heapsortBy k comp (St led l) = .ok () (St led l') ∧ l'.Perm l ∧ Sorted comp l' := by
  obtain ⟨l', h1, h2, h3⟩ := heapsortBy_run (k := k) (comp := comp) (led := led) l
  exact ⟨l', h1, h2, h3 hc⟩

example : ∃ l', heapsortBy .managed byKey (St {} [(3, 0), (1, 1), (3, 2), (2, 3)]) = .ok () (St {} l') ∧
    l'.Perm [(3, 0), (1, 1), (3, 2), (2, 3)] ∧ Sorted byKey l' :=
  C37_heapsort_sorts .managed byKey byKey_swo {} _

/-! ### C38 -/

/-- C38: insertion sort with a strict weak order sorts the vector and keeps equivalent elements in order -/
theorem C38_insertion_sort_sorts_stably (k : Kind) (comp : α → α → Bool) (hc : StrictWeakOrder comp) (led : Ledger)
    (l : List α) :
    ∃ l', insertionSortBy k comp (St led l) = .ok () (St led l') ∧ l'.Perm l ∧ Sorted comp l' ∧ Stable comp l l' := by
  obtain ⟨l', h1, h2, h3, _⟩ := insertionSortBy_run (k := k) (comp := comp) (led := led) l
  exact ⟨l', h1, h2, h3 hc⟩

example : ∃ l', insertionSortBy .managed byKey (St {} [(3, 0), (1, 1), (3, 2), (2, 3)]) = .ok () (St {} l') ∧
    l'.Perm [(3, 0), (1, 1), (3, 2), (2, 3)] ∧ Sorted byKey l' ∧
    Stable byKey [(3, 0), (1, 1), (3, 2), (2, 3)] l' :=
  C38_insertion_sort_sorts_stably .managed byKey byKey_swo {} _

/-! ### C39 -/

/-- C39 (part): `merge_sort_by(v, left, right, comp)` sorts the range and leaves the rest untouched.  Not proved,
because false (next theorem): stability for a strict weak order. -/
theorem C39_merge_sort_sorts_range_partial (k : Kind) (comp : α → α → Bool) (hc : StrictWeakOrder comp) (led : Ledger)
    (pre xs post : List α) (left right : Nat) (hleft : left = pre.length)
    (hright : right + 1 = pre.length + xs.length) (hxs : xs ≠ []) :
    ∃ ys, mergeSortBy k comp left right (St led (pre ++ xs ++ post)) = .ok () (St led (pre ++ ys ++ post)) ∧
      ys.Perm xs ∧ Sorted comp ys := by
  obtain ⟨ys, h1, h2, h3, _⟩ := mergeSortBy_run (k := k) (comp := comp) (led := led) xs pre post left right hleft
    hright hxs
  exact ⟨ys, h1, h2, (h3 hc).1⟩

/-- C39 is false as to stability: for a strict weak order such as `<`, equivalent elements always come out in
exactly the REVERSE of their input order -/
theorem C39_merge_sort_reverses_equivalents (k : Kind) (comp : α → α → Bool) (hc : StrictWeakOrder comp) (led : Ledger)
    (pre xs post : List α) (left right : Nat) (hleft : left = pre.length)
    (hright : right + 1 = pre.length + xs.length) (hxs : xs ≠ []) :
    ∃ ys, mergeSortBy k comp left right (St led (pre ++ xs ++ post)) = .ok () (St led (pre ++ ys ++ post)) ∧
      ∀ z, ys.filter (equivalent comp z) = (xs.filter (equivalent comp z)).reverse := by
  obtain ⟨ys, h1, h2, h3, _⟩ := mergeSortBy_run (k := k) (comp := comp) (led := led) xs pre post left right hleft
    hright hxs
  exact ⟨ys, h1, (h3 hc).2⟩

/-- hence no range with two distinct equivalent elements is sorted stably -/
theorem C39_merge_sort_unstable (k : Kind) (comp : α → α → Bool) (hc : StrictWeakOrder comp) (led : Ledger)
    (xs : List α) (z : α) (hz : (xs.filter (equivalent comp z)).reverse ≠ xs.filter (equivalent comp z)) :
    ∃ ys, mergeSortBy k comp 0 (xs.length - 1) (St led xs) = .ok () (St led ys) ∧ ¬ Stable comp xs ys := by
  have hne : xs ≠ [] := by intro h; subst h; simp at hz
  have hpos : 0 < xs.length := List.length_pos_iff.mpr hne
  obtain ⟨ys, h1, h2⟩ := C39_merge_sort_reverses_equivalents k comp hc led [] xs [] 0 (xs.length - 1) rfl
    (by simp; omega) hne
  refine ⟨ys, by simpa using h1, fun hs => hz ?_⟩
  rw [← h2 z, hs z]

/-- C39 holds, stability included, when the comparison is a total preorder such as `<=` -/
theorem C39_merge_sort_stable_for_le (k : Kind) (comp : α → α → Bool) (hc : TotalPreorder comp) (led : Ledger)
    (pre xs post : List α) (left right : Nat) (hleft : left = pre.length)
    (hright : right + 1 = pre.length + xs.length) (hxs : xs ≠ []) :
    ∃ ys, mergeSortBy k comp left right (St led (pre ++ xs ++ post)) = .ok () (St led (pre ++ ys ++ post)) ∧
      ys.Perm xs ∧ SortedLe comp ys ∧ ∀ z, ys.filter (equivalentLe comp z) = xs.filter (equivalentLe comp z) := by
  obtain ⟨ys, h1, h2, _, h4⟩ := mergeSortBy_run (k := k) (comp := comp) (led := led) xs pre post left right hleft
    hright hxs
  exact ⟨ys, h1, h2, (h4 hc).1, (h4 hc).2⟩

example : ∃ ys, mergeSortBy .managed byKey 1 3 (St {} ([(9, 9)] ++ [(3, 0), (1, 1), (3, 2)] ++ [(0, 0)])) =
    .ok () (St {} ([(9, 9)] ++ ys ++ [(0, 0)])) ∧ ys.Perm [(3, 0), (1, 1), (3, 2)] ∧ Sorted byKey ys :=
  C39_merge_sort_sorts_range_partial .managed byKey byKey_swo {} _ _ _ 1 3 rfl rfl (by simp)

/-- a concrete unstable run -/
example : ∃ ys, mergeSortBy .trivial byKey 0 1 (St {} [(3, 0), (3, 1)]) = .ok () (St {} ys) ∧
    ¬ Stable byKey [(3, 0), (3, 1)] ys :=
  C39_merge_sort_unstable .trivial byKey byKey_swo {} [(3, 0), (3, 1)] (3, 0) (by decide)

example : ∃ ys, mergeSortBy .trivial byKeyLe 0 1 (St {} ([] ++ [(3, 0), (3, 1)] ++ [])) = .ok () (St {} ([] ++ ys ++ [])) ∧
    ys.Perm [(3, 0), (3, 1)] ∧ SortedLe byKeyLe ys ∧
    ∀ z, ys.filter (equivalentLe byKeyLe z) = [(3, 0), (3, 1)].filter (equivalentLe byKeyLe z) :=
  C39_merge_sort_stable_for_le .trivial byKeyLe byKeyLe_total {} _ _ _ 0 1 rfl rfl (by simp)

/-! ### C40 -/

/-- C40: `sort_unstable` with a strict weak order sorts the vector -/
theorem C40_sort_unstable_sorts (k : Kind) (comp : α → α → Bool) (hc : StrictWeakOrder comp) (led : Ledger)
    (l : List α) (hl : l.length < 2 ^ 64) :
    ∃ l', sortUnstableBy k comp (St led l) = .ok () (St led l') ∧ l'.Perm l ∧ Sorted comp l' := by
  obtain ⟨l', h1, h2, h3⟩ := sortUnstableBy_run (k := k) (comp := comp) (led := led) l hl
  exact ⟨l', h1, h2, h3 (swo_partial hc)⟩

/-- C40, stronger: a strict partial order is enough -/
theorem C40_sort_unstable_under_partial_order (k : Kind) (comp : α → α → Bool) (hc : StrictPartialOrder comp)
    (led : Ledger) (l : List α) (hl : l.length < 2 ^ 64) :
    ∃ l', sortUnstableBy k comp (St led l) = .ok () (St led l') ∧ l'.Perm l ∧ Sorted comp l' := by
  obtain ⟨l', h1, h2, h3⟩ := sortUnstableBy_run (k := k) (comp := comp) (led := led) l hl
  exact ⟨l', h1, h2, h3 hc⟩

example : ∃ l', sortUnstableBy .managed below (St {} [(2, 2), (0, 3), (1, 1)]) = .ok () (St {} l') ∧
    l'.Perm [(2, 2), (0, 3), (1, 1)] ∧ Sorted below l' :=
  C40_sort_unstable_under_partial_order .managed below below_spo {} _ (by decide)

example : ∃ l', sortUnstableBy .managed byKey (St {} [(3, 0), (1, 1), (3, 2), (2, 3)]) = .ok () (St {} l') ∧
    l'.Perm [(3, 0), (1, 1), (3, 2), (2, 3)] ∧ Sorted byKey l' :=
  C40_sort_unstable_sorts .managed byKey byKey_swo {} _ (by decide)

/-! ### C41 -/

/-- C41 (part): `sort` of at most 32 elements sorts stably.  False beyond (next theorems). -/
theorem C41_sort_small_partial (k : Kind) (comp : α → α → Bool) (hc : StrictWeakOrder comp) (led : Ledger) (l : List α)
    (hl : l.length ≤ 32) :
    ∃ l', sortBy k comp (St led l) = .ok () (St led l') ∧ l'.Perm l ∧ Sorted comp l' ∧ Stable comp l l' :=
  sortBy_small l hl hc

/-- C41 (part): `sort` of a sorted vector of any length changes nothing -/
theorem C41_sort_sorted_partial (k : Kind) (comp : α → α → Bool) (hc : StrictWeakOrder comp) (led : Ledger)
    (l : List α) (hs : Sorted comp l) : sortBy k comp (St led l) = .ok () (St led l) :=
  sortBy_sorted l hc hs

/-- C41 is false: for every strict weak order that is not trivial and every length over 32 there is a vector
that `sort` does not sort -/
theorem C41_sort_fails (k : Kind) (comp : α → α → Bool) (hc : StrictWeakOrder comp) (led : Ledger) (a b : α)
    (hab : comp a b = true) (n : Nat) (hn : 32 < n) :
    ∃ l l', l.length = n ∧ sortBy k comp (St led l) = .ok () (St led l') ∧ ¬ Sorted comp l' := by
  refine ⟨_, _, ?_, sortBy_stuck (k := k) (led := led) a b (n - 32) (by omega) hc hab, ?_⟩
  · simp; omega
  · intro h
    have := (List.pairwise_append.mp h).2.2 b (by simp) a (by simp; omega)
    rw [hab] at this; cases this

/-- what `sort` computes between 33 and 64 elements: the first 32 elements sorted, followed by the remaining
ones sorted; the two runs are never merged -/
theorem C41_sort_two_runs (k : Kind) (comp : α → α → Bool) (hc : StrictWeakOrder comp) (led : Ledger)
    (xs rest : List α) (hx : xs.length = 32) (hr : 0 < rest.length) (hr2 : rest.length ≤ 32) :
    ∃ ys zs, sortBy k comp (St led (xs ++ rest)) = .ok () (St led (ys ++ zs)) ∧
      ys.Perm xs ∧ Sorted comp ys ∧ Stable comp xs ys ∧ zs.Perm rest ∧ Sorted comp zs ∧ Stable comp rest zs :=
  sortBy_two_runs xs rest hx hr hr2 hc

example : ∃ l', sortBy .managed byKey (St {} [(3, 0), (1, 1), (3, 2), (2, 3)]) = .ok () (St {} l') ∧
    l'.Perm [(3, 0), (1, 1), (3, 2), (2, 3)] ∧ Sorted byKey l' ∧
    Stable byKey [(3, 0), (1, 1), (3, 2), (2, 3)] l' :=
  C41_sort_small_partial .managed byKey byKey_swo {} _ (by decide)

example : sortBy .managed byKey (St {} [(1, 0), (1, 1), (2, 0)]) = .ok () (St {} [(1, 0), (1, 1), (2, 0)]) :=
  C41_sort_sorted_partial .managed byKey byKey_swo {} _ (by unfold Sorted; decide)

example : ∃ l l', l.length = 33 ∧ sortBy .trivial byKey (St {} l) = .ok () (St {} l') ∧ ¬ Sorted byKey l' :=
  C41_sort_fails .trivial byKey byKey_swo {} (0, 0) (1, 0) (by decide) 33 (by decide)

example : ∃ ys zs, sortBy .trivial byKey (St {} (List.replicate 32 (5, 0) ++ [(4, 0), (1, 0)])) =
      .ok () (St {} (ys ++ zs)) ∧ ys.Perm (List.replicate 32 (5, 0)) ∧ Sorted byKey ys ∧
      Stable byKey (List.replicate 32 (5, 0)) ys ∧ zs.Perm [(4, 0), (1, 0)] ∧ Sorted byKey zs ∧
      Stable byKey [(4, 0), (1, 0)] zs :=
  C41_sort_two_runs .trivial byKey byKey_swo {} _ _ (by simp) (by simp) (by simp)

end Props
end Efp
