import Verif.SortAny
import Verif.Props.Sort

/-!
# Sorting with a comparator that throws or contradicts itself (C126)

`comp : Comparator α` is any comparison function object: `comp n a b` is what its `n`-th call answers for `a` and `b`,
`none` if that call throws.  `c` is the number of calls made before the sort.  `Ends thr ret out` says: the outcome is
not undefined; if the sort returned, what it left has `ret`, and if the comparator threw, what was left has `thr`
(`Verif/Spec/SortAny.lean`).
-/

namespace Efp
namespace Props

open Spec Sorting

variable {α : Type}

/-! ### C126 -/

/-- C126 (part): whatever the comparator does, `heapsort` and `quicksort` access only existing elements, terminate, and
leave all elements in the vector, in some order, whether they return or the comparator throws.  Missing because false
(below): the same for the other sorts. -/
theorem C126_throw_keeps_partial (k : Kind) (comp : Comparator α) (led : Ledger) (l : List α) (hl : l.length < 2 ^ 64) (c : Nat) :
    Ends (Same led l) (fun _ => Same led l) (heapsortC k comp (St led l, c)) ∧
    Ends (Same led l) (fun _ => Same led l) (quicksortC k comp (St led l, c)) :=
  ⟨heapsort_any c, quicksort_any hl c⟩

/-- C126 (part): whatever the comparator does, `insertion_sort`, `sort_unstable` and `sort` have defined behaviour; if
they return, all elements are there; if the comparator throws, at most one slot has lost its element. -/
theorem C126_throw_one_hole_partial (k : Kind) (comp : Comparator α) (led : Ledger) (l : List α) (hne : l ≠ [])
    (hl : l.length < 2 ^ 64) (c : Nat) :
    Ends (OneHole led l) (fun _ => Same led l) (insertionSortC k comp (St led l, c)) ∧
    Ends (OneHole led l) (fun _ => Same led l) (sortUnstableC k comp (St led l, c)) ∧
    Ends (OneHole led l) (fun _ => Same led l) (sortC k comp (St led l, c)) :=
  ⟨insertionSort_any l c (.refl _), sortUnstable_any hl c, sort_any hne c⟩

/-- C126 (part): whatever the comparator does, `merge_sort_by` of a range of the vector has defined behaviour; if it
returns, all elements are there; if the comparator throws, every slot still holds one of the elements. -/
theorem C126_throw_merge_partial (k : Kind) (comp : Comparator α) (led : Ledger) (l : List α) (left right : Nat)
    (hr : right < l.length) (c : Nat) :
    Ends (Drawn led l) (fun _ => Same led l) (mergeSortFC k comp (right - left + 1) left right (St led l, c)) :=
  mergeSortF_any _ _ _ _ _ (.refl _) hr (by omega)

/-- the merges of `sort` never lose an element, only its runs do: a comparator that throws during `timsort_merge` leaves
all elements -/
theorem C126_throw_timsort_merge (k : Kind) (comp : Comparator α) (led : Ledger) (l : List α) (start mid end_ : Nat)
    (h1 : start ≤ mid) (h2 : mid < end_) (h3 : end_ < l.length) (c : Nat) :
    Ends (Same led l) (fun _ => Same led l) (timMergeC k comp start mid end_ (St led l, c)) :=
  timMerge_any _ _ _ _ _ (.refl _) h1 h2 h3

/-- C126 is false of `insertion_sort` and `sort` with resource-owning elements: on EVERY vector of two or more elements a
comparator that throws at its first call leaves the second slot moved-from; its element is gone -/
theorem C126_insertion_loses (comp : Comparator α) (led : Ledger) (a b : α) (l : List α) (c : Nat)
    (hc : ∀ x y, comp c x y = none) :
    insertionSortC .managed comp (St led (a :: b :: l), c) = .thrown (⟨.live a :: .moved :: l.map .live, led⟩, c + 1) ∧
    sortC .managed comp (St led (a :: b :: l), c) = .thrown (⟨.live a :: .moved :: l.map .live, led⟩, c + 1) := by
  have hlen : (St led (a :: b :: l)).cells.length = l.length + 2 := by simp [St]
  have hone : insOneC .managed comp 0 1 (St led (a :: b :: l), c) = .thrown (⟨.live a :: .moved :: l.map .live, led⟩, c + 1) := by
    simp [insOneC, insLoopC, St, lift, Mem.moveOut, Mem.read, cmp, hc, Cpp.bind_run]
  have hrange : ∀ n, insertionRangeC .managed comp 0 (n + 1) (St led (a :: b :: l), c) =
      .thrown (⟨.live a :: .moved :: l.map .live, led⟩, c + 1) := by
    intro n
    unfold insertionRangeC
    rw [Nat.sub_zero, Nat.zero_add, forUp_succ, Cpp.bind_thrown hone]
  have hget : lift Cpp.get (St led (a :: b :: l), c) = .ok (St led (a :: b :: l)) (St led (a :: b :: l), c) := rfl
  constructor
  · unfold insertionSortC
    rw [Cpp.bind_ok hget, hlen, if_pos (by omega)]
    exact hrange l.length
  · unfold sortC
    rw [Cpp.bind_ok hget, hlen]
    have : runsLoopC .managed comp (l.length + 2) (l.length + 2 + 1) 0 (St led (a :: b :: l), c) =
        .thrown (⟨.live a :: .moved :: l.map .live, led⟩, c + 1) := by
      unfold runsLoopC
      rw [if_pos (by omega), Cpp.bind_thrown]
      split
      · exact hrange 30
      · exact hrange l.length
    rw [Cpp.bind_thrown this]

/-- … with elements that moving does not change it takes three elements: the answers `false`, `true`, throw leave
`a, b, b`; the third element is gone -/
theorem C126_insertion_duplicates (comp : Comparator α) (led : Ledger) (a b d : α) (h0 : comp 0 b a = some false)
    (h1 : comp 1 d b = some true) (h2 : comp 2 d a = none) :
    insertionSortC .trivial comp (St led [a, b, d], 0) = .thrown (St led [a, b, b], 3) ∧
    sortC .trivial comp (St led [a, b, d], 0) = .thrown (St led [a, b, b], 3) := by
  constructor <;>
  simp [insertionSortC, sortC, runsLoopC, insertionRangeC, forUp, insOneC, insLoopC, St, lift, Mem.moveOut, Mem.read, Mem.assign, cmp, h0, h1, h2, Cpp.bind_run]

/-- C126 is false of `merge_sort_by`, for every kind of element: the answers `true`, `true`, `false`, throw on `a, b, d, e`
leave `d, b, d, e`; the first element is gone -/
theorem C126_merge_loses (k : Kind) (comp : Comparator α) (led : Ledger) (a b d e : α) (h0 : comp 0 a b = some true)
    (h1 : comp 1 d e = some true) (h2 : comp 2 a d = some false) (h3 : comp 3 a e = none) :
    mergeSortFC k comp 4 0 3 (St led [a, b, d, e], 0) = .thrown (St led [d, b, d, e], 4) := by
  cases k <;>
  simp [mergeSortFC, mergeC, mergeLoopC, readRange, writeAll, St, lift, Mem.read, Mem.assign, Cell.alive, cmp, h0, h1, h2, h3, Cpp.bind_run]

/-- C126 is false of `sort_unstable` on EVERY pair of resource-owning elements: the answer `false`, then throw leaves a
moved-from slot -/
theorem C126_sort_unstable_loses (comp : Comparator α) (led : Ledger) (a b : α) (h0 : comp 0 a b = some false)
    (h1 : comp 1 a b = none) :
    sortUnstableC .managed comp (St led [a, b], 0) = .thrown (⟨[.live b, .moved], led⟩, 2) := by
  simp [sortUnstableC, quicksortFC, partitionC, partLoopC, insertionSortC, insertionRangeC, forUp, insOneC, insLoopC, St, lift, SZ,
    swap, take, put, Mem.moveOut, Mem.read, Cell.alive, cmp, h0, h1, Cpp.bind_run]

-- a comparator that throws at its fourth call and contradicts itself before
example : heapsortC .managed (fun n a b => if n = 3 then none else some (decide (a < b ↔ n = 0))) (St {} [4, 2, 3, 1], 0) =
    .thrown (St {} [2, 4, 3, 1], 4) := by decide +kernel
example : ∃ comp : Comparator Nat, ∀ x y, comp 5 x y = none := ⟨fun _ _ _ => none, fun _ _ => rfl⟩
example : insertionSortC .trivial (fun n _ _ => if n = 2 then none else some (decide (n = 1))) (St {} [1, 2, 3], 0) =
    .thrown (St {} [1, 2, 2], 3) := by decide +kernel

end Props
end Efp
