import Verif.SortFaultLemmas
import Verif.Props.Sort

/-!
# Sorting elements whose copies, moves and assignments throw (C138)

`e : Client α` is the user's code: `e.comp` any comparison function, `e.fault n` says if the `n`-th call throws in case
it constructs or assigns an element, and what it leaves of the two objects involved.  `Ends thr ret out` says: the
outcome is not undefined; if the sort returned, what it left has `ret`, and if something threw, what was left has `thr`.
`Holes n led l`: all slots hold living objects and at most `n` of them do not hold their element of `l`
(`Verif/Spec/SortFault.lean`).
-/

namespace Efp
namespace Props

open Spec Sorting

variable {α : Type}

/-! ### C138 -/

/-- C138 (part): whatever the comparator and the elements do, `heapsort`, `quicksort`, `insertion_sort`, `sort_unstable`
and `sort` have defined behaviour and terminate; if they return, all elements are there; if anything throws, every slot
still holds a living object and at most two of them have lost their element.  Missing because false (below): that none is
lost. -/
theorem C138_two_holes_partial (k : Kind) (e : Client α) (led : Ledger) (l : List α) (hl : l.length < 2 ^ 64) (c : Nat) :
    Ends (Holes 2 led l) (fun _ => Same led l) (heapsortX k e (St led l, c)) ∧
    Ends (Holes 2 led l) (fun _ => Same led l) (quicksortX k e (St led l, c)) ∧
    Ends (Holes 2 led l) (fun _ => Same led l) (insertionSortX k e (St led l, c)) ∧
    Ends (Holes 2 led l) (fun _ => Same led l) (sortUnstableX k e (St led l, c)) ∧
    Ends (Holes 2 led l) (fun _ => Same led l) (sortX k e (St led l, c)) :=
  have ha : Allow e 2 := Or.inr (Nat.le_refl _)
  ⟨heapsort_fault ha c, quicksort_fault ha hl c, insertionSort_fault ha l c (.refl _), sortUnstable_fault ha hl c, sort_fault ha c⟩

/-- C138 (part): if moves that throw leave the object they moved from as it was, at most one slot has lost its element -/
theorem C138_one_hole_partial (k : Kind) (e : Client α) (hg : Client.Gentle e) (led : Ledger) (l : List α) (hl : l.length < 2 ^ 64)
    (c : Nat) :
    Ends (Holes 1 led l) (fun _ => Same led l) (heapsortX k e (St led l, c)) ∧
    Ends (Holes 1 led l) (fun _ => Same led l) (quicksortX k e (St led l, c)) ∧
    Ends (Holes 1 led l) (fun _ => Same led l) (insertionSortX k e (St led l, c)) ∧
    Ends (Holes 1 led l) (fun _ => Same led l) (sortUnstableX k e (St led l, c)) ∧
    Ends (Holes 1 led l) (fun _ => Same led l) (sortX k e (St led l, c)) :=
  have ha : Allow e 1 := Or.inl ⟨hg, Nat.le_refl _⟩
  ⟨heapsort_fault ha c, quicksort_fault ha hl c, insertionSort_fault ha l c (.refl _), sortUnstable_fault ha hl c, sort_fault ha c⟩

/-- C138 (part): whatever the comparator and the elements do, `merge_sort_by` of a range of the vector has defined behaviour;
if it returns, all elements are there; if anything throws, every slot holds a living object, and all but at most one of
them one of the elements -/
theorem C138_merge_partial (k : Kind) (e : Client α) (led : Ledger) (l : List α) (left right : Nat) (hr : right < l.length) (c : Nat) :
    Ends (DrawnButOne led l) (fun _ => Same led l) (mergeSortX k e (right - left + 1) left right (St led l, c)) :=
  mergeSort_fault _ _ _ _ _ (.refl _) hr (by omega)

/-- C138: with elements that do not throw and a comparison function, each sort does to every vector what the sorts of C35–C41
do to it -/
theorem C138_quiet (k : Kind) (f : α → α → Bool) (e : Client α) (hc : e.comp = always f) (hq : Client.Quiet e) (m : Mem α) (c : Nat) :
    (∃ c', heapsortX k e (m, c) = (heapsortBy k f m).mapState (fun x => (x, c'))) ∧
    (∃ c', quicksortX k e (m, c) = (quicksortBy k f m).mapState (fun x => (x, c'))) ∧
    (∃ c', insertionSortX k e (m, c) = (insertionSortBy k f m).mapState (fun x => (x, c'))) ∧
    (∃ c', sortUnstableX k e (m, c) = (sortUnstableBy k f m).mapState (fun x => (x, c'))) ∧
    (∃ c', sortX k e (m, c) = (sortBy k f m).mapState (fun x => (x, c'))) ∧
    (∀ left right, ∃ c', mergeSortX k e (right - left + 1) left right (m, c) = (mergeSortBy k f left right m).mapState (fun x => (x, c'))) :=
  ⟨heapsort_tracks hc hq m c, quicksort_tracks hc hq m c, insertionSort_tracks hc hq m c, sortUnstable_tracks hc hq m c,
    sort_tracks hc hq m c, fun left right => mergeSort_tracks hc hq _ left right m c⟩

/-- C138 is false of `insertion_sort` and `sort`: on EVERY vector of two or more elements, whose second belongs before its
first, an assignment that throws and changes nothing, when it is the second of the sort, loses the second element:
elements that are copied end up as `a, a, …`, resource-owning ones as a moved-from object and `a`. -/
theorem C138_insertion_loses (k : Kind) (e : Client α) (led : Ledger) (a b : α) (l : List α) (f : Fault α)
    (h0 : e.fault 0 = none) (h1 : e.comp 1 b a = some true) (h2 : e.fault 2 = none) (h3 : e.fault 3 = some f) (hf : f.dst = .untouched) :
    insertionSortX k e (St led (a :: b :: l), 0) = .thrown (⟨husk k a :: .live a :: l.map .live, led⟩, 4) ∧
    sortX k e (St led (a :: b :: l), 0) = .thrown (⟨husk k a :: .live a :: l.map .live, led⟩, 4) := by
  have hlen : (St led (a :: b :: l)).cells.length = l.length + 2 := by simp [St]
  have hone : insOneX k e 0 1 (St led (a :: b :: l), 0) = .thrown (⟨husk k a :: .live a :: l.map .live, led⟩, 4) := by
    cases k <;>
    simp [insOneX, insLoopX, St, lift, call, shiftUp, Mem.moveOut, Mem.read, Mem.assign, Cell.alive, Sorting.cmp, h0, h1, h2, h3, hf, Cpp.bind_run,
      wreck, spoil, Aftermath.on, husk]
  have hrange : ∀ n, insertionRangeX k e 0 (n + 1) (St led (a :: b :: l), 0) =
      .thrown (⟨husk k a :: .live a :: l.map .live, led⟩, 4) := by
    intro n
    unfold insertionRangeX
    rw [Nat.sub_zero, Nat.zero_add, forUp_succ, Cpp.bind_thrown hone]
  have hget : lift Cpp.get (St led (a :: b :: l), 0) = .ok (St led (a :: b :: l)) (St led (a :: b :: l), 0) := rfl
  constructor
  · unfold insertionSortX
    rw [Cpp.bind_ok hget, hlen, if_pos (by omega)]
    exact hrange l.length
  · unfold sortX
    rw [Cpp.bind_ok hget, hlen]
    have : runsLoopX k e (l.length + 2) (l.length + 2 + 1) 0 (St led (a :: b :: l), 0) =
        .thrown (⟨husk k a :: .live a :: l.map .live, led⟩, 4) := by
      unfold runsLoopX
      rw [if_pos (by omega), Cpp.bind_thrown]
      split
      · exact hrange 30
      · exact hrange l.length
    rw [Cpp.bind_thrown this]

/-- C138 is false of `heapsort`, which needs an exchange here: when the third step of `swap` throws and changes nothing, the
first element is gone; when the second step throws and leaves both objects moved-from, both are (so the bound two of
`C138_two_holes_partial` is reached) -/
theorem C138_heapsort_loses (k : Kind) (e : Client α) (led : Ledger) (a b : α) (f : Fault α) (h0 : e.comp 0 a b = some true)
    (h1 : e.fault 1 = none) :
    (e.fault 2 = none → e.fault 3 = some f → f.dst = .untouched →
      heapsortX k e (St led [a, b], 0) = .thrown (⟨[.live b, husk k b], led⟩, 4)) ∧
    (e.fault 2 = some f → f = ⟨.movedFrom, .movedFrom⟩ → heapsortX k e (St led [a, b], 0) = .thrown (⟨[.moved, .moved], led⟩, 3)) := by
  constructor
  · intro h2 h3 hf
    cases k <;>
    simp [heapsortX, buildLoopX, heapifyX, pickLargerC, swapX, moveSlot, take, put, St, lift, call, Mem.read, Cell.alive, Sorting.cmp, h0, h1, h2, h3,
      hf, Cpp.bind_run, wreck, spoil, Aftermath.on, husk]
  · rintro h2 rfl
    cases k <;>
    simp [heapsortX, buildLoopX, heapifyX, pickLargerC, swapX, moveSlot, take, put, St, lift, call, Mem.read, Cell.alive, Sorting.cmp, h0, h1, h2,
      Cpp.bind_run, wreck, spoil, Aftermath.on]

/-- C138 is false of `quicksort` and `sort_unstable` on any two elements whose comparison is `false`: if the third step of
the last `swap` throws and changes nothing, the first element is gone -/
theorem C138_quicksort_loses (k : Kind) (e : Client α) (led : Ledger) (a b : α) (f : Fault α) (h0 : e.fault 0 = none)
    (h1 : e.comp 1 a b = some false) (h2 : e.fault 2 = none) (h3 : e.fault 3 = none) (h4 : e.fault 4 = some f) (hf : f.dst = .untouched) :
    quicksortX k e (St led [a, b], 0) = .thrown (⟨[.live b, husk k b], led⟩, 5) ∧
    sortUnstableX k e (St led [a, b], 0) = .thrown (⟨[.live b, husk k b], led⟩, 5) := by
  constructor <;> cases k <;>
  simp [quicksortX, sortUnstableX, quicksortFX, partitionX, partLoopX, swapX, moveSlot, take, put, St, lift, call, Mem.read, Cell.alive, Sorting.cmp,
    SZ, h0, h1, h2, h3, h4, hf, Cpp.bind_run, wreck, spoil, Aftermath.on, husk]

/-- C138 is false of `merge_sort_by` on any two elements it exchanges: if the second assignment throws and changes nothing, the
first element is gone -/
theorem C138_merge_loses (k : Kind) (e : Client α) (led : Ledger) (a b : α) (f : Fault α) (h0 : e.fault 0 = none) (h1 : e.fault 1 = none)
    (h2 : e.comp 2 a b = some false) (h3 : e.fault 3 = none) (h4 : e.fault 4 = some f) (hf : f.dst = .untouched) :
    mergeSortX k e 2 0 1 (St led [a, b], 0) = .thrown (St led [b, b], 5) := by
  cases k <;>
  simp [mergeSortX, mergeX, mergeLoopX, readRangeX, writeAllX, St, call, Mem.read, Mem.assign, Cell.alive, Sorting.cmp, h0, h1, h2, h3, h4, hf,
    Cpp.bind_run, wreck, spoil, Aftermath.on]

/-- the copy of the pivot is harmless: if it throws, `quicksort` leaves EVERY vector as it was -/
theorem C138_pivot (k : Kind) (e : Client α) (led : Ledger) (l : List α) (f : Fault α) (h2 : 2 ≤ l.length) (h0 : e.fault 0 = some f) :
    quicksortX k e (St led l, 0) = .thrown (St led l, 1) := by
  unfold quicksortX
  have hget : lift Cpp.get (St led l, 0) = .ok (St led l) (St led l, 0) := rfl
  have hlen : (St led l).cells.length = l.length := by simp [St]
  rw [Cpp.bind_ok hget, hlen, if_pos (by omega)]
  unfold quicksortFX
  rw [if_pos (by omega)]
  have hp : partitionX k e 0 (l.length - 1) (St led l, 0) = .thrown (St led l, 1) := by
    unfold partitionX
    rw [Cpp.bind_thrown]
    simp only [call, read_get (show l.length - 1 < l.length by omega), h0]
    rfl
  rw [Cpp.bind_thrown hp]

-- a failing element type and what is left
example : heapsortX .managed ⟨always (fun a b : Nat => decide (a < b)), fun n => if n = 7 then some ⟨.value 7, .movedFrom⟩ else none⟩
    (St {} [1, 2, 3, 4], 0) = .thrown (⟨[.moved, .live 7, .live 3, .live 2], {}⟩, 8) := by decide +kernel
example : ∃ e : Client Nat, Client.Gentle e ∧ e.fault 3 = some ⟨.untouched, .value 5⟩ :=
  ⟨⟨fun _ _ _ => none, fun _ => some ⟨.untouched, .value 5⟩⟩, fun _ _ h => by cases h; rfl, rfl⟩
example : ∃ e : Client Nat, e.comp = always (fun a b => decide (a < b)) ∧ Client.Quiet e := ⟨⟨_, fun _ => none⟩, rfl, fun _ => rfl⟩
example : insertionSortX .trivial ⟨always (fun a b : Nat => decide (a < b)), fun n => if n = 3 then some ⟨.untouched, .untouched⟩ else none⟩
    (St {} [2, 1, 3], 0) = .thrown (St {} [2, 2, 3], 4) := by decide +kernel

end Props
end Efp
