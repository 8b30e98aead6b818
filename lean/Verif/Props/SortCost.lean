import Verif.SortCostQuick
import Verif.Props.Sort

/-!
# How much the sorts compare and how deep they recurse (C117, C118)

`AtMost counting sort s t` says: on the state `s` the counting program does what the sort does and calls the comparison
function at most `t` times; `Costs` says exactly `t` times (`Verif/Spec/SortCost.lean`).

The recursive functions of the model take the number of nested calls they may make; one call more than that ends in
`.ub .diverge`.  So a result that is the same for every allowance from `d` on is reached with at most `d` nested calls,
and `.ub .diverge` with an allowance `d` says that more than `d` nested calls are needed.
-/

namespace Efp
namespace Props

open Spec Sorting

variable {α : Type}

/-! ### C117: comparisons -/

/-- C117 (part): for every comparison function and every vector of `n` elements,
`heapsort` makes at most `3 n log2 n` comparisons, `sort` at most `16 n + n (⌈log2 n⌉ - 5)`, and `merge_sort_by` of a
range of `n` elements at most `n ⌈log2 n⌉`.  Missing because false (next theorems): the same for `quicksort` and
`sort_unstable`. -/
theorem C117_n_log_n_partial (k : Kind) (comp : α → α → Bool) (led : Ledger) (l : List α) :
    AtMost (heapsortC k (always comp)) (heapsortBy k comp) (St led l) (3 * l.length * Nat.log 2 l.length) ∧
    AtMost (sortC k (always comp)) (sortBy k comp) (St led l) (16 * l.length + l.length * (Nat.clog 2 l.length - 5)) ∧
    ∀ left right, AtMost (mergeSortFC k (always comp) (right - left + 1) left right) (mergeSortBy k comp left right) (St led l)
      ((right - left + 1) * Nat.clog 2 (right - left + 1)) := by
  have hl : (St led l).cells.length = l.length := by simp [St]
  refine ⟨?_, ?_, fun left right => mergeSort_cost _ _ _ _⟩
  · have := heapsort_cost (k := k) (comp := comp) (m := St led l)
    rwa [hl] at this
  · have := sort_cost (k := k) (comp := comp) (m := St led l)
    rwa [hl] at this

/-- C117: `quicksort` and `insertion_sort` compare every pair of elements at most once; `sort_unstable`, which does one
after the other, at most twice -/
theorem C117_quadratic (k : Kind) (comp : α → α → Bool) (led : Ledger) (l : List α) (hl : l.length < 2 ^ 64) :
    AtMost (quicksortC k (always comp)) (quicksortBy k comp) (St led l) (pairs l.length) ∧
    AtMost (insertionSortC k (always comp)) (insertionSortBy k comp) (St led l) (pairs l.length) ∧
    AtMost (sortUnstableC k (always comp)) (sortUnstableBy k comp) (St led l) (2 * pairs l.length) := by
  refine ⟨quicksort_cost l hl, ?_, sortUnstable_cost l hl⟩
  have := insertionSort_cost (k := k) (comp := comp) (m := St led l)
  rwa [show (St led l).cells.length = l.length by simp [St]] at this

/-- C117: the claim is false of `quicksort` and `sort_unstable`.  On every vector that is already sorted (strictly), and on
every vector of equivalent elements, `quicksort` compares every pair: `n (n - 1) / 2` comparisons. -/
theorem C117_quicksort_worst (k : Kind) (comp : α → α → Bool) (led : Ledger) (l : List α) (hl : l.length < 2 ^ 64)
    (h : l.Pairwise (fun a b => comp a b = true) ∨ ∀ a ∈ l, ∀ b ∈ l, comp a b = false) :
    Costs (quicksortC k (always comp)) (quicksortBy k comp) (St led l) (pairs l.length) := by
  have hlen : (St led l).cells.length = l.length := by simp [St]
  rw [show pairs l.length = 0 + pairs l.length by omega]
  refine costs_bind (costs_lift _) (Cpp.get_run _) ?_
  rw [hlen]
  by_cases h0 : l.length ≠ 0
  · rw [if_pos h0, if_pos h0]
    have : Costs (quicksortFC k (always comp) (l.length - 1 - 0 + 1) 0 (l.length - 1)) (quicksortF k comp (l.length - 1 - 0 + 1) 0 (l.length - 1))
        (St led ([] ++ l ++ [])) (pairs l.length) := by
      rcases h with h | h
      · exact (quicksortF_ascending (l.length - 1 - 0 + 1) l [] [] 0 (l.length - 1) rfl (by simp; omega) (by omega) (by rw [List.length_nil, Nat.zero_add]; exact hl)
          (by omega) h).2
      · exact quicksortF_equal (l.length - 1 - 0 + 1) l [] [] 0 (l.length - 1) rfl (by simp; omega) (by omega) (by rw [List.length_nil, Nat.zero_add]; exact hl)
          (by omega) h
    simpa [quicksortRange] using this
  · rw [if_neg h0, if_neg h0]
    have : l = [] := List.length_eq_zero_iff.mp (by omega)
    subst this
    simpa [pairs] using costs_pure (m := St led []) ()

/-- … and `sort_unstable` at least as many -/
theorem C117_sort_unstable_worst (k : Kind) (comp : α → α → Bool) (led : Ledger) (l : List α) (hl : l.length < 2 ^ 64)
    (h : l.Pairwise (fun a b => comp a b = true) ∨ ∀ a ∈ l, ∀ b ∈ l, comp a b = false) :
    ∃ t, pairs l.length ≤ t ∧ Costs (sortUnstableC k (always comp)) (sortUnstableBy k comp) (St led l) t := by
  have hlen : (St led l).cells.length = l.length := by simp [St]
  by_cases h1 : l.length ≤ 1
  · refine ⟨0 + 0, ?_, costs_bind (costs_lift _) (Cpp.get_run _) ?_⟩
    · have : l.length = 0 ∨ l.length = 1 := by omega
      rcases this with h | h <;> rw [h] <;> decide
    · rw [hlen, if_pos h1, if_pos h1]
      exact costs_pure _
  · have hq : Costs (quicksortFC k (always comp) (l.length - 1 - 0 + 1) 0 (l.length - 1)) (quicksortF k comp (l.length - 1 - 0 + 1) 0 (l.length - 1))
        (St led ([] ++ l ++ [])) (pairs l.length) := by
      rcases h with h | h
      · exact (quicksortF_ascending (l.length - 1 - 0 + 1) l [] [] 0 (l.length - 1) rfl (by simp; omega) (by omega) (by rw [List.length_nil, Nat.zero_add]; exact hl)
          (by omega) h).2
      · exact quicksortF_equal (l.length - 1 - 0 + 1) l [] [] 0 (l.length - 1) rfl (by simp; omega) (by omega) (by rw [List.length_nil, Nat.zero_add]; exact hl)
          (by omega) h
    obtain ⟨ys, hr, -, -⟩ := quicksortF_run (k := k) (comp := comp) (led := led) (l.length - 1 - 0 + 1) l [] [] 0
      (l.length - 1) rfl (by simp; omega) (by omega) (by rw [List.length_nil, Nat.zero_add]; exact hl) (by omega)
    simp only [List.nil_append, List.append_nil] at hq hr
    obtain ⟨u, -, hu⟩ := insertionSort_cost (k := k) (comp := comp) (m := St led ys)
    refine ⟨0 + (pairs l.length + u), by omega, costs_bind (costs_lift _) (Cpp.get_run _) ?_⟩
    rw [hlen, if_neg h1, if_neg h1]
    exact costs_bind hq hr hu

/-- no bound `c n log2 n` holds for `quicksort`, even with a constant `c` of a million: some vector takes more -/
theorem C117_quicksort_not_n_log_n (k : Kind) (led : Ledger) (c : Nat) (hc : c < 2 ^ 20) :
    ∃ l : List Nat, l.length < 2 ^ 64 ∧ ∃ t, Costs (quicksortC k (always fun a b => decide (a < b))) (quicksortBy k fun a b => decide (a < b)) (St led l) t ∧
      c * (l.length * Nat.log 2 l.length) < t := by
  refine ⟨List.range (2 ^ 40), by simp, pairs (2 ^ 40), ?_, ?_⟩
  · have := C117_quicksort_worst k (fun a b : Nat => decide (a < b)) led (List.range (2 ^ 40)) (by simp)
      (Or.inl (by simpa using List.pairwise_lt_range))
    rwa [List.length_range] at this
  · rw [List.length_range, Nat.log_pow (by decide)]
    have : pairs (2 ^ 40) = 2 ^ 39 * (2 ^ 40 - 1) := by decide
    rw [this]
    omega

-- the hypotheses of the worst cases hold of sorted and of constant vectors of any length
example (n : Nat) : (List.range n).Pairwise (fun a b => decide (a < b) = true) := by simpa using List.pairwise_lt_range
example (n : Nat) : ∀ a ∈ List.replicate n 7, ∀ b ∈ List.replicate n 7, decide (a < b) = false := by
  intro a ha b hb
  rw [List.eq_of_mem_replicate ha, List.eq_of_mem_replicate hb]
  decide
-- a counting run
example : quicksortC .managed (always fun a b : Nat => decide (a < b)) (St {} [1, 2, 3, 4], 0) = .ok () (St {} [1, 2, 3, 4], 6) := by
  decide +kernel
example : heapsortC .managed (always fun a b : Nat => decide (a < b)) (St {} [4, 2, 3, 1], 0) = .ok () (St {} [1, 2, 3, 4], 6) := by
  decide +kernel

/-! ### C118: recursion -/

/-- C118 (part): `merge_sort_by` of a range of `n` elements makes at most `⌈log2 n⌉ + 1` nested calls, and
`max_heapify_by` in a heap of `n` elements at most `⌊log2 n⌋ + 1`: with any allowance from there on they do the same.
Missing because false (next theorem): a logarithmic depth of `quicksort_by`. -/
theorem C118_logarithmic_partial (k : Kind) (comp : α → α → Bool) :
    (∀ d left right, Nat.clog 2 (right - left + 1) + 1 ≤ d → mergeSortF k comp d left right = mergeSortBy k comp left right) ∧
    (∀ d n i m, Nat.log 2 n + 1 ≤ d → heapifyF k comp d n i m = heapifyF k comp (n + 1) n i m) := by
  refine ⟨fun d left right h => mergeSort_depth _ _ _ _ (by omega) ?_, fun d n i m h => heapify_depth _ _ _ _ ?_ ?_ m⟩
  · have : right - left + 1 ≤ 2 ^ (right - left) := Nat.lt_two_pow_self
    have := (Nat.clog_le_iff_le_pow (b := 2) (by decide)).2 this
    omega
  · have := Nat.log_mono_right (b := 2) (Nat.div_le_self n (i + 1))
    omega
  · have := Nat.log_mono_right (b := 2) (Nat.div_le_self n (i + 1))
    have h2 : Nat.log 2 n ≤ n := Nat.log_le_self _ _
    omega

/-- C118: `quicksort_by` of a range of `n` elements makes at most `n` nested calls … -/
theorem C118_quicksort_depth (k : Kind) (comp : α → α → Bool) (led : Ledger) (pre xs post : List α) (h0 : xs ≠ [])
    (hsz : pre.length + xs.length < 2 ^ 64) :
    ∃ ys, quicksortF k comp xs.length pre.length (pre.length + xs.length - 1) (St led (pre ++ xs ++ post)) = .ok () (St led (pre ++ ys ++ post)) ∧
      ys.Perm xs := by
  have hpos : 0 < xs.length := List.length_pos_iff.2 h0
  obtain ⟨ys, h1, h2, -⟩ := quicksortF_run (k := k) (comp := comp) (led := led) xs.length xs pre post pre.length
    (pre.length + xs.length - 1) rfl (by omega) (by omega) hsz hpos
  exact ⟨ys, h1, h2⟩

/-- … and it does need that many on every sorted and on every constant range: the stack grows with the length -/
theorem C118_quicksort_worst (k : Kind) (comp : α → α → Bool) (led : Ledger) (pre xs post : List α) (d : Nat) (hd : d < xs.length)
    (hsz : pre.length + xs.length < 2 ^ 64)
    (h : xs.Pairwise (fun a b => comp a b = true) ∨ ∀ a ∈ xs, ∀ b ∈ xs, comp a b = false) :
    quicksortF k comp d pre.length (pre.length + xs.length - 1) (St led (pre ++ xs ++ post)) = .ub .diverge := by
  rcases h with h | h
  · exact quicksortF_ascending_depth d xs pre post pre.length _ rfl (by omega) hd hsz h
  · exact quicksortF_equal_depth d xs pre post pre.length _ rfl (by omega) hd hsz h

example : quicksortF .managed (fun a b : Nat => decide (a < b)) 3 0 3 (St {} [1, 2, 3, 4]) = .ub .diverge := by decide +kernel
example : quicksortF .managed (fun a b : Nat => decide (a < b)) 4 0 3 (St {} [1, 2, 3, 4]) = .ok () (St {} [1, 2, 3, 4]) := by
  decide +kernel
example : mergeSortF .managed (fun a b : Nat => decide (a < b)) 3 0 3 (St {} [4, 2, 3, 1]) = .ok () (St {} [1, 2, 3, 4]) := by
  decide +kernel

end Props
end Efp
