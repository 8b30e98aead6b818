import Verif.SortFloatLemmas

/-!
# Sorting floating-point numbers (C154)
-/

namespace Efp.Props

open Efp.Sorting Spec Ieee

variable {α : Type}

/-- the six sorts of a whole vector `l` end normally with a permutation of it that satisfies `P`; the two sorts
documented as stable also satisfy `Q` (`sort`: up to 32 elements) -/
def AllSort (k : Kind) (comp : α → α → Bool) (led : Ledger) (l : List α) (P Q : List α → Prop) : Prop :=
  (∃ l', quicksortBy k comp (St led l) = .ok () (St led l') ∧ l'.Perm l ∧ P l') ∧
  (∃ l', heapsortBy k comp (St led l) = .ok () (St led l') ∧ l'.Perm l ∧ P l') ∧
  (∃ l', insertionSortBy k comp (St led l) = .ok () (St led l') ∧ l'.Perm l ∧ P l' ∧ Q l') ∧
  (∃ l', sortUnstableBy k comp (St led l) = .ok () (St led l') ∧ l'.Perm l ∧ P l') ∧
  (l ≠ [] → ∃ l', mergeSortBy k comp 0 (l.length - 1) (St led l) = .ok () (St led l') ∧ l'.Perm l ∧ P l') ∧
  (l.length ≤ 32 → ∃ l', sortBy k comp (St led l) = .ok () (St led l') ∧ l'.Perm l ∧ P l' ∧ Q l')

/-- C154: a comparator has to be a strict weak order only among the elements that are in the vector: each sort
then sorts it, whatever the comparator does elsewhere -/
theorem C154_order_among_elements (k : Kind) (comp : α → α → Bool) (led : Ledger) (l : List α) (hl : l.length < 2 ^ 64)
    (hc : OrderAmong l comp) : AllSort k comp led l (Sorted comp) (StableAmong comp l) := by
  have hlen : l.attach.length = l.length := by simp
  refine ⟨?_, ?_, ?_, ?_, fun hne => ?_, fun h32 => ?_⟩
  · obtain ⟨l', h1, h2, h3⟩ := quicksortBy_run (k := k) (comp := via Subtype.val comp) (led := led) l.attach (by rw [hlen]; exact hl)
    exact ⟨_, renames_quicksort.attach h1, attach_perm h2, attach_sorted (h3 (swo_partial (among_swo hc)))⟩
  · obtain ⟨l', h1, h2, h3⟩ := heapsortBy_run (k := k) (comp := via Subtype.val comp) (led := led) l.attach
    exact ⟨_, renames_heapsort.attach h1, attach_perm h2, attach_sorted (h3 (among_swo hc))⟩
  · obtain ⟨l', h1, h2, h3, _⟩ := insertionSortBy_run (k := k) (comp := via Subtype.val comp) (led := led) l.attach
    exact ⟨_, renames_insertionSort.attach h1, attach_perm h2, attach_sorted (h3 (among_swo hc)).1, attach_stable (h3 (among_swo hc)).2⟩
  · obtain ⟨l', h1, h2, h3⟩ := sortUnstableBy_run (k := k) (comp := via Subtype.val comp) (led := led) l.attach (by rw [hlen]; exact hl)
    exact ⟨_, renames_sortUnstable.attach h1, attach_perm h2, attach_sorted (h3 (swo_partial (among_swo hc)))⟩
  · have hpos : 0 < l.length := List.length_pos_iff.mpr hne
    obtain ⟨l', h1, h2, h3, _⟩ := mergeSortBy_run (k := k) (comp := via Subtype.val comp) (led := led) l.attach [] [] 0
      (l.length - 1) rfl (by simp; omega) (by simpa using hne)
    rw [List.nil_append, List.append_nil, List.nil_append, List.append_nil] at h1
    exact ⟨_, (renames_mergeSort _ _).attach h1, attach_perm h2, attach_sorted (h3 (among_swo hc)).1⟩
  · obtain ⟨l', h1, h2, h3, h4⟩ := sortBy_small (k := k) (comp := via Subtype.val comp) (led := led) l.attach (by rw [hlen]; exact h32)
      (among_swo hc)
    exact ⟨_, renames_sort.attach h1, attach_perm h2, attach_sorted h3, attach_stable h4⟩

/-- a comparator that goes wrong on `0`, which is not in the vector -/
def noZero (a b : Nat) : Bool := a == 0 || b == 0 || decide (a < b)

example : AllSort .managed noZero {} [3, 1, 2] (Sorted noZero) (StableAmong noZero [3, 1, 2]) :=
  C154_order_among_elements .managed noZero {} _ (by decide)
    ⟨by decide, by decide, by decide⟩

example : ¬ StrictWeakOrder noZero := fun h => absurd (h.irrefl 0) (by decide)

/-- C154, the true part: every vector of numbers without a NaN, with infinities, zeros of both signs and subnormal
numbers, is brought to ascending order by each of the sorts (`sort`: up to 32 elements) -/
theorem C154_numbers_ascend_partial (led : Ledger) (l : List Fp) (hl : l.length < 2 ^ 64) (hn : ∀ x ∈ l, x ≠ .nan) :
    (∃ l', quicksortD (St led l) = .ok () (St led l') ∧ l'.Perm l ∧ Ascending l') ∧
    (∃ l', heapsortD (St led l) = .ok () (St led l') ∧ l'.Perm l ∧ Ascending l') ∧
    (∃ l', insertionSortD (St led l) = .ok () (St led l') ∧ l'.Perm l ∧ Ascending l') ∧
    (∃ l', sortUnstableD (St led l) = .ok () (St led l') ∧ l'.Perm l ∧ Ascending l') ∧
    (l ≠ [] → ∃ l', mergeSortD 0 (l.length - 1) (St led l) = .ok () (St led l') ∧ l'.Perm l ∧ Ascending l') ∧
    (l.length ≤ 32 → ∃ l', sortD (St led l) = .ok () (St led l') ∧ l'.Perm l ∧ Ascending l') := by
  have up : ∀ l' : List Fp, l'.Perm l → Sorted opLt l' → Ascending l' := fun l' hp hs =>
    ascending_of_sorted (fun x hx => hn x (hp.mem_iff.1 hx)) hs
  obtain ⟨⟨a, a1, a2, a3⟩, ⟨b, b1, b2, b3⟩, ⟨c, c1, c2, c3, _⟩, ⟨d, d1, d2, d3⟩, he, hf⟩ :=
    C154_order_among_elements .trivial opLt led l hl (numbers_order hn)
  refine ⟨⟨a, a1, a2, up a a2 a3⟩, ⟨b, b1, b2, up b b2 b3⟩, ⟨c, c1, c2, up c c2 c3⟩, ⟨d, d1, d2, up d d2 d3⟩,
    fun h => ?_, fun h => ?_⟩
  · obtain ⟨e, e1, e2, e3⟩ := he h
    exact ⟨e, e1, e2, up e e2 e3⟩
  · obtain ⟨e, e1, e2, e3, _⟩ := hf h
    exact ⟨e, e1, e2, up e e2 e3⟩

example : ∃ l', heapsortD (St {} [.inf false, .fin false 2, .fin true 0, .inf true, .fin true (1 / 2)]) = .ok () (St {} l') ∧
    l'.Perm [.inf false, .fin false 2, .fin true 0, .inf true, .fin true (1 / 2)] ∧ Ascending l' :=
  (C154_numbers_ascend_partial {} _ (by decide) (by intro x hx; simp at hx; rcases hx with rfl | rfl | rfl | rfl | rfl <;> simp)).2.1

/-- C154: `quicksort` and `sort_unstable` put the numbers of EVERY vector in ascending order, however many NaNs
are among them -/
theorem C154_quicksort_with_nan (led : Ledger) (l : List Fp) (hl : l.length < 2 ^ 64) :
    (∃ l', quicksortD (St led l) = .ok () (St led l') ∧ l'.Perm l ∧ Ascending (l'.filter (· != .nan))) ∧
    (∃ l', sortUnstableD (St led l) = .ok () (St led l') ∧ l'.Perm l ∧ Ascending (l'.filter (· != .nan))) := by
  have up : ∀ l' : List Fp, Sorted opLt l' → Ascending (l'.filter (· != .nan)) := fun l' hs =>
    ascending_of_sorted (fun x hx => by simpa using (List.mem_filter.1 hx).2) (List.Pairwise.filter _ hs)
  obtain ⟨a, a1, a2, a3⟩ := quicksortBy_run (k := .trivial) (comp := opLt) (led := led) l hl
  obtain ⟨b, b1, b2, b3⟩ := sortUnstableBy_run (k := .trivial) (comp := opLt) (led := led) l hl
  exact ⟨⟨a, a1, a2, up a (a3 opLt_spo)⟩, ⟨b, b1, b2, up b (b3 opLt_spo)⟩⟩

example : quicksortD (St {} [.nan, .fin false 2, .nan, .fin false 1]) = .ok () (St {} [.fin false 1, .nan, .fin false 2, .nan]) := by
  decide +kernel

/-- C154: for `insertion_sort` a NaN is a wall: it stays where it is and the elements on either side of it are sorted
separately -/
theorem C154_nan_is_a_wall (led : Ledger) (xs ys : List Fp) :
    ∃ xs' ys', insertionSortD (St led xs) = .ok () (St led xs') ∧ insertionSortD (St led ys) = .ok () (St led ys') ∧
      xs'.length = xs.length ∧
      insertionSortD (St led (xs ++ .nan :: ys)) = .ok () (St led (xs' ++ .nan :: ys')) := by
  have h1 : ∀ x, opLt x .nan = false := fun x => by cases x <;> rfl
  have h2 : ∀ x, opLt .nan x = false := fun x => rfl
  obtain ⟨l', g1, g2, _⟩ := insertionSortBy_run (k := .trivial) (comp := opLt) (led := led) xs
  refine ⟨l', _, g1, insertionSort_eq ys, g2.length_eq, ?_⟩
  have e : St led l' = St led (putAll opLt [] xs) := by
    have := g1.symm.trans (insertionSort_eq (k := .trivial) (comp := opLt) (led := led) xs)
    exact (Out.ok.inj this).2
  have e' : l' = putAll opLt [] xs := by
    have := congrArg Mem.cells e
    exact List.map_injective_iff.2 (fun a b h => Cell.live.inj h) this
  rw [e', ← putAll_cut h1 h2]
  exact insertionSort_eq _

/-- C154: and so for `sort` of at most 32 elements -/
theorem C154_nan_is_a_wall_for_sort (led : Ledger) (l : List Fp) (hl : l.length ≤ 32) :
    sortD (St led l) = insertionSortD (St led l) := sort_small_eq l hl

example : sortD (St {} [.fin false 3, .fin false 2, .nan, .fin false 1]) =
    .ok () (St {} [.fin false 2, .fin false 3, .nan, .fin false 1]) := by decide +kernel

/-- `sort` of this vector leaves two numbers in the wrong order -/
def Misorders (sort : Cpp (Mem Fp) Unit) (l : List Fp) : Prop :=
  ∃ l', sort (St {} l) = .ok () (St {} l') ∧ ¬ Ascending (l'.filter (· != .nan))

/-- C154 is false with a NaN in the vector: one NaN is enough for `insertion_sort` and `sort` to leave any two numbers
in the wrong order, and `heapsort` and `merge_sort_by` misplace numbers too -/
theorem C154_refuted :
    (∀ x y : Fp, x ≠ .nan → y ≠ .nan → ¬ NotAbove x y → Misorders insertionSortD [x, .nan, y] ∧ Misorders sortD [x, .nan, y]) ∧
    Misorders heapsortD [.fin false 1, .nan, .fin false 2, .fin false 3, .nan] ∧
    Misorders (mergeSortD 0 4) [.fin false 1, .nan, .fin false 2, .fin false 3, .nan] := by
  refine ⟨fun x y hx hy hxy => ?_, ⟨[.nan, .fin false 1, .fin false 3, .nan, .fin false 2], by decide +kernel, ?_⟩,
    ⟨[.nan, .fin false 2, .fin false 3, .nan, .fin false 1], by decide +kernel, ?_⟩⟩
  · obtain ⟨xs', ys', h1, h2, _, h4⟩ := C154_nan_is_a_wall {} [x] [y]
    have e1 : ∀ z : Fp, insertionSortD (St {} [z]) = .ok () (St {} [z]) := fun z => insertionSort_eq [z]
    have inj : ∀ a b : List Fp, St {} a = St {} b → a = b := fun a b h =>
      List.map_injective_iff.2 (fun _ _ h => Cell.live.inj h) (congrArg Mem.cells h)
    have hx' := inj _ _ (Out.ok.inj (h1.symm.trans (e1 x))).2
    have hy' := inj _ _ (Out.ok.inj (h2.symm.trans (e1 y))).2
    subst hx' hy'
    have bad : ¬ Ascending (List.filter (· != .nan) [x, .nan, y]) := by
      intro h
      have hf : List.filter (· != .nan) [x, .nan, y] = [x, y] := by simp [hx, hy]
      rw [hf] at h
      exact hxy ((List.pairwise_cons.1 h).1 y (by simp))
    exact ⟨⟨_, h4, bad⟩, ⟨_, (C154_nan_is_a_wall_for_sort {} _ (by simp)).trans h4, bad⟩⟩
  · intro h
    have h' : Ascending [.fin false 1, .fin false 3, .fin false 2] := h
    have := (List.pairwise_cons.1 (List.pairwise_cons.1 h').2).1 (.fin false 2) (by simp)
    exact absurd this (by simp [NotAbove]; try norm_num)
  · intro h
    have h' : Ascending [.fin false 2, .fin false 3, .fin false 1] := h
    have := (List.pairwise_cons.1 h').1 (.fin false 1) (by simp)
    exact absurd this (by simp [NotAbove]; try norm_num)

example : (Fp.fin false 2 ≠ .nan) ∧ ¬ NotAbove (.fin false 2) (.fin false 1) := ⟨by simp, by simp [NotAbove]⟩

end Efp.Props
