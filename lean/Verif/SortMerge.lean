import Verif.SortQuick

/-! Merge sort. -/

namespace Efp
namespace Sorting

variable {α : Type} {k : Kind} {comp : α → α → Bool} {led : Ledger}

open Spec

theorem readRange_run (xs pre post : List α) :
    readRange pre.length xs.length (St led (pre ++ xs ++ post)) = .ok xs (St led (pre ++ xs ++ post)) := by
  induction xs generalizing pre with
  | nil => rfl
  | cons x xs ih =>
    have hr : Mem.read pre.length (St led (pre ++ x :: xs ++ post)) = .ok x (St led (pre ++ x :: xs ++ post)) := by
      have := read_St (led := led) (pre := pre) (post := xs ++ post) (a := x) rfl
      simpa using this
    have h2 := ih (pre ++ [x])
    simp only [List.length_cons, readRange]
    rw [Cpp.bind_ok hr]
    have h3 : readRange (pre.length + 1) xs.length (St led (pre ++ x :: xs ++ post)) =
        .ok xs (St led (pre ++ x :: xs ++ post)) := by simpa using h2
    rw [Cpp.bind_ok h3]
    rfl

theorem writeAll_run (xs junk pre post : List α) (h : junk.length = xs.length) :
    writeAll k pre.length xs (St led (pre ++ junk ++ post)) = .ok () (St led (pre ++ xs ++ post)) := by
  induction xs generalizing pre junk with
  | nil =>
    have : junk = [] := List.length_eq_zero_iff.mp h
    subst this
    rfl
  | cons x xs ih =>
    cases junk with
    | nil => simp at h
    | cons z junk =>
      have ha : Mem.assign k pre.length x (St led (pre ++ z :: junk ++ post)) =
          .ok () (St led (pre ++ x :: junk ++ post)) := by
        have := assign_St (k := k) (led := led) (pre := pre) (post := junk ++ post) (a := z) (b := x) rfl
        simpa using this
      simp only [writeAll]
      rw [Cpp.bind_ok ha]
      have h2 := ih junk (pre ++ [x]) (by simpa using h)
      simpa using h2

/-- the list the merging loops write -/
def mergeL (comp : α → α → Bool) : List α → List α → List α
  | x :: xs, y :: ys => if comp x y then x :: mergeL comp xs (y :: ys) else y :: mergeL comp (x :: xs) ys
  | [], ys => ys
  | x :: xs, [] => x :: xs
termination_by xs ys => xs.length + ys.length

theorem mergeL_nil_left (ys : List α) : mergeL comp [] ys = ys := by
  cases ys <;> simp [mergeL]

theorem mergeL_nil_right (xs : List α) : mergeL comp xs [] = xs := by
  cases xs <;> simp [mergeL]

theorem mergeL_perm (xs ys : List α) : (mergeL comp xs ys).Perm (xs ++ ys) := by
  fun_induction mergeL comp xs ys with
  | case1 x xs y ys h ih => simpa using ih
  | case2 x xs y ys h ih =>
    exact (ih.cons y).trans (by simpa using (List.perm_middle (l₁ := x :: xs) (l₂ := ys) (a := y)).symm)
  | case3 ys => simp
  | case4 x xs => simp

theorem mergeTail_run (xs ys junk pre post : List α) (hj : junk.length = xs.length + ys.length) :
    (do writeAll k pre.length xs; writeAll k (pre.length + xs.length) ys : Cpp (Mem α) Unit)
      (St led (pre ++ junk ++ post)) = .ok () (St led (pre ++ (xs ++ ys) ++ post)) := by
  have h1 := writeAll_run (k := k) (led := led) xs (junk.take xs.length) pre (junk.drop xs.length ++ post)
    (by simp; omega)
  have h2 := writeAll_run (k := k) (led := led) ys (junk.drop xs.length) (pre ++ xs) post (by simp; omega)
  have e1 : pre ++ junk.take xs.length ++ (junk.drop xs.length ++ post) = pre ++ junk ++ post := by
    rw [← List.append_assoc, List.append_assoc pre, List.take_append_drop]
  rw [e1] at h1
  rw [Cpp.bind_ok h1]
  simpa using h2

theorem mergeLoop_run (fuel : Nat) (xs ys junk pre post : List α) (hj : junk.length = xs.length + ys.length)
    (hf : xs.length + ys.length ≤ fuel) :
    mergeLoop k comp fuel xs ys pre.length (St led (pre ++ junk ++ post)) =
      .ok () (St led (pre ++ mergeL comp xs ys ++ post)) := by
  induction fuel generalizing xs ys junk pre with
  | zero =>
    have hx : xs = [] := List.length_eq_zero_iff.mp (by omega)
    have hy : ys = [] := List.length_eq_zero_iff.mp (by omega)
    subst hx; subst hy
    have := mergeTail_run (k := k) (led := led) [] [] junk pre post hj
    simpa [mergeLoop, mergeL_nil_left] using this
  | succ fuel ih =>
    cases xs with
    | nil =>
      have := mergeTail_run (k := k) (led := led) [] ys junk pre post hj
      simpa [mergeLoop, mergeL_nil_left] using this
    | cons x xs =>
      cases ys with
      | nil =>
        have := mergeTail_run (k := k) (led := led) (x :: xs) [] junk pre post hj
        simpa [mergeLoop, mergeL_nil_right] using this
      | cons y ys =>
        cases junk with
        | nil => simp at hj
        | cons z junk =>
          simp only [List.length_cons] at hj hf
          have hasg : ∀ a, Mem.assign k pre.length a (St led (pre ++ z :: junk ++ post)) =
              .ok () (St led (pre ++ [a] ++ junk ++ post)) := by
            intro a
            have := assign_St (k := k) (led := led) (pre := pre) (post := junk ++ post) (a := z) (b := a) rfl
            simpa using this
          simp only [mergeLoop, mergeL]
          by_cases hc : comp x y = true
          · simp only [hc, if_true]
            rw [Cpp.bind_ok (hasg x)]
            have := ih xs (y :: ys) junk (pre ++ [x]) (by simp; omega) (by simp; omega)
            simpa using this
          · simp only [hc, Bool.false_eq_true, if_false]
            rw [Cpp.bind_ok (hasg y)]
            have := ih (x :: xs) ys junk (pre ++ [y]) (by simp; omega) (by simp; omega)
            simpa using this

theorem merge_run (xs ys pre post : List α) (hx : xs ≠ []) :
    merge k comp pre.length (pre.length + xs.length - 1) (pre.length + xs.length + ys.length - 1)
      (St led (pre ++ (xs ++ ys) ++ post)) = .ok () (St led (pre ++ mergeL comp xs ys ++ post)) := by
  have hpos : 0 < xs.length := List.length_pos_iff.mpr hx
  have h1 : readRange pre.length xs.length (St led (pre ++ (xs ++ ys) ++ post)) =
      .ok xs (St led (pre ++ (xs ++ ys) ++ post)) := by
    have := readRange_run (led := led) xs pre (ys ++ post)
    simpa using this
  have h2 : readRange (pre.length + xs.length) ys.length (St led (pre ++ (xs ++ ys) ++ post)) =
      .ok ys (St led (pre ++ (xs ++ ys) ++ post)) := by
    have := readRange_run (led := led) ys (pre ++ xs) post
    simpa using this
  unfold merge
  rw [show pre.length + xs.length - 1 - pre.length + 1 = xs.length by omega,
    show pre.length + xs.length + ys.length - 1 - (pre.length + xs.length - 1) = ys.length by omega,
    show pre.length + xs.length - 1 + 1 = pre.length + xs.length by omega]
  rw [Cpp.bind_ok h1, Cpp.bind_ok h2]
  exact mergeLoop_run _ xs ys (xs ++ ys) pre post (by simp) (Nat.le_refl _)

/-! ### order and stability of `mergeL` -/

theorem mergeL_sorted (hc : StrictWeakOrder comp) {xs ys : List α} (hx : Sorted comp xs) (hy : Sorted comp ys) :
    Sorted comp (mergeL comp xs ys) := by
  fun_induction mergeL comp xs ys with
  | case1 x xs y ys h ih =>
    obtain ⟨hx1, hx2⟩ := List.pairwise_cons.mp hx
    refine List.pairwise_cons.mpr ⟨?_, ih hx2 hy⟩
    intro b hb
    rcases List.mem_append.mp ((mergeL_perm _ _).mem_iff.mp hb) with hb | hb
    · exact hx1 b hb
    · have hyx : comp y x = false := swo_asymm hc h
      rcases List.mem_cons.mp hb with rfl | hb
      · exact hyx
      · exact swo_negtrans hc ((List.pairwise_cons.mp hy).1 b hb) hyx
  | case2 x xs y ys h ih =>
    have h' : comp x y = false := eq_false_of_ne_true h
    obtain ⟨hy1, hy2⟩ := List.pairwise_cons.mp hy
    refine List.pairwise_cons.mpr ⟨?_, ih hx hy2⟩
    intro b hb
    rcases List.mem_append.mp ((mergeL_perm _ _).mem_iff.mp hb) with hb | hb
    · rcases List.mem_cons.mp hb with rfl | hb
      · exact h'
      · exact swo_negtrans hc ((List.pairwise_cons.mp hx).1 b hb) h'
    · exact hy1 b hb
  | case3 ys => exact hy
  | case4 x xs => exact hx

/-- with a strict comparison the right run's equivalent elements come first -/
theorem mergeL_filter (hc : StrictWeakOrder comp) {xs ys : List α} (hx : Sorted comp xs) (hy : Sorted comp ys) (z : α) :
    (mergeL comp xs ys).filter (equivalent comp z) =
      ys.filter (equivalent comp z) ++ xs.filter (equivalent comp z) := by
  fun_induction mergeL comp xs ys with
  | case1 x xs y ys h ih =>
    obtain ⟨hx1, hx2⟩ := List.pairwise_cons.mp hx
    rw [List.filter_cons, ih hx2 hy]
    by_cases hz : equivalent comp z x = true
    · have hnil : (y :: ys).filter (equivalent comp z) = [] := by
        rw [List.filter_eq_nil_iff]
        intro b hb he
        have hxb : comp x b = true := by
          rcases List.mem_cons.mp hb with rfl | hb
          · exact h
          · cases hxb : comp x b with
            | true => rfl
            | false =>
              have := swo_negtrans hc hxb ((List.pairwise_cons.mp hy).1 b hb)
              rw [h] at this; cases this
        simp only [equivalent, Bool.and_eq_true, Bool.not_eq_true'] at hz he
        have := (hc.incomp x z b hz.2 hz.1 he.1 he.2).1
        rw [hxb] at this; cases this
      rw [hnil]
      simp [hz, List.filter_cons]
    · simp [hz, List.filter_cons]
  | case2 x xs y ys h ih =>
    obtain ⟨hy1, hy2⟩ := List.pairwise_cons.mp hy
    rw [List.filter_cons, ih hx hy2]
    by_cases hz : equivalent comp z y = true
    · simp [hz, List.filter_cons]
    · simp [hz, List.filter_cons]
  | case3 ys => simp
  | case4 x xs => simp

/-! with a total preorder (`<=`-like) comparison -/

theorem mergeL_sorted_le (hc : TotalPreorder comp) {xs ys : List α} (hx : SortedLe comp xs) (hy : SortedLe comp ys) :
    SortedLe comp (mergeL comp xs ys) := by
  fun_induction mergeL comp xs ys with
  | case1 x xs y ys h ih =>
    obtain ⟨hx1, hx2⟩ := List.pairwise_cons.mp hx
    refine List.pairwise_cons.mpr ⟨?_, ih hx2 hy⟩
    intro b hb
    rcases List.mem_append.mp ((mergeL_perm _ _).mem_iff.mp hb) with hb | hb
    · exact hx1 b hb
    · rcases List.mem_cons.mp hb with rfl | hb
      · exact h
      · exact hc.trans _ _ _ h ((List.pairwise_cons.mp hy).1 b hb)
  | case2 x xs y ys h ih =>
    have hyx : comp y x = true := (hc.total x y).resolve_left h
    obtain ⟨hy1, hy2⟩ := List.pairwise_cons.mp hy
    refine List.pairwise_cons.mpr ⟨?_, ih hx hy2⟩
    intro b hb
    rcases List.mem_append.mp ((mergeL_perm _ _).mem_iff.mp hb) with hb | hb
    · rcases List.mem_cons.mp hb with rfl | hb
      · exact hyx
      · exact hc.trans _ _ _ hyx ((List.pairwise_cons.mp hx).1 b hb)
    · exact hy1 b hb
  | case3 ys => exact hy
  | case4 x xs => exact hx

theorem mergeL_filter_le (hc : TotalPreorder comp) {xs ys : List α} (hx : SortedLe comp xs) (hy : SortedLe comp ys)
    (z : α) : (mergeL comp xs ys).filter (equivalentLe comp z) =
      xs.filter (equivalentLe comp z) ++ ys.filter (equivalentLe comp z) := by
  fun_induction mergeL comp xs ys with
  | case1 x xs y ys h ih =>
    obtain ⟨hx1, hx2⟩ := List.pairwise_cons.mp hx
    rw [List.filter_cons, ih hx2 hy]
    by_cases hz : equivalentLe comp z x = true
    · simp [hz, List.filter_cons]
    · simp [hz, List.filter_cons]
  | case2 x xs y ys h ih =>
    obtain ⟨hy1, hy2⟩ := List.pairwise_cons.mp hy
    rw [List.filter_cons, ih hx hy2]
    by_cases hz : equivalentLe comp z y = true
    · have hnil : (x :: xs).filter (equivalentLe comp z) = [] := by
        rw [List.filter_eq_nil_iff]
        intro b hb he
        simp only [equivalentLe, Bool.and_eq_true] at hz he
        have hby : comp b y = true := hc.trans _ _ _ he.2 hz.1
        have hxy : comp x y = true := by
          rcases List.mem_cons.mp hb with rfl | hb
          · exact hby
          · exact hc.trans _ _ _ ((List.pairwise_cons.mp hx).1 b hb) hby
        exact h hxy
      rw [hnil]
      simp [hz, List.filter_cons]
    · simp [hz, List.filter_cons]
  | case3 ys => simp
  | case4 x xs => simp

/-! ### merge_sort_by -/

theorem mergeSortF_run (fuel : Nat) (xs pre post : List α) (left right : Nat) (hl : left = pre.length)
    (hr : right + 1 = pre.length + xs.length) (hf : xs.length ≤ fuel) (hx : xs ≠ []) :
    ∃ ys, mergeSortF k comp fuel left right (St led (pre ++ xs ++ post)) = .ok () (St led (pre ++ ys ++ post)) ∧
      ys.Perm xs ∧
      (StrictWeakOrder comp → Sorted comp ys ∧
        ∀ z, ys.filter (equivalent comp z) = (xs.filter (equivalent comp z)).reverse) ∧
      (TotalPreorder comp → SortedLe comp ys ∧
        ∀ z, ys.filter (equivalentLe comp z) = xs.filter (equivalentLe comp z)) := by
  induction fuel generalizing xs pre post left right with
  | zero =>
    have : xs = [] := List.length_eq_zero_iff.mp (by omega)
    exact absurd this hx
  | succ fuel ih =>
    simp only [mergeSortF]
    have hpos : 0 < xs.length := List.length_pos_iff.mpr hx
    by_cases hlt : left < right
    · rw [if_pos hlt]
      generalize hm : left + (right - left) / 2 = middle
      have hm1 : left ≤ middle := by omega
      have hm2 : middle < right := by omega
      let n := middle + 1 - left
      have hn : n = middle + 1 - left := rfl
      obtain ⟨as, bs, hab, hal⟩ : ∃ as bs, xs = as ++ bs ∧ as.length = n :=
        ⟨xs.take n, xs.drop n, (List.take_append_drop n xs).symm, by simp; omega⟩
      have hlen : as.length + bs.length = xs.length := by rw [hab]; simp
      obtain ⟨as', h1, h2, h3, h4⟩ := ih as pre (bs ++ post) left middle hl (by omega) (by omega)
        (by intro h; rw [h] at hal; simp at hal; omega)
      obtain ⟨bs', g1, g2, g3, g4⟩ := ih bs (pre ++ as') post (middle + 1) right
        (by rw [List.length_append, h2.length_eq]; omega)
        (by rw [List.length_append, h2.length_eq]; omega) (by omega)
        (by intro h; rw [h] at hlen; simp at hlen; omega)
      have hmr := merge_run (k := k) (comp := comp) (led := led) as' bs' pre post
        (by intro h; rw [h] at h2; have := h2.length_eq; simp at this; omega)
      refine ⟨mergeL comp as' bs', ?_, ?_, ?_, ?_⟩
      · subst hab
        have e1 : mergeSortF k comp fuel left middle (St led (pre ++ (as ++ bs) ++ post)) =
            .ok () (St led (pre ++ as' ++ bs ++ post)) := by simpa using h1
        have e2 : mergeSortF k comp fuel (middle + 1) right (St led (pre ++ as' ++ bs ++ post)) =
            .ok () (St led (pre ++ (as' ++ bs') ++ post)) := by simpa using g1
        have e3 : pre.length + as'.length - 1 = middle := by rw [h2.length_eq]; omega
        have e4 : pre.length + as'.length + bs'.length - 1 = right := by
          rw [h2.length_eq, g2.length_eq]; omega
        rw [Cpp.bind_ok e1, Cpp.bind_ok e2]
        rw [e3, e4, ← hl] at hmr
        exact hmr
      · rw [hab]; exact (mergeL_perm _ _).trans (h2.append g2)
      · intro hc
        obtain ⟨p1, p2⟩ := h3 hc
        obtain ⟨q1, q2⟩ := g3 hc
        refine ⟨mergeL_sorted hc p1 q1, fun z => ?_⟩
        rw [mergeL_filter hc p1 q1, p2, q2, hab, List.filter_append, List.reverse_append]
      · intro hc
        obtain ⟨p1, p2⟩ := h4 hc
        obtain ⟨q1, q2⟩ := g4 hc
        refine ⟨mergeL_sorted_le hc p1 q1, fun z => ?_⟩
        rw [mergeL_filter_le hc p1 q1, p2, q2, hab, List.filter_append]
    · rw [if_neg hlt]
      match xs, hr, hpos with
      | [x], _, _ =>
        refine ⟨[x], rfl, .refl _, fun _ => ⟨List.pairwise_singleton _ _, fun z => ?_⟩,
          fun _ => ⟨List.pairwise_singleton _ _, fun z => rfl⟩⟩
        by_cases h : equivalent comp z x = true <;> simp [h, List.filter_cons]
      | _ :: _ :: _, h, _ => simp at h; omega

theorem mergeSortBy_run (xs pre post : List α) (left right : Nat) (hl : left = pre.length)
    (hr : right + 1 = pre.length + xs.length) (hx : xs ≠ []) :
    ∃ ys, mergeSortBy k comp left right (St led (pre ++ xs ++ post)) = .ok () (St led (pre ++ ys ++ post)) ∧
      ys.Perm xs ∧
      (StrictWeakOrder comp → Sorted comp ys ∧
        ∀ z, ys.filter (equivalent comp z) = (xs.filter (equivalent comp z)).reverse) ∧
      (TotalPreorder comp → SortedLe comp ys ∧
        ∀ z, ys.filter (equivalentLe comp z) = xs.filter (equivalentLe comp z)) := by
  have hpos : 0 < xs.length := List.length_pos_iff.mpr hx
  exact mergeSortF_run _ xs pre post left right hl hr (by omega) hx

end Sorting
end Efp
