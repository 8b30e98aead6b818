import Verif.Spec.Numeric
import Verif.PreludeRuns
import Mathlib.Order.Defs.LinearOrder

/-! Lemmas on numeric.hpp. -/

namespace Efp.Numeric

open Efp.Prelude Efp.Meta Efp.Spec.Numeric

variable {ω : Type}

theorem arith_in {A : NumTy} {x : Int} (h : InRange A x) : (arith A x : Cpp ω Int) = pure x := by
  unfold arith NumTy.reduce
  rw [if_pos (show A.lo ≤ x ∧ x ≤ A.hi from h)]

theorem arith_trap {A : NumTy} (ht : A.over = .trap) {x : Int} (h : ¬ InRange A x) :
    (arith A x : Cpp ω Int) = Cpp.ub .overflow := by
  unfold arith NumTy.reduce
  rw [if_neg (show ¬ (A.lo ≤ x ∧ x ≤ A.hi) from h), ht]

/-- wrapping arithmetic: in range and congruent -/
theorem arith_wrap {A : NumTy} (hw : A.over = .wrap) (hlh : A.lo ≤ A.hi) (x : Int) :
    ∃ r, (arith A x : Cpp ω Int) = pure r ∧ InRange A r ∧ (r - x) % (A.hi - A.lo + 1) = 0 := by
  unfold arith NumTy.reduce
  by_cases h : A.lo ≤ x ∧ x ≤ A.hi
  · rw [if_pos h]
    exact ⟨x, rfl, h, by simp⟩
  · rw [if_neg h, hw]
    refine ⟨_, rfl, ?_, ?_⟩
    · have h1 := Int.emod_nonneg (x - A.lo) (show A.hi - A.lo + 1 ≠ 0 by omega)
      have h2 := Int.emod_lt_of_pos (x - A.lo) (show 0 < A.hi - A.lo + 1 by omega)
      exact ⟨by omega, by omega⟩
    · have h3 := Int.emod_add_mul_ediv (x - A.lo) (A.hi - A.lo + 1)
      have : A.lo + (x - A.lo) % (A.hi - A.lo + 1) - x
          = (A.hi - A.lo + 1) * (-((x - A.lo) / (A.hi - A.lo + 1))) := by
        rw [Int.mul_neg]; omega
      rw [this]
      exact Int.mul_emod_right _ _

theorem congr_range {A : NumTy} {x y : Int} (hx : InRange A x) (hy : InRange A y)
    (h : (x - y) % (A.hi - A.lo + 1) = 0) : x = y := by
  obtain ⟨k, hk⟩ := Int.dvd_of_emod_eq_zero h
  obtain ⟨a, b⟩ := hx
  obtain ⟨c, d⟩ := hy
  by_cases hk0 : k = 0
  · subst hk0; omega
  · exfalso
    rcases Int.lt_or_gt_of_ne hk0 with h' | h'
    · have : (A.hi - A.lo + 1) * k ≤ (A.hi - A.lo + 1) * (-1) :=
        Int.mul_le_mul_of_nonneg_left (by omega) (by omega)
      omega
    · have : (A.hi - A.lo + 1) * 1 ≤ (A.hi - A.lo + 1) * k :=
        Int.mul_le_mul_of_nonneg_left (by omega) (by omega)
      omega

theorem sum_prefix {A : NumTy} (xs : List Int) (z : Int) (h : ∀ s ∈ prefixSums z xs, InRange A s) :
    (xs.foldlM (fun a b => arith A (a + b)) z : Cpp ω Int) = pure (z + xs.sum) := by
  induction xs generalizing z with
  | nil => simp
  | cons x xs ih =>
    rw [List.foldlM_cons, arith_in (h _ (by simp [prefixSums])), pure_bind, ih _ (fun s hs => h s (by simp [prefixSums, hs])),
      List.sum_cons, Int.add_assoc]

theorem sum_trap {A : NumTy} (ht : A.over = .trap) (xs : List Int) (z : Int)
    (h : ∃ s ∈ prefixSums z xs, ¬ InRange A s) :
    (xs.foldlM (fun a b => arith A (a + b)) z : Cpp ω Int) = Cpp.ub .overflow := by
  induction xs generalizing z with
  | nil => simp [prefixSums] at h
  | cons x xs ih =>
    rw [List.foldlM_cons]
    by_cases hx : InRange A (z + x)
    · rw [arith_in hx, pure_bind]
      apply ih
      obtain ⟨s, hs, hn⟩ := h
      simp only [prefixSums, List.mem_cons] at hs
      rcases hs with rfl | hs
      · exact absurd hx hn
      · exact ⟨s, hs, hn⟩
    · rw [arith_trap ht hx]; rfl

theorem sum_wrap {A : NumTy} (hw : A.over = .wrap) (hlh : A.lo ≤ A.hi) (xs : List Int) (z : Int)
    (hz : InRange A z) :
    ∃ r, (xs.foldlM (fun a b => arith A (a + b)) z : Cpp ω Int) = pure r ∧ InRange A r
      ∧ (r - (z + xs.sum)) % (A.hi - A.lo + 1) = 0 := by
  induction xs generalizing z with
  | nil => exact ⟨z, rfl, hz, by simp⟩
  | cons x xs ih =>
    obtain ⟨r, h1, h2, h3⟩ := arith_wrap (ω := ω) hw hlh (z + x)
    obtain ⟨r', h4, h5, h6⟩ := ih r h2
    refine ⟨r', by rw [List.foldlM_cons, h1, pure_bind, h4], h5, ?_⟩
    have : r' - (z + (x :: xs).sum) = (r' - (r + xs.sum)) + (r - (z + x)) := by rw [List.sum_cons]; omega
    rw [this]
    exact Int.emod_eq_zero_of_dvd (Int.dvd_add (Int.dvd_of_emod_eq_zero h6) (Int.dvd_of_emod_eq_zero h3))

theorem product_prefix {A : NumTy} (xs : List Int) (z : Int) (h : ∀ s ∈ prefixProducts z xs, InRange A s) :
    (xs.foldlM (fun a b => arith A (a * b)) z : Cpp ω Int) = pure (z * prod xs) := by
  induction xs generalizing z with
  | nil => simp [prod]
  | cons x xs ih =>
    rw [List.foldlM_cons, arith_in (h _ (by simp [prefixProducts])), pure_bind,
      ih _ (fun s hs => h s (by simp [prefixProducts, hs])), prod, Int.mul_assoc]

theorem product_trap {A : NumTy} (ht : A.over = .trap) (xs : List Int) (z : Int)
    (h : ∃ s ∈ prefixProducts z xs, ¬ InRange A s) :
    (xs.foldlM (fun a b => arith A (a * b)) z : Cpp ω Int) = Cpp.ub .overflow := by
  induction xs generalizing z with
  | nil => simp [prefixProducts] at h
  | cons x xs ih =>
    rw [List.foldlM_cons]
    by_cases hx : InRange A (z * x)
    · rw [arith_in hx, pure_bind]
      apply ih
      obtain ⟨s, hs, hn⟩ := h
      simp only [prefixProducts, List.mem_cons] at hs
      rcases hs with rfl | hs
      · exact absurd hx hn
      · exact ⟨s, hs, hn⟩
    · rw [arith_trap ht hx]; rfl

theorem product_wrap {A : NumTy} (hw : A.over = .wrap) (hlh : A.lo ≤ A.hi) (xs : List Int) (z : Int)
    (hz : InRange A z) :
    ∃ r, (xs.foldlM (fun a b => arith A (a * b)) z : Cpp ω Int) = pure r ∧ InRange A r
      ∧ (r - z * prod xs) % (A.hi - A.lo + 1) = 0 := by
  induction xs generalizing z with
  | nil => exact ⟨z, rfl, hz, by simp [prod]⟩
  | cons x xs ih =>
    obtain ⟨r, h1, h2, h3⟩ := arith_wrap (ω := ω) hw hlh (z * x)
    obtain ⟨r', h4, h5, h6⟩ := ih r h2
    refine ⟨r', by rw [List.foldlM_cons, h1, pure_bind, h4], h5, ?_⟩
    have : r' - z * prod (x :: xs) = (r' - r * prod xs) + (r - z * x) * prod xs := by
      rw [prod, Int.sub_mul, Int.mul_assoc]; omega
    rw [this]
    exact Int.emod_eq_zero_of_dvd (Int.dvd_add (Int.dvd_of_emod_eq_zero h6)
      (Int.dvd_trans (Int.dvd_of_emod_eq_zero h3) (Int.dvd_mul_right _ _)))

/-! ### Extrema -/

section order
variable {ν : Type} [LinearOrder ν]

theorem foldlM_pure {α β : Type} (f : β → α → β) (z : β) (l : List α) :
    (l.foldlM (fun b a => pure (f b a)) z : Cpp ω β) = pure (l.foldl f z) := by
  induction l generalizing z with
  | nil => rfl
  | cons a l ih => rw [List.foldlM_cons, pure_bind, ih]; rfl

theorem max_spec (a b : ν) :
    (Meta.max (fun x y => decide (y < x)) a b = a ∨ Meta.max (fun x y => decide (y < x)) a b = b)
    ∧ a ≤ Meta.max (fun x y => decide (y < x)) a b ∧ b ≤ Meta.max (fun x y => decide (y < x)) a b := by
  simp only [Meta.max, decide_eq_true_eq]
  by_cases h : b < a
  · rw [if_pos h]; exact ⟨.inl rfl, le_refl _, le_of_lt h⟩
  · rw [if_neg h]; exact ⟨.inr rfl, not_lt.mp h, le_refl _⟩

theorem min_spec (a b : ν) :
    (Meta.min (fun x y => decide (x < y)) a b = a ∨ Meta.min (fun x y => decide (x < y)) a b = b)
    ∧ Meta.min (fun x y => decide (x < y)) a b ≤ a ∧ Meta.min (fun x y => decide (x < y)) a b ≤ b := by
  simp only [Meta.min, decide_eq_true_eq]
  by_cases h : a < b
  · rw [if_pos h]; exact ⟨.inl rfl, le_refl _, le_of_lt h⟩
  · rw [if_neg h]; exact ⟨.inr rfl, not_lt.mp h, le_refl _⟩

theorem foldl_max_spec (l : List ν) (z : ν) :
    (l.foldl (fun a b => Meta.max (fun x y => decide (y < x)) a b) z = z
      ∨ l.foldl (fun a b => Meta.max (fun x y => decide (y < x)) a b) z ∈ l)
    ∧ z ≤ l.foldl (fun a b => Meta.max (fun x y => decide (y < x)) a b) z
    ∧ ∀ x ∈ l, x ≤ l.foldl (fun a b => Meta.max (fun x y => decide (y < x)) a b) z := by
  induction l generalizing z with
  | nil => simp
  | cons a l ih =>
    rw [List.foldl_cons]
    obtain ⟨h1, h2, h3⟩ := ih (Meta.max (fun x y => decide (y < x)) z a)
    obtain ⟨m1, m2, m3⟩ := max_spec z a
    refine ⟨?_, le_trans m2 h2, ?_⟩
    · rcases h1 with h1 | h1
      · rw [h1]
        rcases m1 with m1 | m1
        · exact .inl m1
        · rw [m1]; exact .inr (by simp)
      · exact .inr (by simp [h1])
    · intro x hx
      rcases List.mem_cons.mp hx with rfl | hx
      · exact le_trans m3 h2
      · exact h3 x hx

theorem foldl_min_spec (l : List ν) (z : ν) :
    (l.foldl (fun a b => Meta.min (fun x y => decide (x < y)) a b) z = z
      ∨ l.foldl (fun a b => Meta.min (fun x y => decide (x < y)) a b) z ∈ l)
    ∧ l.foldl (fun a b => Meta.min (fun x y => decide (x < y)) a b) z ≤ z
    ∧ ∀ x ∈ l, l.foldl (fun a b => Meta.min (fun x y => decide (x < y)) a b) z ≤ x := by
  induction l generalizing z with
  | nil => simp
  | cons a l ih =>
    rw [List.foldl_cons]
    obtain ⟨h1, h2, h3⟩ := ih (Meta.min (fun x y => decide (x < y)) z a)
    obtain ⟨m1, m2, m3⟩ := min_spec z a
    refine ⟨?_, le_trans h2 m2, ?_⟩
    · rcases h1 with h1 | h1
      · rw [h1]
        rcases m1 with m1 | m1
        · exact .inl m1
        · rw [m1]; exact .inr (by simp)
      · exact .inr (by simp [h1])
    · intro x hx
      rcases List.mem_cons.mp hx with rfl | hx
      · exact le_trans h2 m3
      · exact h3 x hx

end order

end Efp.Numeric
