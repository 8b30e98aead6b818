import Verif.NumericTrig
import Mathlib.Tactic.Linarith
import Mathlib.Tactic.NormNum
import Mathlib.Algebra.Order.Floor.Ring

/-!
# C168: sines, cosines and tangents; C169: conversion to and from complex numbers
-/

namespace Efp.Props
open Efp.Trig

/-- **C168** (floating-point types, partial).  `sin`, `cos` and `tan` are as accurate as the functions of the platform: if those
are within `e` of the mathematical function, so is the library.  Missing: integer types, see `C168_integers`. -/
theorem C168_float_partial (std f : ℝ → ℝ) (e : ℝ) (h : ∀ x, |std x - f x| ≤ e) (a : ℝ) : |ofFloat std a - f a| ≤ e := h a

theorem truncate_near (x : ℝ) : |(truncate x : ℝ) - x| < 1 := by
  unfold truncate
  rw [abs_lt]
  split
  · have h1 := Int.floor_le x
    have h2 := Int.lt_floor_add_one x
    constructor <;> linarith
  · have h1 := Int.le_ceil x
    have h2 := Int.ceil_lt_add_one x
    constructor <;> linarith

theorem truncate_le (x : ℝ) : |(truncate x : ℝ)| ≤ |x| := by
  unfold truncate
  split
  · rename_i h
    rw [abs_of_nonneg h, abs_of_nonneg (by exact_mod_cast Int.floor_nonneg.mpr h)]
    exact Int.floor_le x
  · rename_i h
    have hx : x < 0 := not_le.mp h
    have hc : ⌈x⌉ ≤ 0 := Int.ceil_le.mpr (by simpa using hx.le)
    rw [abs_of_neg hx, abs_of_nonpos (by exact_mod_cast hc)]
    have := Int.le_ceil x
    linarith

theorem truncate_small {x : ℝ} (h : |x| < 1) : truncate x = 0 := by
  have h1 := lt_of_le_of_lt (truncate_le x) h
  have h2 : |truncate x| < 1 := by exact_mod_cast h1
  exact Int.abs_lt_one_iff.mp h2

/-- **C168** (integer types).  The result is an integer less than `1 + e` from the true value and no better: wherever the sine
(or cosine, or tangent) is less than `1 - e` in magnitude, the result is 0. -/
theorem C168_integers (std f : ℝ → ℝ) (e : ℝ) (h : ∀ x, |std x - f x| ≤ e) (a : ℤ) :
    |(ofInt std a : ℝ) - f a| < 1 + e ∧ (|f a| < 1 - e → ofInt std a = 0) := by
  have h1 := truncate_near (std a)
  have h2 := h a
  constructor
  · have h3 : (ofInt std a : ℝ) - f a = ((truncate (std a) : ℝ) - std a) + (std a - f a) := by
      unfold ofInt; ring
    rw [h3]
    have := abs_add_le ((truncate (std a) : ℝ) - std a) (std a - f a)
    linarith
  · intro hs
    apply truncate_small
    have h3 : std a = (std a - f a) + f a := by ring
    have := abs_add_le (std a - f a) (f a)
    rw [← h3] at this
    linarith

/-- Sines and cosines of integers are -1, 0 or 1 when the platform's function stays in the range of the mathematical one. -/
theorem C168_three_values (std : ℝ → ℝ) (h : ∀ x, |std x| ≤ 1) (a : ℤ) :
    ofInt std a = -1 ∨ ofInt std a = 0 ∨ ofInt std a = 1 := by
  have h1 : |ofInt std a| ≤ 1 := by exact_mod_cast le_trans (truncate_le (std a)) (h a)
  rw [abs_le] at h1
  omega

theorem sin_one_big : (4 : ℝ) / 5 < Real.sin 1 := by
  have h1 := Real.sin_sq_add_cos_sq 1
  have h2 := Real.cos_one_le
  have h3 := Real.cos_one_pos
  have h4 : 0 < Real.sin 1 := Real.sin_pos_of_pos_of_le_one one_pos le_rfl
  by_contra hc
  have hc' : Real.sin 1 ≤ 4 / 5 := not_lt.mp hc
  nlinarith

/-- `sin 1` is below 1. -/
theorem sin_one_lt : Real.sin 1 < 1 := by
  have h1 := Real.sin_sq_add_cos_sq 1
  have h3 := Real.cos_one_pos
  nlinarith

/-- **C168** for all types is false: even with a perfect `std::sin`, the sine of the integer 1 is off by more than 0.8. -/
theorem C168_refuted : ¬ ∀ a : ℤ, |(ofInt Real.sin a : ℝ) - Real.sin a| ≤ 1 / 2 := by
  intro h
  have h1 := h 1
  have h3 := sin_one_big
  have h4 := sin_one_lt
  have h2 : ofInt Real.sin 1 = 0 := by
    apply truncate_small
    rw [abs_lt]
    constructor
    · norm_num; linarith
    · simpa using h4
  rw [h2] at h1
  rw [abs_le] at h1
  norm_num at h1
  linarith

/-- A function that meets the hypotheses: the sine itself, with error 0. -/
example : ∀ x, |Real.sin x - Real.sin x| ≤ 0 := by simp
example : ∀ x, |Real.sin x| ≤ 1 := Real.abs_sin_le_one
example : ofInt Real.cos 0 = 1 := by simp [ofInt, truncate]

/-- **C169** (every call).  `complex_cast` can be called with every number and either direction: exactly one overload takes part. -/
theorem C169_one {α : Type} (zero : α) (b : Bool) (x : Num α) :
    ∃ y, complexCast zero b x = [y] ∧ y.isComplex = b := by
  cases x <;> cases b <;> simp [complexCast, Num.isComplex]

/-- **C169** (there and back).  A real number survives the way to a complex number and back; a complex number survives the other
way exactly if its imaginary part is zero; its real part always does. -/
theorem C169_round {α : Type} (zero : α) :
    (∀ a : α, complexCast zero true (.real a) = [.complex a zero]) ∧
    (∀ re im : α, complexCast zero false (.complex re im) = [.real re]) ∧
    (∀ a : α, ((complexCast zero true (.real a)).flatMap (complexCast zero false)) = [.real a]) ∧
    (∀ re im : α, ((complexCast zero false (.complex re im)).flatMap (complexCast zero true)) = [.complex re im] ↔ im = zero) ∧
    ∀ x : Num α, complexCast zero x.isComplex x = [x] := by
  refine ⟨?_, ?_, ?_, ?_, ?_⟩
  · intro a; simp [complexCast, Num.isComplex]
  · intro re im; simp [complexCast, Num.isComplex]
  · intro a; simp [complexCast, Num.isComplex]
  · intro re im; simp [complexCast, Num.isComplex, eq_comm]
  · intro x; cases x <;> simp [complexCast, Num.isComplex]

example : (complexCast (0 : Int) true (.real 7)).flatMap (complexCast 0 false) = [.real 7] ∧
    complexCast (0 : Int) false (.complex 3 4) = [.real 3] := by decide

end Efp.Props
