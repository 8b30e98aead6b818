import Verif.SciFloatMean
import Verif.IeeeSqrt

/-!
# Properties of numeric.hpp and scientific.hpp in floating-point arithmetic (C119-C123)

`F` is a binary format, such as `double` or `single`.  `value` is the rational a finite number stands for, `unit F` is the
unit roundoff (`2^-53` for `double`) and `tiny F` half the least positive number.
-/

namespace Efp.Props

open Efp.Prelude (Inp)
open Efp.Ieee
open Efp.SciFloat

variable {ω : Type} {F : Fmt}

/-- a vector of numbers -/
def fps (l : List Fp) : Inp Fp := ⟨.vector, l, 0, false⟩

/-- the `double` nearest to 0.1 -/
def tenth : Fp := .fin false (3602879701896397 / 2 ^ 55)

/-- the greatest finite `double` -/
def dblMax : Fp := .fin false ((2 ^ 53 - 1) * 2 ^ 971)

theorem tenth_finite : Finite double tenth :=
  ⟨false, _, rfl, by norm_num, ⟨3602879701896397, -55, by norm_num, by decide +kernel, by decide⟩, by
    have : (2 : ℚ) ^ (0 : Int) ≤ 2 ^ double.emax := zpow_le_zpow_right₀ (by norm_num) (by decide)
    refine lt_of_lt_of_le ?_ this
    norm_num⟩

/-! ## sqrt -/

/-- the arithmetic the other theorems use: `sqrt` of a positive number is a number of the format nearest to the real root -/
theorem C121_sqrt (hF : F.Ok) {q : ℚ} (hx : Finite F (.fin false q)) (hq : 0 < q) :
    Finite F (sqrt F (.fin false q)) ∧
    ∀ r, Rep F r → |((value (sqrt F (.fin false q)) : ℚ) : ℝ) - Real.sqrt q| ≤ |(r : ℝ) - Real.sqrt q| := sqrt_correct hF hx hq

example : sqrt double (.fin false 2) = .fin false (6369051672525773 / 2 ^ 52) := by decide +kernel

/-! ## C119: sums -/

/-- **C119.**  The sum of finite numbers is finite, and differs from the exact sum by at most `(1 + u)^(n-1) - 1` times the sum
of the magnitudes, provided the magnitudes leave room below the greatest number. -/
theorem C119_sum_error (hF : F.Ok) (as : Inp Fp) (hl : ∀ x ∈ as.vals, Finite F x)
    (hroom : (1 + unit F) ^ (as.vals.length - 1) * (as.vals.map fun x => |value x|).sum < 2 ^ F.emax) (w : ω) :
    ∃ s, sum F as w = .ok s w ∧ Finite F s ∧
      |value s - (as.vals.map value).sum| ≤ ((1 + unit F) ^ (as.vals.length - 1) - 1) * (as.vals.map fun x => |value x|).sum :=
  ⟨_, sum_run as w, sumL_error hF as.vals hl hroom⟩

/-- **C119.**  Integers whose magnitudes add up to less than `2^prec` (`2^53` for `double`) are summed exactly. -/
theorem C119_sum_exact (hF : F.Ok) (as : Inp Fp) (hl : ∀ x ∈ as.vals, Finite F x) (hi : ∀ x ∈ as.vals, ∃ n : Int, value x = n)
    (hroom : (as.vals.map fun x => |value x|).sum < 2 ^ F.prec) (w : ω) :
    ∃ s, sum F as w = .ok s w ∧ Finite F s ∧ value s = (as.vals.map value).sum := by
  obtain ⟨h1, h2⟩ := foldl_exact hF as.vals zero zero_finite hl ⟨0, by simp [value_zero]⟩ hi (by simpa [value_zero, absSum] using hroom)
  rw [value_zero, zero_add] at h2
  exact ⟨_, sum_run as w, h1, h2⟩

/-- **C119.**  A NaN among the elements makes the sum NaN; finite elements never do, even when the sum overflows. -/
theorem C119_sum_nan (hF : F.Ok) (as : Inp Fp) (w : ω) :
    (.nan ∈ as.vals → sum F as w = .ok .nan w) ∧
    ((∀ x ∈ as.vals, Finite F x) → ∃ s, sum F as w = .ok s w ∧ s ≠ .nan) := by
  refine ⟨fun h => ?_, fun h => ⟨_, sum_run as w, fun hn => ?_⟩⟩
  · rw [sum_run, sumL, foldl_nan _ _ (Or.inr h)]
  · rcases foldl_not_nan hF as.vals zero (Or.inl zero_finite) h with ⟨s, m, hsm, -⟩ | ⟨s, hs⟩
    · rw [sumL, hsm] at hn; cases hn
    · rw [sumL, hs] at hn; cases hn

example : sum (ω := Unit) double (fps [tenth, tenth, tenth]) () = .ok (.fin false (1351079888211149 / 2 ^ 52)) () := by decide +kernel
example : ∃ s, sum (ω := Unit) double (fps [tenth, tenth, tenth]) () = .ok s () ∧ Finite double s ∧
    |value s - (([tenth, tenth, tenth]).map value).sum| ≤ ((1 + unit double) ^ 2 - 1) * (([tenth, tenth, tenth]).map fun x => |value x|).sum :=
  C119_sum_error double_ok (fps [tenth, tenth, tenth]) (by simp [fps, tenth_finite]) (by
    have h1 : (1 + unit double) ^ 2 * (([tenth, tenth, tenth]).map fun x => |value x|).sum < 1 := by decide +kernel
    have : (2 : ℚ) ^ (0 : Int) ≤ 2 ^ double.emax := zpow_le_zpow_right₀ (by norm_num) (by decide)
    exact lt_of_lt_of_le h1 (by simpa using this)) ()
example : sum (ω := Unit) single (fps [.fin false 16777216, .fin false 1]) () = .ok (.fin false 16777216) () := by decide +kernel
example : sum (ω := Unit) double (fps [dblMax, dblMax, .fin true 1]) () = .ok (.inf false) () := by decide +kernel

/-! ## C120: the mean -/

/-- **C120 is false.**  The mean of three times 0.1 is greater than 0.1, and the mean of two finite numbers can be infinite:
it need not lie between the least and the greatest element. -/
theorem C120_mean_outside :
    (∃ m, mean (ω := Unit) double (fps [tenth, tenth, tenth]) () = .ok m () ∧ lt tenth m = true) ∧
    mean (ω := Unit) double (fps [dblMax, dblMax]) () = .ok (.inf false) () :=
  ⟨⟨.fin false (7205759403792795 / 2 ^ 56), by decide +kernel, by decide +kernel⟩, by decide +kernel⟩

/-- **C120, what holds.**  The mean of finite numbers whose sum cannot overflow is finite, and differs from the exact average by
at most `(1 + u)^n - 1` times the average magnitude, plus half the least positive number.  Missing: that it lies between the
least and the greatest element, which is false. -/
theorem C120_mean_error_partial (hF : F.Ok) (as : Inp Fp) (h0 : as.vals ≠ []) (h64 : as.vals.length < 2 ^ 64)
    (hn : as.vals.length < 2 ^ F.prec) (hl : ∀ x ∈ as.vals, Finite F x)
    (hroom : (1 + unit F) ^ (as.vals.length - 1) * (as.vals.map fun x => |value x|).sum < 2 ^ F.emax) (w : ω) :
    ∃ m, mean F as w = .ok m w ∧ Finite F m ∧
      |value m - (as.vals.map value).sum / as.vals.length| ≤
        ((1 + unit F) ^ as.vals.length - 1) * ((as.vals.map fun x => |value x|).sum / as.vals.length) + tiny F :=
  ⟨_, mean_run as w, meanL_error hF as.vals h0 h64 hn hl hroom⟩

/-- **C120, what holds.**  The mean of a constant sequence is the constant whenever its multiples are numbers of the format. -/
theorem C120_mean_const_partial (hF : F.Ok) (as : Inp Fp) {c : Fp} {n : Nat} (ha : as.vals = List.replicate n c) (hc : Finite F c)
    (hpos : 0 < n) (h64 : n < 2 ^ 64) (hn : n < 2 ^ F.prec) (hrep : ∀ i ≤ n, Rep F (i * value c)) (hroom : |(n : ℚ) * value c| < 2 ^ F.emax)
    (w : ω) : ∃ m, mean F as w = .ok m w ∧ Finite F m ∧ value m = value c := by
  have := meanL_const hF hc hpos h64 hn hrep hroom
  rw [← ha] at this
  exact ⟨_, mean_run as w, this⟩

/-- 0.25 -/
def quarter : Fp := .fin false (1 / 4)

theorem quarter_finite : Finite double quarter :=
  ⟨false, _, rfl, by norm_num, ⟨1, -2, by norm_num, by decide +kernel, by decide⟩, by
    have : (2 : ℚ) ^ (0 : Int) ≤ 2 ^ double.emax := zpow_le_zpow_right₀ (by norm_num) (by decide)
    refine lt_of_lt_of_le ?_ this
    norm_num⟩

theorem quarter_multiples : ∀ i ≤ 1000, Rep double (((i : Nat) : ℚ) * value quarter) := fun i hi =>
  ⟨i, -2, by simp [value, quarter, signed]; norm_num, by
    rw [Nat.abs_cast]
    exact_mod_cast lt_of_le_of_lt hi (by decide +kernel), by decide⟩

theorem quarter_room : |((1000 : Nat) : ℚ) * value quarter| < 2 ^ double.emax := by
  have : (2 : ℚ) ^ (10 : Int) ≤ 2 ^ double.emax := zpow_le_zpow_right₀ (by norm_num) (by decide)
  refine lt_of_lt_of_le ?_ this
  rw [show value quarter = 1 / 4 from rfl, abs_of_nonneg (by norm_num)]
  norm_num

example : ∃ m, mean (ω := Unit) double (fps (List.replicate 1000 quarter)) () = .ok m () ∧ Finite double m ∧ value m = value quarter :=
  C120_mean_const_partial double_ok _ rfl quarter_finite (by decide) (by decide) (by decide) quarter_multiples quarter_room ()
example : mean (ω := Unit) double (fps [.fin false 1, .fin false 2]) () = .ok (.fin false (3 / 2)) () := by decide +kernel

/-! ## C121: variance and standard deviation -/

/-- **C121 is false.**  The variance of a constant sequence need not be zero: three times 0.1. -/
theorem C121_variance_const : ∃ v, variance (ω := Unit) double false (fps [tenth, tenth, tenth]) () = .ok v () ∧ lt zero v = true :=
  ⟨.fin false (1 / 2 ^ 112), by decide +kernel, by decide +kernel⟩

/-- **C121, what holds.**  The variance of finite data is never negative and never NaN, and neither is the standard
deviation; both may be infinite. -/
theorem C121_variance_nonneg_partial (hF : F.Ok) (as : Inp Fp) (hv : as.valid) (bessel : Bool)
    (h : (if bessel then 2 else 1) ≤ as.vals.length) (h64 : as.vals.length < 2 ^ 64) (hl : ∀ x ∈ as.vals, Finite F x) (w : ω) :
    (∃ v, variance F bessel as w = .ok v w ∧ NonNeg v) ∧ ∃ d, standardDeviation F bessel as w = .ok d w ∧ NonNeg d := by
  have h1 := varL_nonneg hF bessel h h64 hl
  exact ⟨⟨_, variance_run hv bessel w, h1⟩, _, standardDeviation_run hv bessel w, sqrt_nonneg_fp h1⟩

/-- **C121, what holds.**  The variance of a constant sequence is zero whenever the multiples of the constant are numbers of the
format. -/
theorem C121_variance_const_partial (hF : F.Ok) (as : Inp Fp) (hv : as.valid) (bessel : Bool) {c : Fp} {n : Nat}
    (ha : as.vals = List.replicate n c) (hc : Finite F c) (h0 : (if bessel then 2 else 1) ≤ n) (h64 : n < 2 ^ 64) (hn : n < 2 ^ F.prec)
    (hrep : ∀ i ≤ n, Rep F (i * value c)) (hroom : |(n : ℚ) * value c| < 2 ^ F.emax) (w : ω) :
    variance F bessel as w = .ok zero w := by
  rw [variance_run hv, ha, varL_const hF bessel hc h0 h64 hn hrep hroom]

example : variance (ω := Unit) double true (fps (List.replicate 1000 quarter)) () = .ok zero () :=
  C121_variance_const_partial double_ok _ ⟨by
    show (List.replicate 1000 quarter).length < _
    rw [List.length_replicate]
    decide, fun h => Bool.noConfusion h⟩ true rfl quarter_finite (by decide) (by decide) (by decide) quarter_multiples
    quarter_room ()
example : variance (ω := Unit) double true (fps [.fin false 1, .fin false 2, .fin false 4]) () = .ok (.fin false (2627099782632789 / 2 ^ 50)) () := by
  decide +kernel

/-! ## C122: covariance, correlation and error measures -/

/-- **C122 is false.**  The correlation of a sequence with itself can exceed one, and the correlation with a constant sequence is
NaN; and sequences that differ can have a sum of squared errors of zero, because the squares underflow. -/
theorem C122_correlation_bound :
    (∃ r, correlation (ω := Unit) double false (fps [.fin false 0, .fin false 0, .fin false 1]) (fps [.fin false 0, .fin false 0, .fin false 1]) ()
        = .ok r () ∧ lt (.fin false 1) r = true) ∧
    correlation (ω := Unit) double false (fps [.fin false 1, .fin false 1]) (fps [.fin false 1, .fin false 2]) () = .ok .nan () ∧
    sse (ω := Unit) double (fps [.fin false (1 / 2 ^ 600)]) (fps [.fin false 0]) () = .ok zero () :=
  ⟨⟨.fin false (1 + 1 / 2 ^ 52), by decide +kernel, by decide +kernel⟩, by decide +kernel, by decide +kernel⟩

/-- **C122, what holds.**  Rounding does not break the symmetry: for sequences of one length `covariance` and `correlation` give
the same result, to the bit, with the arguments exchanged, and the covariance of a sequence with itself is its variance. -/
theorem C122_covariance_comm_partial (as bs : Inp Fp) (hva : as.valid) (hvb : bs.valid) (hlen : as.vals.length = bs.vals.length)
    (bessel : Bool) (w : ω) :
    covariance F bessel as bs w = covariance F bessel bs as w ∧ correlation F bessel as bs w = correlation F bessel bs as w ∧
    covariance F bessel as as w = variance F bessel as w := by
  refine ⟨?_, ?_, ?_⟩
  · rw [covariance_run hva hvb, covariance_run hvb hva, covL_comm bessel hlen]
  · rw [correlation_run hva hvb, correlation_run hvb hva, covL_comm bessel hlen, mul_comm_fp]
  · rw [covariance_run hva hva, variance_run hva, covL_self]

/-- **C122, what holds.**  `sse` and `mse` give the same result, to the bit, with the arguments exchanged; for finite data that
agree `sse` is zero. -/
theorem C122_sse_partial (as bs : Inp Fp) (hva : as.valid) (hvb : bs.valid) (w : ω) :
    sse F as bs w = sse F bs as w ∧ mse F as bs w = mse F bs as w ∧
    ((∀ x ∈ as.vals, Finite F x) → as.vals = bs.vals → sse F as bs w = .ok zero w) := by
  refine ⟨?_, ?_, fun hf he => ?_⟩
  · rw [sse_run hva hvb, sse_run hvb hva, sse_comm]
  · rw [mse_run hva hvb, mse_run hvb hva, sse_comm]
  · rw [sse_run hva hvb, ← he, sse_self _ hf]

/-- **C122, what holds.**  `rms`, `sse`, `mse` and `rmse` of finite data are never negative and never NaN. -/
theorem C122_nonneg_partial (hF : F.Ok) (as bs : Inp Fp) (hva : as.valid) (hvb : bs.valid) (h0 : as.vals ≠ []) (h0' : bs.vals ≠ [])
    (h64 : as.vals.length < 2 ^ 64) (hfa : ∀ x ∈ as.vals, Finite F x) (hfb : ∀ x ∈ bs.vals, Finite F x) (w : ω) :
    (∃ r, rms F as w = .ok r w ∧ NonNeg r) ∧ (∃ r, sse F as bs w = .ok r w ∧ NonNeg r) ∧ (∃ r, mse F as bs w = .ok r w ∧ NonNeg r) ∧
    ∃ r, rmse F as bs w = .ok r w ∧ NonNeg r := by
  have hz : (as.vals.zip bs.vals).map (fun p => square F (sub F p.1 p.2)) ≠ [] := by
    intro h
    rw [List.map_eq_nil_iff, List.zip_eq_nil_iff] at h
    exact h.elim h0 h0'
  have hm := meanL_nonneg hF hz (by rw [List.length_map, List.length_zip]; omega) (errors_nonneg hF hfa hfb)
  refine ⟨⟨_, rms_run hva w, sqrt_nonneg_fp (meanL_nonneg hF (by simpa using h0) (by simpa using h64) (squares_nonneg hfa))⟩,
    ⟨_, sse_run hva hvb w, foldl_nonneg _ _ (Or.inr ⟨0, le_refl _, rfl⟩) (errors_nonneg hF hfa hfb)⟩, ⟨_, mse_run hva hvb w, hm⟩,
    _, rmse_run hva hvb w, sqrt_nonneg_fp hm⟩

example : rms (ω := Unit) double (fps [.fin false 3, .fin true 4]) () = .ok (.fin false (124395540479019 / 2 ^ 45)) () := by decide +kernel
example : covariance (ω := Unit) double true (fps [.fin false 1, .fin false 2, tenth]) (fps [.fin false 3, tenth, .fin true 1]) ()
    = .ok (.fin false (2094173826727281 / 2 ^ 52)) () := by decide +kernel

/-! ## C123: is_approx -/

/-- **C123 is false.**  `is_approx` can hold although the numbers differ by more than epsilon (the difference is rounded), it does
not hold of two equal infinities, and numbers next to each other above 2 are not approximately equal. -/
theorem C123_is_approx_bound :
    (isApprox double (.fin false (1 / 2 ^ 52)) (.fin true (1 / 2 ^ 200)) = true ∧
      (1 / 2 ^ 52 : ℚ) < value (.fin false (1 / 2 ^ 52)) - value (.fin true (1 / 2 ^ 200))) ∧
    isApprox double (.inf false) (.inf false) = false ∧
    isApprox double (.fin false 4) (.fin false (4 + 1 / 2 ^ 50)) = false ∧ Rep double (4 + 1 / 2 ^ 50) :=
  ⟨⟨by decide +kernel, by decide +kernel⟩, by decide +kernel, by decide +kernel,
    ⟨2 ^ 52 + 1, -50, by norm_num, by decide +kernel, by decide⟩⟩

/-- **C123, what holds.**  For finite numbers `is_approx` holds if they differ by at most epsilon, and only if they differ by at most
epsilon up to the rounding of the difference; it is reflexive and symmetric. -/
theorem C123_is_approx_partial (hF : F.Ok) {x y : Fp} (hx : Finite F x) (hy : Finite F y) :
    (|value x - value y| ≤ 2 ^ (1 - (F.prec : Int)) → isApprox F x y = true) ∧
    (isApprox F x y = true → |value x - value y| * (1 - unit F) ≤ 2 ^ (1 - (F.prec : Int))) ∧
    isApprox F x x = true ∧ isApprox F x y = isApprox F y x := by
  refine ⟨isApprox_of_near hF hx hy, near_of_isApprox hF hx hy, isApprox_of_near hF hx hx ?_, ?_⟩
  · rw [sub_self, abs_zero]
    exact (zpow_pos2 _).le
  · rw [Bool.eq_iff_iff, isApprox_iff hF hx hy, isApprox_iff hF hy hx, abs_sub_comm]

/-- **C123, what holds.**  For numbers of magnitude 2 and more `is_approx` is equality. -/
theorem C123_is_approx_large_partial (hF : F.Ok) {x y : Fp} (hx : Finite F x) (hy : Finite F y) (h1 : 2 ≤ |value x|) (h2 : 2 ≤ |value y|) :
    isApprox F x y = true ↔ value x = value y := isApprox_large hF hx hy h1 h2

/-- **C123, what holds.**  NaN is approximately equal to nothing. -/
theorem C123_is_approx_nan_partial (x : Fp) : isApprox F .nan x = false ∧ isApprox F x .nan = false := by
  constructor
  · rfl
  · cases x <;> rfl

example : isApprox double tenth (.fin false (3602879701896400 / 2 ^ 55)) = true := by decide +kernel
example : isApprox double tenth quarter = false := by decide +kernel

end Efp.Props
