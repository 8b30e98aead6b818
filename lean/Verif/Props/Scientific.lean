import Verif.ScientificAlgebra
import Verif.Props.Numeric
import Mathlib.Algebra.Order.Field.Rat
import Mathlib.Analysis.Real.Sqrt

/-!
# Properties of scientific.hpp in exact arithmetic (C69-C71, C85-C87)

`K` is any linearly ordered field (the rationals or the reals).
-/

namespace Efp.Props

open Efp.Prelude (Inp)
open Efp.Scientific Efp.Spec.Scientific

variable {ω K : Type} [Field K] [LinearOrder K] [IsStrictOrderedRing K]

/-- the divisor is usable: there is an element, and with Bessel's correction a second one -/
theorem divisor_ne {bessel : Bool} {n : Nat} (h : (if bessel then 2 else 1) ≤ n) : divisor K bessel n ≠ 0 := by
  cases bessel with
  | true =>
    simp only [if_true] at h
    simp only [divisor, if_true]
    rw [Nat.cast_ne_zero]; omega
  | false =>
    simp only [Bool.false_eq_true, if_false] at h
    simp only [divisor, Bool.false_eq_true, if_false]
    rw [Nat.cast_ne_zero]; omega

theorem ne_of_count {bessel : Bool} {xs : List K} (h : (if bessel then 2 else 1) ≤ xs.length) : xs ≠ [] := by
  intro h'
  rw [h'] at h
  cases bessel <;> simp at h

/-! ## C69: mean, variance, covariance -/

/-- **C69.**  `mean` is the average of a non-empty sequence; of an empty one it divides by zero. -/
theorem C69_mean (as : Inp K) (w : ω) :
    (as.vals ≠ [] → mean as w = .ok (as.vals.sum / as.vals.length) w)
    ∧ (as.vals = [] → mean as w = .ub .divZero) := by
  refine ⟨fun h => mean_run h w, fun h => ?_⟩
  rw [mean, Cpp.bind_ok (sum_run as w), div, if_pos (by simp [Prelude.length, h])]

/-- **C69.**  `variance` is the mean squared deviation (divided by `n - 1` with Bessel's correction), and
equals the covariance of the sequence with itself and the autocovariance at lag 0. -/
theorem C69_variance (as : Inp K) (hv : as.valid) (bessel adjusted : Bool)
    (h : (if bessel then 2 else 1) ≤ as.vals.length) (w : ω) :
    variance bessel as w = .ok (sqDev as.vals / divisor K bessel as.vals.length) w
    ∧ covariance bessel as as w = variance bessel as w
    ∧ (as.vals.length < 2 ^ 31 → autocovariance bessel adjusted as 0 w = variance bessel as w) := by
  have hne := ne_of_count h
  have hd := divisor_ne (K := K) h
  have h1 := variance_run (ω := ω) hv hne bessel hd w
  refine ⟨h1, ?_, fun hlen => ?_⟩
  · rw [h1, covariance_run hv hv hne hne bessel hd, coDev_self]
  · have hpos : 0 < as.vals.length := List.length_pos_iff.mpr hne
    have e : autoDivisor K bessel adjusted as.vals.length 0 = divisor K bessel as.vals.length := by
      cases adjusted <;> simp [autoDivisor]
    have := autocovariance_run (ω := ω) hne hlen hpos bessel adjusted (by rw [e]; exact hd) w
    rw [Nat.cast_zero] at this
    rw [this, h1, lagDev_zero, e]

/-- **C69.**  `covariance` is the mean product of deviations of corresponding elements and is symmetric for
sequences of one length. -/
theorem C69_covariance (as bs : Inp K) (hva : as.valid) (hvb : bs.valid) (bessel : Bool)
    (h : (if bessel then 2 else 1) ≤ as.vals.length) (hl : as.vals.length = bs.vals.length) (w : ω) :
    covariance bessel as bs w = .ok (coDev as.vals bs.vals / divisor K bessel as.vals.length) w
    ∧ covariance bessel bs as w = covariance bessel as bs w := by
  have h1 := covariance_run (ω := ω) hva hvb (ne_of_count h) (ne_of_count (hl ▸ h)) bessel (divisor_ne h) w
  have h2 := covariance_run (ω := ω) hvb hva (ne_of_count (hl ▸ h)) (ne_of_count h) bessel
    (divisor_ne (hl ▸ h)) w
  refine ⟨h1, ?_⟩
  rw [h1, h2, coDev_comm, hl]

/-- **C69.**  Replacing every element `x` by `c x + d` replaces the mean `m` by `c m + d` and multiplies the
variance by `c²`; so shifting (`c = 1`) leaves it unchanged and scaling scales quadratically. -/
theorem C69_affine (as bs : Inp K) (hva : as.valid) (hvb : bs.valid) (c d : K)
    (hb : bs.vals = as.vals.map fun x => c * x + d) (bessel : Bool)
    (h : (if bessel then 2 else 1) ≤ as.vals.length) (w : ω) :
    ∃ m v, mean as w = .ok m w ∧ variance bessel as w = .ok v w
      ∧ mean bs w = .ok (c * m + d) w ∧ variance bessel bs w = .ok (c ^ 2 * v) w := by
  have hl : bs.vals.length = as.vals.length := by rw [hb, List.length_map]
  have hne := ne_of_count h
  have hneb : bs.vals ≠ [] := ne_of_count (hl ▸ h)
  refine ⟨_, _, mean_run hne w, variance_run hva hne bessel (divisor_ne h) w, ?_, ?_⟩
  · rw [mean_run hneb, hb, avg_affine hne]
  · rw [variance_run hvb hneb bessel (divisor_ne (hl ▸ h)), hl, hb, sqDev_affine hne, mul_div_assoc]

/-- **C69.**  The variance is never negative, and it is zero exactly for constant sequences. -/
theorem C69_variance_sign (as : Inp K) (hv : as.valid) (bessel : Bool)
    (h : (if bessel then 2 else 1) ≤ as.vals.length) (w : ω) :
    ∃ v, variance bessel as w = .ok v w ∧ 0 ≤ v ∧ (v = 0 ↔ ∀ x ∈ as.vals, ∀ y ∈ as.vals, x = y) := by
  have hne := ne_of_count h
  have hd : 0 < divisor K bessel as.vals.length := by
    have h0 : 0 ≤ divisor K bessel as.vals.length := by
      cases bessel <;> simp [divisor]
    exact lt_of_le_of_ne h0 (Ne.symm (divisor_ne h))
  refine ⟨_, variance_run hv hne bessel (divisor_ne h) w, div_nonneg (sqDev_nonneg _) (le_of_lt hd), ?_⟩
  rw [div_eq_zero_iff, or_iff_left (ne_of_gt hd)]
  constructor
  · intro h0 x hx y hy
    by_contra hxy
    exact absurd h0 (ne_of_gt (sqDev_pos hx hy hxy))
  · intro hall
    have hc : ∀ x ∈ as.vals, x = avg as.vals := by
      intro x hx
      have e : as.vals = as.vals.map fun _ => x := by
        refine (List.map_id as.vals).symm.trans ?_
        exact List.map_congr_left fun y hy => hall y hy x hx
      have hs : as.vals.sum = (as.vals.length : K) * x := by
        have := congrArg List.sum e
        rw [sum_map_const] at this
        exact this
      rw [avg, hs, mul_comm, mul_div_assoc, div_self (length_ne hne), mul_one]
    rw [sqDev]
    have : (as.vals.map fun x => (x - avg as.vals) ^ 2) = as.vals.map fun _ => 0 :=
      List.map_congr_left fun x hx => by rw [← hc x hx, sub_self]; simp
    rw [this, sum_map_const, mul_zero]

/-- **C69.**  `remove_dc` subtracts one number from every element, and the result has mean zero and the
variance of the argument. -/
theorem C69_remove_dc (as : Inp K) (hv : as.valid) (hne : as.vals ≠ []) (w : ω) :
    ∃ bs m, removeDc as w = .ok bs w ∧ bs.vals = as.vals.map (fun x => x - m)
      ∧ mean bs w = .ok 0 w ∧ variance false bs w = variance false as w := by
  have h1 := map1_run (ω := ω) (fun x => x - avg as.vals) hv w
  have hneb : (outInp [as] (as.vals.map fun x => x - avg as.vals)).vals ≠ [] := by
    simpa [outInp] using hne
  have hpos : (if (false : Bool) then 2 else 1) ≤ as.vals.length := by
    exact List.length_pos_iff.mpr hne
  refine ⟨_, avg as.vals, removeDc_run hv hne w, rfl, ?_, ?_⟩
  · rw [mean_run hneb]
    exact congrArg (Out.ok · w) (avg_dc hne)
  · rw [variance_run hv hne false (divisor_ne hpos),
      variance_run h1.2 hneb false (divisor_ne (by simpa [outInp] using hpos))]
    simp only [outInp, List.length_map, sqDev_dc hne]

/-- five measurements, as an `Array` -/
def sample : Inp Rat := ⟨.array 5, [1, 2, 3, 5, 9], 0, false⟩

example : sample.valid ∧ (if true then 2 else 1) ≤ sample.vals.length := by decide
example : mean (ω := Unit) sample () = .ok 4 () := by decide +kernel
example : variance (ω := Unit) false sample () = .ok 8 () := by decide +kernel
example : variance (ω := Unit) true sample () = .ok 10 () := by decide +kernel
example : autocovariance (ω := Unit) false false sample 2 () = .ok (-4 / 5) () := by decide +kernel

/-! ## C70: linear regression -/

/-- **C70.**  For sequences of one length with two distinct abscissae `linear_regression` returns the
line with the least sum of squared residuals, and every other line has a larger one. -/
theorem C70_least_squares (as bs : Inp K) (hva : as.valid) (hvb : bs.valid) (hl : as.vals.length = bs.vals.length)
    (x y : K) (hx : x ∈ as.vals) (hy : y ∈ as.vals) (hxy : x ≠ y) (w : ω) :
    ∃ b₁ b₂, linearRegression as bs w = .ok (b₁, b₂) w
      ∧ ∀ c d, (c, d) ≠ (b₁, b₂) → residual (as.vals.zip bs.vals) b₁ b₂ < residual (as.vals.zip bs.vals) c d := by
  have hna : as.vals ≠ [] := List.ne_nil_of_mem hx
  have hnb : bs.vals ≠ [] := by
    intro h; rw [h] at hl; exact hna (List.length_eq_zero_iff.mp hl)
  have hpos := sqDev_pos hx hy hxy
  refine ⟨_, _, linearRegression_run hva hvb hna hnb (ne_of_gt hpos) w, ?_⟩
  intro c d hne
  rw [residual_least hna hl (div_mul_cancel₀ _ (ne_of_gt hpos)) rfl c d]
  generalize coDev as.vals bs.vals / sqDev as.vals = b₁ at hne ⊢
  have hn : (0 : K) < as.vals.length := by exact_mod_cast List.length_pos_iff.mpr hna
  by_cases hc : c = b₁
  · subst hc
    have hd : d - (avg bs.vals - c * avg as.vals) ≠ 0 := by
      intro h0
      apply hne
      rw [sub_eq_zero] at h0
      rw [h0]
    have : 0 < (d - (avg bs.vals - c * avg as.vals)) ^ 2 := by positivity
    have := mul_pos hn this
    rw [sub_self, zero_mul, add_zero]
    linarith [zero_mul (sqDev as.vals), show (0 : K) ^ 2 * sqDev as.vals = 0 by ring]
  · have h1 : 0 < (c - b₁) ^ 2 * sqDev as.vals := by
      have : c - b₁ ≠ 0 := sub_ne_zero.mpr hc
      positivity
    have h2 : 0 ≤ (as.vals.length : K) * (d - (avg bs.vals - b₁ * avg as.vals) + (c - b₁) * avg as.vals) ^ 2 := by
      positivity
    linarith

/-- **C70.**  Exactly collinear data give exactly their line. -/
theorem C70_collinear (as bs : Inp K) (hva : as.valid) (hvb : bs.valid) (c d : K)
    (hb : bs.vals = as.vals.map fun x => c * x + d)
    (x y : K) (hx : x ∈ as.vals) (hy : y ∈ as.vals) (hxy : x ≠ y) (w : ω) :
    linearRegression as bs w = .ok (c, d) w := by
  have hna : as.vals ≠ [] := List.ne_nil_of_mem hx
  have hnb : bs.vals ≠ [] := by rw [hb]; simpa using hna
  have hpos := sqDev_pos hx hy hxy
  have e : coDev as.vals bs.vals / sqDev as.vals = c := by
    rw [coDev_comm, hb, coDev_affine hna, coDev_self, mul_div_assoc, div_self (ne_of_gt hpos), mul_one]
  rw [linearRegression_run hva hvb hna hnb (ne_of_gt hpos), e, hb, avg_affine hna]
  congr 2
  ring

/-- **C70, the part that holds** (2 to 1290 elements): `linear_regression_with_index` is
`linear_regression` on the indices. -/
theorem C70_with_index_partial (as : Inp K) (hv : as.valid) (h2 : 2 ≤ as.vals.length)
    (hmax : as.vals.length ≤ 1290) (w : ω) :
    linearRegressionWithIndex as w
      = linearRegression ⟨.vector, indices as.vals.length, 0, false⟩ as w := by
  have hne : as.vals ≠ [] := by intro h; rw [h] at h2; simp at h2
  have h0 : (0 : K) ∈ (indices as.vals.length : List K) :=
    List.mem_map.mpr ⟨0, by simp; omega, by simp⟩
  have h1 : (1 : K) ∈ (indices as.vals.length : List K) :=
    List.mem_map.mpr ⟨1, by simp; omega, by simp⟩
  have hvi : (⟨.vector, indices as.vals.length, 0, false⟩ : Inp K).valid := by
    refine ⟨?_, by simp⟩
    show (indices as.vals.length : List K).length < _
    rw [length_indices]; exact hv.lt
  rw [linearRegressionWithIndex_run hv h2 hmax,
    linearRegression_run hvi hv (indices_ne (by omega)) hne (ne_of_gt (sqDev_pos h0 h1 zero_ne_one))]

/-- **C70 is false from 1291 elements on**: `linear_regression_with_index` and `detrend` overflow
`int`, which is undefined behaviour, whatever the data. -/
theorem C70_index_overflow (as : Inp K) (hv : as.valid) (h : 1291 ≤ as.vals.length)
    (hmax : as.vals.length < 2 ^ 31) (elem : Nat → K) (w : ω) :
    linearRegressionWithIndex as w = .ub .overflow ∧ detrend elem as w = .ub .overflow := by
  have h1 := linearRegressionWithIndex_ub (ω := ω) hv h hmax w
  exact ⟨h1, by rw [detrend]; exact Cpp.bind_ub h1⟩

/-- **C70, the part that holds** (2 to 1290 elements, indices representable in the element type):
`detrend` subtracts the least squares line, and adding any linear trend to the data does not change its
result. -/
theorem C70_detrend_partial (as : Inp K) (hv : as.valid) (h2 : 2 ≤ as.vals.length) (hmax : as.vals.length ≤ 1290)
    (elem : Nat → K) (helem : ∀ i, i < as.vals.length → elem i = (i : K)) (w : ω) :
    (∃ b₁ b₂ rs, linearRegressionWithIndex as w = .ok (b₁, b₂) w ∧ detrend elem as w = .ok rs w
      ∧ rs.vals = addTrend (-b₁) (-b₂) as.vals)
    ∧ ∀ (c d : K) (bs : Inp K), bs.valid → bs.vals = addTrend c d as.vals →
        ∃ rs rs', detrend elem as w = .ok rs w ∧ detrend elem bs w = .ok rs' w ∧ rs'.vals = rs.vals := by
  have run : ∀ bs : Inp K, bs.valid → bs.vals.length = as.vals.length →
      ∃ rs, detrend elem bs w = .ok rs w ∧ rs.vals = addTrend
        (-(coDev (indices bs.vals.length) bs.vals / sqDev (indices bs.vals.length : List K)))
        (-(avg bs.vals - coDev (indices bs.vals.length) bs.vals / sqDev (indices bs.vals.length : List K)
         * avg (indices bs.vals.length))) bs.vals := by
    intro bs hvb hl
    have h1 := linearRegressionWithIndex_run (ω := ω) hvb (by omega) (by omega) w
    refine ⟨_, by rw [detrend, Cpp.bind_ok h1, (mapIx_run _ hvb w).1], ?_⟩
    simp only [outInp, addTrend]
    apply List.ext_getElem?
    intro i
    rw [List.getElem?_mapIdx, List.getElem?_mapIdx]
    by_cases hi : i < bs.vals.length
    · rw [List.getElem?_eq_getElem hi, helem i (by omega)]
      simp only [Option.map_some]
      refine congrArg some ?_
      ring
    · rw [List.getElem?_eq_none (by omega)]; rfl
  have hne : as.vals ≠ [] := by intro h; rw [h] at h2; simp at h2
  refine ⟨?_, ?_⟩
  · obtain ⟨rs, e1, e2⟩ := run as hv rfl
    exact ⟨_, _, rs, linearRegressionWithIndex_run hv h2 hmax w, e1, e2⟩
  · intro c d bs hvb hb
    have hl : bs.vals.length = as.vals.length := by rw [hb, addTrend, List.length_mapIdx]
    obtain ⟨rs, e1, e2⟩ := run as hv rfl
    obtain ⟨rs', e1', e2'⟩ := run bs hvb hl
    refine ⟨rs, rs', e1, e1', ?_⟩
    rw [e2, e2', hl]
    have hz : bs.vals = ((indices as.vals.length).zip as.vals).map fun p => p.2 + (c * p.1 + d) := by
      rw [hb, addTrend, mapIdx_eq as.vals (fun i x => x + (c * i + d))]
    have hlen : ((indices as.vals.length : List K)).length = as.vals.length := length_indices _
    have hna := indices_ne (K := K) (show 1 ≤ as.vals.length by omega)
    have havg : avg bs.vals = avg as.vals + (c * avg (indices as.vals.length) + d) := by
      have hs : bs.vals.sum = as.vals.sum + (c * (indices as.vals.length : List K).sum + (as.vals.length : K) * d) := by
        rw [hz]
        have e3 : ∀ l : List (K × K), (l.map fun p => p.2 + (c * p.1 + d)).sum
            = (l.map fun p => p.2).sum + (c * (l.map fun p => p.1).sum + (l.length : K) * d) := by
          intro l
          induction l with
          | nil => simp
          | cons a l ih => simp only [List.map_cons, List.sum_cons, ih, List.length_cons]; push_cast; ring
        rw [e3, zip_snd hlen, zip_fst hlen, List.length_zip, hlen, Nat.min_self]
      rw [avg, avg, avg, hs, hl, hlen]
      have := length_ne hne
      field_simp
    have hco : coDev (indices as.vals.length) bs.vals
        = coDev (indices as.vals.length) as.vals + c * sqDev (indices as.vals.length : List K) := by
      have hzz : (indices as.vals.length).zip bs.vals
          = ((indices as.vals.length).zip as.vals).map fun p => (p.1, p.2 + (c * p.1 + d)) := by
        apply List.ext_getElem?
        intro i
        rw [List.getElem?_map]
        by_cases hi : i < as.vals.length
        · have g1 : ((indices as.vals.length).zip as.vals)[i]? = some ((i : K), as.vals[i]) := by
            simp [List.getElem?_zip_eq_some, hi, indices]
          have g2 : ((indices as.vals.length).zip bs.vals)[i]?
              = some ((i : K), as.vals[i] + (c * (i : K) + d)) := by
            have : bs.vals[i]? = some (as.vals[i] + (c * (i : K) + d)) := by
              rw [hz, List.getElem?_map, g1]; rfl
            simp [List.getElem?_zip_eq_some, hi, indices, this]
          rw [g1, g2]; rfl
        · rw [List.getElem?_eq_none (by simp [indices]; omega), List.getElem?_eq_none (by simp [indices]; omega)]
          rfl
      rw [← coDev_self, coDev, coDev, coDev, hzz, List.map_map, havg]
      have e4 : ∀ (m : K) (l : List (K × K)),
          (l.map ((fun p : K × K => (p.1 - avg (indices as.vals.length)) *
              (p.2 - (m + (c * avg (indices as.vals.length) + d)))) ∘ fun p : K × K => (p.1, p.2 + (c * p.1 + d)))).sum
          = (l.map fun p => (p.1 - avg (indices as.vals.length)) * (p.2 - m)).sum
            + c * (l.map fun p => (p.1 - avg (indices as.vals.length)) * (p.1 - avg (indices as.vals.length))).sum := by
        intro m l
        induction l with
        | nil => simp
        | cons a l ih =>
          simp only [List.map_cons, List.sum_cons, ih, Function.comp_apply]
          ring
      rw [e4]
      refine congrArg (fun s => _ + c * s) (congrArg List.sum ?_)
      have e5 : ((indices as.vals.length).zip as.vals).map
            (fun p : K × K => (p.1 - avg (indices as.vals.length)) * (p.1 - avg (indices as.vals.length)))
          = (((indices as.vals.length).zip as.vals).map fun p : K × K => p.1).map
            (fun x : K => (x - avg (indices as.vals.length)) * (x - avg (indices as.vals.length))) := by
        rw [List.map_map]; rfl
      have e6 : ((indices as.vals.length : List K).zip (indices as.vals.length)).map
            (fun p => (p.1 - avg (indices as.vals.length)) * (p.2 - avg (indices as.vals.length)))
          = (indices as.vals.length : List K).map
            (fun x => (x - avg (indices as.vals.length)) * (x - avg (indices as.vals.length))) := by
        generalize avg (indices as.vals.length : List K) = m
        generalize (indices as.vals.length : List K) = l
        induction l with
        | nil => rfl
        | cons a l ih => simp [ih]
      rw [e5, zip_fst hlen, e6]
    have hpos : sqDev (indices as.vals.length : List K) ≠ 0 := by
      refine ne_of_gt (sqDev_pos (x := 0) (y := 1) ?_ ?_ zero_ne_one)
      · exact List.mem_map.mpr ⟨0, by simp; omega, by simp⟩
      · exact List.mem_map.mpr ⟨1, by simp; omega, by simp⟩
    have hb1 : coDev (indices as.vals.length) bs.vals / sqDev (indices as.vals.length : List K)
        = coDev (indices as.vals.length) as.vals / sqDev (indices as.vals.length : List K) + c := by
      rw [hco, add_div, mul_div_assoc, div_self hpos, mul_one]
    rw [hb1, havg]
    generalize coDev (indices as.vals.length) as.vals / sqDev (indices as.vals.length : List K) = b₁
    rw [hb]
    simp only [addTrend]
    apply List.ext_getElem?
    intro i
    simp only [List.getElem?_mapIdx, Option.map_map]
    refine congrArg (fun f => Option.map f _) ?_
    funext x
    simp only [Function.comp_apply]
    ring

/-- **C70 is false for narrow element types.**  `detrend` evaluates the line at the index *converted to the
element type*; where that is not the index and the slope is not 0, the result is not the residual. -/
theorem C70_detrend_narrow (as : Inp K) (hv : as.valid) (h2 : 2 ≤ as.vals.length) (hmax : as.vals.length ≤ 1290)
    (elem : Nat → K) (w : ω) :
    ∃ b₁ b₂ rs, linearRegressionWithIndex as w = .ok (b₁, b₂) w ∧ detrend elem as w = .ok rs w
      ∧ ∀ (i : Nat) (x : K), as.vals[i]? = some x →
          rs.vals[i]? = some (x - (b₁ * elem i + b₂))
          ∧ (b₁ ≠ 0 → elem i ≠ (i : K) → rs.vals[i]? ≠ some (x - (b₁ * (i : K) + b₂))) := by
  have h1 := linearRegressionWithIndex_run (ω := ω) hv h2 hmax w
  refine ⟨_, _, _, h1, by rw [detrend, Cpp.bind_ok h1, (mapIx_run _ hv w).1], ?_⟩
  intro i x hx
  have hr : ∀ f : Nat → K → K, (outInp [as] (as.vals.mapIdx f)).vals[i]? = some (f i x) := by
    intro f
    simp [outInp, hx]
  refine ⟨by rw [hr], fun hb he => ?_⟩
  rw [hr]
  intro h
  apply he
  have h3 := Option.some.inj h
  have h4 := mul_left_cancel₀ hb (add_right_cancel (sub_right_injective h3))
  exact h4

example : linearRegression (ω := Unit) ⟨.vector, [0, 1, 3], 0, false⟩ (⟨.array 3, [1, 3, 8], 0, false⟩ : Inp Rat) ()
    = .ok (33 / 14, 6 / 7) () := by decide +kernel
example : linearRegressionWithIndex (ω := Unit) sample () = .ok (19 / 10, 1 / 5) () := by decide +kernel

example : detrend (ω := Unit) (fun i => (i : Rat)) sample () = .ok ⟨.array 5, [4 / 5, -1 / 10, -1, -9 / 10, 6 / 5], 0, false⟩ () := by
  decide +kernel
example : (⟨.vector, List.replicate 1291 (0 : Rat), 0, false⟩ : Inp Rat).valid
    ∧ 1291 ≤ (List.replicate 1291 (0 : Rat)).length ∧ (List.replicate 1291 (0 : Rat)).length < 2 ^ 31 := by
  have h : (List.replicate 1291 (0 : Rat)).length = 1291 := List.length_replicate
  refine ⟨⟨?_, by simp⟩, by rw [h], by rw [h]; decide⟩
  show (List.replicate 1291 (0 : Rat)).length < _
  rw [h]
  decide
-- an 8-bit element type holds the index 300 as 44
example : (fun i : Nat => ((i % 256 : Nat) : Rat)) 300 ≠ ((300 : Nat) : Rat) := by decide +kernel

/-! ## C71: autocovariance -/

/-- **C71 is false.**  For a non-empty sequence every negative lag and every lag beyond the length reads
outside the sequence. -/
theorem C71_lag_out_of_range (as : Inp K) (hne : as.vals ≠ []) (hlen : as.vals.length < 2 ^ 31)
    (lag : Int) (h31 : -2 ^ 31 ≤ lag ∧ lag < 2 ^ 31) (hlag : lag < 0 ∨ (as.vals.length : Int) < lag)
    (bessel adjusted : Bool) (w : ω) :
    autocovariance bessel adjusted as lag w = .ub .oob :=
  autocovariance_ub hne hlen h31 hlag bessel adjusted w

/-- **C71, the part that holds.**  For `0 ≤ lag < n` (and `lag < n - 1` with both correction and
adjustment) it is the sum of the products of deviations `lag` positions apart over the divisor. -/
theorem C71_lag_partial (as : Inp K) (hlen : as.vals.length < 2 ^ 31) (lag : Nat) (hlag : lag < as.vals.length)
    (bessel adjusted : Bool) (h : (if bessel then 2 else 1) ≤ (if adjusted then as.vals.length - lag else as.vals.length))
    (w : ω) :
    autocovariance bessel adjusted as lag w
      = .ok (lagDev lag as.vals / autoDivisor K bessel adjusted as.vals.length lag) w :=
  autocovariance_run (by intro h'; rw [h'] at hlag; simp at hlag) hlen hlag bessel adjusted (divisor_ne h) w

example : autocovariance (ω := Unit) false false sample 6 () = .ub .oob := by
  exact C71_lag_out_of_range sample (by decide) (by decide) 6 (by decide) (.inr (by decide)) _ _ _
example : autocovariance (ω := Unit) true true sample 3 () = .ok (-13) () := by decide +kernel

/-! ## C85: mean of integer sequences -/

/-- **C85, the part that holds.**  The mean of a non-empty integer sequence is its average if every prefix sum
is representable in the element type. -/
theorem C85_mean_integers_partial (A : Meta.NumTy) (as : Inp Int) (hne : as.vals ≠ [])
    (h : ∀ s ∈ Spec.Numeric.prefixSums 0 as.vals, Spec.Numeric.InRange A s) (w : ω) :
    meanInt A as w = .ok ((as.vals.sum : K) / as.vals.length) w := by
  have hs : Numeric.sum A as w = .ok as.vals.sum w := by
    rw [Numeric.sum, Prelude.foldl_eq, Numeric.sum_prefix as.vals 0 h, Int.zero_add]; rfl
  have hn : (as.vals.length : K) ≠ 0 := by
    rw [Nat.cast_ne_zero]
    exact fun h' => hne (List.length_eq_zero_iff.mp h')
  rw [meanInt, Cpp.bind_ok hs]
  exact div_run hn w

/-- **C85 is false.**  The sum is formed in the element type: if the true sum of a sequence of an unsigned or
narrow type is not representable there, the mean is not the average. -/
theorem C85_narrow_sum (A : Meta.NumTy) (hw : A.over = .wrap) (hlh : A.lo ≤ 0 ∧ 0 ≤ A.hi) (as : Inp Int)
    (hne : as.vals ≠ []) (h : ¬ Spec.Numeric.InRange A as.vals.sum) (w : ω) :
    ∃ m : K, meanInt A as w = .ok m w ∧ m ≠ (as.vals.sum : K) / as.vals.length := by
  obtain ⟨r, e1, e2, _⟩ := Numeric.sum_wrap (ω := ω) hw (by omega) as.vals 0 ⟨hlh.1, hlh.2⟩
  have hs : Numeric.sum A as w = .ok r w := by rw [Numeric.sum, Prelude.foldl_eq, e1]; rfl
  have hn : (as.vals.length : K) ≠ 0 := by
    rw [Nat.cast_ne_zero]
    exact fun h' => hne (List.length_eq_zero_iff.mp h')
  refine ⟨(r : K) / as.vals.length, by rw [meanInt, Cpp.bind_ok hs]; exact div_run hn w, ?_⟩
  intro heq
  rw [div_left_inj' hn] at heq
  have : r = as.vals.sum := by exact_mod_cast heq
  exact h (this ▸ e2)

example : meanInt (ω := Unit) (K := Rat) ⟨0, 255, .wrap⟩ ⟨.vector, [200, 100], 0, false⟩ () = .ok 22 () := by
  decide +kernel

/-! ## C86: correlations are bounded -/

theorem coDev_sq_le (xs ys : List K) (hl : xs.length = ys.length) : coDev xs ys ^ 2 ≤ sqDev xs * sqDev ys := by
  have := cauchy (xs.zip ys) (fun p => p.1 - avg xs) (fun p => p.2 - avg ys)
  have e1 : ((xs.zip ys).map fun p => (p.1 - avg xs) ^ 2).sum = sqDev xs := by
    rw [sqDev]
    have : ((xs.zip ys).map fun p => (p.1 - avg xs) ^ 2)
        = ((xs.zip ys).map fun p => p.1).map fun x => (x - avg xs) ^ 2 := by rw [List.map_map]; rfl
    rw [this, zip_fst hl]
  have e2 : ((xs.zip ys).map fun p => (p.2 - avg ys) ^ 2).sum = sqDev ys := by
    rw [sqDev]
    have : ((xs.zip ys).map fun p => (p.2 - avg ys) ^ 2)
        = ((xs.zip ys).map fun p => p.2).map fun x => (x - avg ys) ^ 2 := by rw [List.map_map]; rfl
    rw [this, zip_snd hl]
  rw [e1, e2] at this
  exact this

theorem lagDev_sq_le (lag : Nat) (xs : List K) : lagDev lag xs ^ 2 ≤ sqDev xs * sqDev xs := by
  have := cauchy (xs.zip (xs.drop lag)) (fun p => p.1 - avg xs) (fun p => p.2 - avg xs)
  generalize hm : avg xs = m at this
  have hsq : ∀ l : List K, ∀ z ∈ l.map (fun x => (x - m) ^ 2), 0 ≤ z := by
    intro l z hz
    obtain ⟨v, _, rfl⟩ := List.mem_map.mp hz
    positivity
  have e1 : ((xs.zip (xs.drop lag)).map fun p => (p.1 - m) ^ 2).sum ≤ sqDev xs := by
    have h1 : ((xs.zip (xs.drop lag)).map fun p => (p.1 - m) ^ 2)
        = ((xs.zip (xs.drop lag)).map fun p => p.1).map fun x => (x - m) ^ 2 := by rw [List.map_map]; rfl
    have h2 : (xs.zip (xs.drop lag)).map (fun p => p.1) = xs.take (xs.length - lag) := by
      rw [show (fun p : K × K => p.1) = Prod.fst from rfl]
      conv_lhs => rw [← List.take_append_drop (xs.length - lag) xs]
      apply List.ext_getElem?
      intro i
      rw [List.take_append_drop, List.getElem?_map, List.getElem?_take]
      by_cases hi : i < xs.length - lag
      · have h5 : (xs.zip (xs.drop lag))[i]? = some (xs[i]'(by omega), xs[lag + i]'(by omega)) := by
          rw [List.getElem?_zip_eq_some]
          exact ⟨List.getElem?_eq_getElem _, by rw [List.getElem?_drop, List.getElem?_eq_getElem]⟩
        rw [h5, if_pos hi, List.getElem?_eq_getElem (by omega)]
        rfl
      · rw [if_neg hi, List.getElem?_eq_none (by simp; omega)]
        rfl
    rw [h1, h2, sqDev, hm]
    conv_rhs => rw [← List.take_append_drop (xs.length - lag) xs, List.map_append]
    exact sum_le_of_append (hsq _)
  have e2 : ((xs.zip (xs.drop lag)).map fun p => (p.2 - m) ^ 2).sum ≤ sqDev xs := by
    have h1 : ((xs.zip (xs.drop lag)).map fun p => (p.2 - m) ^ 2)
        = ((xs.zip (xs.drop lag)).map fun p => p.2).map fun x => (x - m) ^ 2 := by rw [List.map_map]; rfl
    have h2 : (xs.zip (xs.drop lag)).map (fun p => p.2) = xs.drop lag :=
      List.map_snd_zip (by simp)
    rw [h1, h2, sqDev, hm]
    conv_rhs => rw [← List.take_append_drop lag xs, List.map_append, List.sum_append]
    have := sum_nonneg (hsq (xs.take lag))
    linarith
  have e0 : 0 ≤ ((xs.zip (xs.drop lag)).map fun p => (p.2 - m) ^ 2).sum := by
    apply sum_nonneg
    intro z hz
    obtain ⟨v, _, rfl⟩ := List.mem_map.mp hz
    positivity
  rw [lagDev, hm]
  exact le_trans this (mul_le_mul e1 e2 e0 (sqDev_nonneg xs))

/-- **C86.**  For sequences of one length that are not constant `correlation` is defined, symmetric and between
-1 and 1, whatever square root function is used. -/
theorem C86_correlation (sqrt : K → K) (hs : IsSqrt sqrt) (as bs : Inp K) (hva : as.valid) (hvb : bs.valid)
    (hl : as.vals.length = bs.vals.length) (x y u v : K) (hx : x ∈ as.vals) (hy : y ∈ as.vals) (hxy : x ≠ y)
    (hu : u ∈ bs.vals) (hv : v ∈ bs.vals) (huv : u ≠ v) (bessel : Bool) (w : ω) :
    ∃ r, correlation sqrt bessel as bs w = .ok r w ∧ -1 ≤ r ∧ r ≤ 1
      ∧ correlation sqrt bessel bs as w = .ok r w := by
  have two : ∀ {xs : List K} {x y : K}, x ∈ xs → y ∈ xs → x ≠ y → 2 ≤ xs.length := by
    intro xs x y hx hy hxy
    cases xs with
    | nil => simp at hx
    | cons a l =>
      cases l with
      | nil => simp at hx hy; exact absurd (hx.trans hy.symm) hxy
      | cons b l => simp
  have hc : (if bessel then 2 else 1) ≤ as.vals.length := by
    have := two hx hy hxy
    cases bessel <;> simp <;> omega
  have hna := ne_of_count hc
  have hnb : bs.vals ≠ [] := ne_of_count (hl ▸ hc)
  have hd := divisor_ne (K := K) hc
  have hdpos : 0 < divisor K bessel as.vals.length := by
    have h0 : 0 ≤ divisor K bessel as.vals.length := by cases bessel <;> simp [divisor]
    exact lt_of_le_of_ne h0 (Ne.symm hd)
  have pa := sqDev_pos hx hy hxy
  have pb := sqDev_pos hu hv huv
  have va := variance_run (ω := ω) hva hna bessel hd w
  have vb := variance_run (ω := ω) hvb hnb bessel (hl ▸ hd) w
  have cab := covariance_run (ω := ω) hva hvb hna hnb bessel hd w
  have cba := covariance_run (ω := ω) hvb hva hnb hna bessel (hl ▸ hd) w
  rw [← hl] at vb cba
  rw [coDev_comm] at cba
  have hcs := coDev_sq_le as.vals bs.vals hl
  generalize coDev as.vals bs.vals = C at *
  generalize sqDev as.vals = A at *
  generalize sqDev bs.vals = B at *
  generalize divisor K bessel as.vals.length = D at *
  obtain ⟨sa0, sa⟩ := hs (A / D) (le_of_lt (div_pos pa hdpos))
  obtain ⟨sb0, sb⟩ := hs (B / D) (le_of_lt (div_pos pb hdpos))
  have ra : standardDeviation sqrt bessel as w = .ok (sqrt (A / D)) w := by
    rw [standardDeviation, Cpp.bind_ok va]; rfl
  have rb : standardDeviation sqrt bessel bs w = .ok (sqrt (B / D)) w := by
    rw [standardDeviation, Cpp.bind_ok vb]; rfl
  generalize sqrt (A / D) = p at *
  generalize sqrt (B / D) = q at *
  have hp : 0 < p := by
    rcases lt_or_eq_of_le sa0 with h | h
    · exact h
    · rw [← h, mul_zero] at sa; exact absurd sa.symm (ne_of_gt (div_pos pa hdpos))
  have hq : 0 < q := by
    rcases lt_or_eq_of_le sb0 with h | h
    · exact h
    · rw [← h, mul_zero] at sb; exact absurd sb.symm (ne_of_gt (div_pos pb hdpos))
  have hpq : 0 < p * q := mul_pos hp hq
  have hsq : (C / D) ^ 2 ≤ (p * q) ^ 2 := by
    have : (p * q) ^ 2 = A * B / D ^ 2 := by
      have : (p * q) ^ 2 = (p * p) * (q * q) := by ring
      rw [this, sa, sb]
      field_simp
    rw [this, div_pow]
    exact div_le_div_of_nonneg_right hcs (by positivity)
  have habs := abs_le_of_sq_le_sq' hsq (le_of_lt hpq)
  refine ⟨C / D / (p * q), ?_, ?_, ?_, ?_⟩
  · rw [correlation, Cpp.bind_ok cab, Cpp.bind_ok ra, Cpp.bind_ok rb, div_run (ne_of_gt hpq)]
  · rw [le_div_iff₀ hpq]; linarith [habs.1]
  · rw [div_le_one hpq]; exact habs.2
  · rw [correlation, Cpp.bind_ok cba, Cpp.bind_ok rb, Cpp.bind_ok ra, div_run (by rw [mul_comm]; exact ne_of_gt hpq),
      mul_comm q p]

/-- **C86.**  For a sequence that is not constant the (unadjusted) `autocorrelation` is defined for every lag
below the length, is between -1 and 1, and is 1 at lag 0. -/
theorem C86_autocorrelation (as : Inp K) (hv : as.valid) (hlen : as.vals.length < 2 ^ 31) (lag : Nat)
    (hlag : lag < as.vals.length) (x y : K) (hx : x ∈ as.vals) (hy : y ∈ as.vals) (hxy : x ≠ y)
    (bessel : Bool) (h : (if bessel then 2 else 1) ≤ as.vals.length) (w : ω) :
    ∃ r, autocorrelation bessel false as lag w = .ok r w ∧ -1 ≤ r ∧ r ≤ 1 ∧ (lag = 0 → r = 1) := by
  have hne := ne_of_count h
  have hd := divisor_ne (K := K) h
  have hdpos : 0 < divisor K bessel as.vals.length := by
    have h0 : 0 ≤ divisor K bessel as.vals.length := by cases bessel <;> simp [divisor]
    exact lt_of_le_of_ne h0 (Ne.symm hd)
  have pa := sqDev_pos hx hy hxy
  have va := variance_run (ω := ω) hv hne bessel hd w
  have ca := autocovariance_run (ω := ω) hne hlen hlag bessel false (by simpa [autoDivisor] using hd) w
  have hcs := lagDev_sq_le lag as.vals
  have h0 : lag = 0 → lagDev lag as.vals = sqDev as.vals := by rintro rfl; exact lagDev_zero _
  simp only [autoDivisor, Bool.false_eq_true, if_false] at ca
  generalize lagDev lag as.vals = C at *
  generalize sqDev as.vals = A at *
  generalize divisor K bessel as.vals.length = D at *
  have hv0 : A / D ≠ 0 := ne_of_gt (div_pos pa hdpos)
  have habs := abs_le_of_sq_le_sq' (show C ^ 2 ≤ A ^ 2 by rw [sq A]; exact hcs) (le_of_lt pa)
  have e : C / D / (A / D) = C / A := by field_simp
  refine ⟨C / A, ?_, ?_, ?_, ?_⟩
  · rw [autocorrelation, Cpp.bind_ok ca, Cpp.bind_ok va, div_run hv0, e]
  · rw [le_div_iff₀ pa]; linarith [habs.1]
  · rw [div_le_one pa]; exact habs.2
  · intro hl
    rw [h0 hl, div_self (ne_of_gt pa)]

example : autocorrelation (ω := Unit) false false sample 2 () = .ok (-1 / 10) () := by decide +kernel

example : IsSqrt Real.sqrt := fun x hx => ⟨Real.sqrt_nonneg x, Real.mul_self_sqrt hx⟩

/-! ## C87: error measures -/

/-- **C87.**  `sse` is the sum of squared differences of corresponding elements and `mse` their mean; they
are never negative, zero exactly when corresponding elements agree, and symmetric; `rmse` is the square root of
`mse`. -/
theorem C87_errors (as bs : Inp K) (hva : as.valid) (hvb : bs.valid) (hna : as.vals ≠ []) (hnb : bs.vals ≠ [])
    (sqrt : K → K) (w : ω) :
    ∃ e m, sse as bs w = .ok e w ∧ mse as bs w = .ok m w ∧ rmse sqrt as bs w = .ok (sqrt m) w
      ∧ e = sqErr as.vals bs.vals ∧ m = e / (min as.vals.length bs.vals.length : Nat)
      ∧ sse bs as w = .ok e w ∧ mse bs as w = .ok m w
      ∧ 0 ≤ e ∧ 0 ≤ m ∧ (e = 0 ↔ m = 0)
      ∧ (e = 0 ↔ ∀ p ∈ as.vals.zip bs.vals, p.1 = p.2) := by
  have symm : sqErr bs.vals as.vals = sqErr as.vals bs.vals := by
    rw [sqErr, sqErr, ← List.zip_swap bs.vals as.vals, List.map_map]
    congr 1
    apply List.map_congr_left
    intro p _
    simp only [Function.comp_apply, Prod.fst_swap, Prod.snd_swap]
    ring
  have hmin : (0 : K) < (min as.vals.length bs.vals.length : Nat) := by
    have h1 := List.length_pos_iff.mpr hna
    have h2 := List.length_pos_iff.mpr hnb
    have : 0 < min as.vals.length bs.vals.length := by omega
    exact_mod_cast this
  have hpos : ∀ z ∈ (as.vals.zip bs.vals).map (fun p => (p.1 - p.2) ^ 2), (0 : K) ≤ z := by
    intro z hz
    obtain ⟨v, _, rfl⟩ := List.mem_map.mp hz
    positivity
  have h0 : 0 ≤ sqErr as.vals bs.vals := sum_nonneg hpos
  refine ⟨_, _, sse_run hva hvb w, mse_run hva hvb hna hnb w, ?_, rfl, rfl, ?_, ?_, h0,
    div_nonneg h0 (le_of_lt hmin), ?_, ?_⟩
  · rw [rmse, Cpp.bind_ok (mse_run hva hvb hna hnb w)]; rfl
  · rw [sse_run hvb hva, symm]
  · rw [mse_run hvb hva hnb hna, symm, Nat.min_comm]
  · rw [div_eq_zero_iff, or_iff_left (ne_of_gt hmin)]
  · constructor
    · intro he p hp
      have := sum_eq_zero hpos he ((p.1 - p.2) ^ 2) (List.mem_map_of_mem (f := fun p : K × K => (p.1 - p.2) ^ 2) hp)
      have := pow_eq_zero_iff (two_ne_zero) |>.mp this
      linarith
    · intro hall
      rw [sqErr]
      have : ((as.vals.zip bs.vals).map fun p => (p.1 - p.2) ^ 2) = (as.vals.zip bs.vals).map fun _ => 0 :=
        List.map_congr_left fun p hp => by rw [hall p hp, sub_self]; simp
      rw [this, sum_map_const, mul_zero]

example : sse (ω := Unit) sample ⟨.vector, [1, 2, 4, 5], 0, false⟩ () = .ok 1 () := by decide +kernel
example : mse (ω := Unit) sample ⟨.vector, [1, 2, 4, 5], 0, false⟩ () = .ok (1 / 4) () := by decide +kernel

end Efp.Props
