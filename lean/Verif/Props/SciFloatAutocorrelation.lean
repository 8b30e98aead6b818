import Verif.Props.SciFloatCorrelation

/-!
# Accuracy of `autocorrelation` in floating-point arithmetic (C180)

`InRange`: see `Verif.Props.SciFloatAccuracy`; `deviations`, `codeviations` and `absCodeviations` are exact sums.
-/

namespace Efp.Props

open Efp.Prelude (Inp)
open Efp.Ieee
open Efp.SciFloat

variable {ω : Type} {F : Fmt}

/-- the products of deviations a lag apart are no more than the squares -/
theorem lagged_le (c : ℚ) (xs : List ℚ) (lag : Nat) : absCodeviations c c xs (xs.drop lag) ≤ deviations c xs := by
  have h1 := codeviations_cauchy c c xs (xs.drop lag)
  have h2 : deviations c (xs.drop lag) ≤ deviations c xs := by
    have h3 : deviations c xs = deviations c (xs.take lag) + deviations c (xs.drop lag) := by
      conv_lhs => rw [← List.take_append_drop lag xs]
      simp only [deviations, sumSquares, List.map_append, List.sum_append]
    have := deviations_nonneg c (xs.take lag)
    linarith
  have h0 := deviations_nonneg c xs
  have h4 : absCodeviations c c xs (xs.drop lag) ^ 2 ≤ deviations c xs ^ 2 := by
    rw [sq (deviations c xs)]
    exact h1.trans (mul_le_mul_of_nonneg_left h2 h0)
  exact (le_abs_self _).trans (abs_le_of_sq_le_sq h4 h0)

/-- the quotient of two approximate numbers -/
theorem quot_error (hF : F.Ok) {q p : Fp} {T A P e : ℚ} (hq : Finite F q) (hp : Finite F p) (hT : |T| ≤ A) (he : 0 ≤ e) (he4 : e ≤ 1 / 2)
    (hqe : |value q - T| ≤ 2 * e * A + 6 * tiny F) (hpe : |value p - P| ≤ e * P) (hP : 2 * 2 ^ (F.emin + F.prec - 1) ≤ P)
    (hlt : 4 * (A / P) + 1 ≤ 2 ^ (F.emax - 1)) :
    Finite F (div F q p) ∧ |value (div F q p) - T / P| ≤ (6 * e + 4 * unit F) * (A / P) + 8 * unit F := by
  have hu := unit_pos F
  have hu' := unit_le hF
  have hmn := zpow_pos2 (F.emin + F.prec - 1)
  have hty := tiny_pos F
  have htu := tiny_le_unit hF
  have hP0 : 0 < P := by linarith
  have hA : 0 ≤ A := (abs_nonneg _).trans hT
  have htm : tiny F = unit F * 2 ^ (F.emin + F.prec - 1) := by
    rw [tiny, unit, ← zpow_add₀ (by norm_num)]; congr 1; omega
  have htP : tiny F / P ≤ unit F / 2 := by
    rw [div_le_iff₀ hP0, htm]
    have := mul_le_mul_of_nonneg_left hP hu.le
    linarith
  have hpl := (abs_le.1 hpe).1
  have h1e : e * P ≤ 1 / 2 * P := mul_le_mul_of_nonneg_right he4 hP0.le
  have hp2 : P ≤ 2 * value p := by linarith
  have hp0 : 0 < value p := by linarith
  have hAP : 0 ≤ A / P := div_nonneg hA hP0.le
  have hdiff : |value q / value p - T / P| ≤ 6 * e * (A / P) + 6 * unit F := by
    have e1 : value q / value p - T / P = ((value q - T) * P - T * (value p - P)) / (value p * P) := by
      field_simp
      ring
    rw [e1, abs_div, abs_of_pos (mul_pos hp0 hP0)]
    have h3 : |(value q - T) * P - T * (value p - P)| ≤ |value q - T| * P + |T| * |value p - P| := by
      have := abs_sub ((value q - T) * P) (T * (value p - P))
      rw [abs_mul, abs_mul, abs_of_pos hP0] at this
      exact this
    have h4 : |value q - T| * P ≤ (2 * e * A + 6 * tiny F) * P := mul_le_mul_of_nonneg_right hqe hP0.le
    have h5 : |T| * |value p - P| ≤ A * (e * P) := mul_le_mul hT hpe (abs_nonneg _) hA
    have h6 : (6 * e * (A / P) + 12 * (tiny F / P)) * (value p * P) = (3 * e * A + 6 * tiny F) * (2 * value p) := by
      field_simp
      ring
    have h7 : (3 * e * A + 6 * tiny F) * P ≤ (3 * e * A + 6 * tiny F) * (2 * value p) :=
      mul_le_mul_of_nonneg_left hp2 (by have := mul_nonneg he hA; linarith)
    have h8 : |(value q - T) * P - T * (value p - P)| / (value p * P) ≤ 6 * e * (A / P) + 12 * (tiny F / P) := by
      rw [div_le_iff₀ (mul_pos hp0 hP0), h6]
      linarith
    linarith
  have hqp : |value q / value p| ≤ 4 * (A / P) + 6 * unit F := by
    have h3 := abs_add_le (T / P) (value q / value p - T / P)
    rw [add_sub_cancel] at h3
    have h4 : |T / P| ≤ A / P := by
      rw [abs_div, abs_of_pos hP0]
      exact div_le_div_of_nonneg_right hT hP0.le
    have h5 := mul_le_mul_of_nonneg_right he4 hAP
    linarith
  have hr := round_error F (value q / value p)
  have hus := mul_le_mul_of_nonneg_left hqp hu.le
  have h4u : unit F * unit F ≤ unit F / 4 := by nlinarith
  have hround : |Ieee.round F (value q / value p) - value q / value p| ≤ 4 * unit F * (A / P) + 2 * unit F := by linarith
  have hfin : |Ieee.round F (value q / value p)| < 2 ^ F.emax := by
    have h3 := abs_add_le (value q / value p) (Ieee.round F (value q / value p) - value q / value p)
    rw [add_sub_cancel] at h3
    have h4 := mul_le_mul_of_nonneg_right hu' hAP
    rw [emax_half]
    have h6 : (2 : ℚ) ^ (2 : Int) ≤ 2 ^ (F.emax - 1) := zpow_mono2 (by have := hF.size; omega)
    norm_num at h6
    linarith
  obtain ⟨z, hz⟩ := div_fin hq hp hp0.ne'
  obtain ⟨f1, f2⟩ := ofExact_finite hF z hfin
  rw [hz]
  refine ⟨f1, ?_⟩
  rw [f2]
  have h3 := abs_sub_le (Ieee.round F (value q / value p)) (value q / value p) (T / P)
  linarith

/-- **C180.**  If the computed mean `m` is finite and the deviations from it are in range and not all zero, `autocorrelation` at any
lag below the number `n` of elements is finite.  It differs from the exact quotient of the sum of products of deviations, divided by
`N`, and the sum of squared deviations, divided by `M`, by at most `12n + 40` unit roundoffs of the same quotient of magnitudes, and
eight unit roundoffs.  `M` is `n`, and `N` is `n` or `n - lag` if adjusted, each less one with the Bessel correction.  So it is at
most `M / N`, which is one unless adjusted, up to rounding errors. -/
theorem C180_autocorrelation (hF : F.Ok) (as : Inp Fp) (hv : as.valid) (bessel adjusted : Bool) (hf : ∀ x ∈ as.vals, Finite F x)
    {n lag N M : Nat} (hn : n = as.vals.length) (h31 : n < 2 ^ 31) (hlag : lag < n) (hM : M + (if bessel then 1 else 0) = n)
    (hN : N + (if bessel then 1 else 0) + (if adjusted then lag else 0) = n) (hN0 : 0 < N) (hu : (n + 5) * unit F ≤ 1 / 4)
    {m : Fp} (w : ω) (hmean : mean F as w = .ok m w) (hm : Finite F m)
    (hr : InRange F ((as.vals.map value).map fun x => x - value m)) (hne : ∃ x ∈ as.vals, value x ≠ value m)
    {P T A : ℚ} (hP : P = deviations (value m) (as.vals.map value)) (hlt : P < 2 ^ (F.emax - 2))
    (hT : T = codeviations (value m) (value m) (as.vals.map value) ((as.vals.map value).drop lag))
    (hA : A = absCodeviations (value m) (value m) (as.vals.map value) ((as.vals.map value).drop lag)) :
    ∃ r, autocorrelation F bessel adjusted as lag w = .ok r w ∧ Finite F r ∧
      |value r - T / N / (P / M)| ≤ (12 * n + 40) * unit F * (A / N / (P / M)) + 8 * unit F ∧
      |value r| ≤ M / N * (1 + (12 * n + 40) * unit F) + 8 * unit F := by
  have hu0 := unit_pos F
  have hu' := unit_le hF
  have hAP : A ≤ P := by rw [hA, hP]; exact lagged_le _ _ _
  have hTA : |T| ≤ A := by rw [hT, hA]; exact codeviations_abs _ _ _ _
  have hA0 : 0 ≤ A := (abs_nonneg _).trans hTA
  have hmn := zpow_pos2 (F.emin + F.prec - 1)
  have hdev : ∀ x ∈ as.vals, |value x - value m| < 2 ^ (F.emax - 1) := by
    intro x hx
    have h1 := (hr.item (d := value x - value m) (by rw [List.map_map]; exact List.mem_map.2 ⟨x, hx, rfl⟩)).2
    rw [← sq_abs] at h1
    have h2 : (1 : ℚ) < 2 ^ (F.emax - 1) := by
      have : (2 : ℚ) ^ (0 : Int) < 2 ^ (F.emax - 1) := zpow_lt2 (by have := hF.size; omega)
      simpa using this
    by_contra hc
    push Not at hc
    nlinarith
  obtain ⟨v, -, E, M', hvr, -, fv, -, -, hM', hE, ev, -⟩ := C175_variance hF as hv bessel hf hn
    (by cases bessel <;> cases adjusted <;> simp at hN ⊢ <;> omega) (by omega) (by linarith) w hmean hm hr
  obtain ⟨c, hc, fc, ec⟩ := C177_autocovariance hF as bessel adjusted hf hn h31 hlag hN hN0 (by linarith) w hmean hm hdev
    (by rw [← hA]; linarith)
  rw [← hT, ← hA] at ec
  have hda := deviations_average (value m) (as.vals.map value)
  rw [List.length_map, ← hn] at hda
  rw [← hda, ← hP] at hE
  have hMM : M' = M := by
    rw [hM', ← hM]
    cases bessel <;> simp
  rw [hMM] at hE
  have hMn : (M : ℚ) ≤ n := by exact_mod_cast (by omega : M ≤ n)
  have hM0 : (0 : ℚ) < M := by
    have : 0 < M := by split at hN <;> simp_all <;> omega
    exact_mod_cast this
  have hN1 : (1 : ℚ) ≤ N := by exact_mod_cast hN0
  have hEl : 2 * 2 ^ (F.emin + F.prec - 1) ≤ E := by
    obtain ⟨x, hx, hxc⟩ := hne
    have hmem : value x - value m ∈ (as.vals.map value).map fun x => x - value m := by
      rw [List.map_map]; exact List.mem_map.2 ⟨x, hx, rfl⟩
    have h1 := (hr.1 _ hmem).resolve_left (sub_ne_zero.2 hxc)
    have h2 : (value x - value m) ^ 2 ≤ P := by rw [hP]; exact sq_le_sumSquares hmem
    rw [List.length_map, List.length_map, ← hn] at h1
    rw [hE, le_div_iff₀ hM0]
    exact le_quot hMn hmn h1 h2
  have hE0 : 0 < E := by linarith
  have hP0 : 0 < P := by
    rw [hE] at hE0
    exact (div_pos_iff_of_pos_right hM0).1 hE0
  have hq : A / N / E ≤ M / N := by
    rw [hE, div_div_eq_mul_div, div_mul_eq_mul_div, div_div, div_le_div_iff₀ (mul_pos (by linarith) hP0) (by linarith)]
    have := mul_le_mul_of_nonneg_right hAP (mul_nonneg hM0.le (by linarith : (0 : ℚ) ≤ N))
    linarith
  have hq0 : 0 ≤ A / N / E := div_nonneg (div_nonneg hA0 (by linarith)) hE0.le
  have hMN : (M : ℚ) / N ≤ n := by
    rw [div_le_iff₀ (by linarith)]
    nlinarith
  obtain ⟨e, hee⟩ : ∃ e, e = 2 * (((n : ℚ) + 3) * unit F) := ⟨_, rfl⟩
  have hlagn : (((n - lag : Nat) : ℚ) + 3) * unit F ≤ (n + 3) * unit F := by
    refine mul_le_mul_of_nonneg_right ?_ hu0.le
    have : ((n - lag : Nat) : ℚ) ≤ n := by exact_mod_cast Nat.sub_le _ _
    linarith
  have hAN : 0 ≤ A / N := div_nonneg hA0 (by linarith)
  have he0 : 0 ≤ e := by rw [hee]; positivity
  have hQ := quot_error hF (T := T / N) (A := A / N) (P := E) (e := e) fc fv (by
      rw [abs_div, abs_of_pos (by linarith : (0 : ℚ) < N)]
      exact div_le_div_of_nonneg_right hTA (by linarith)) he0 (by rw [hee]; linarith) (by
      refine ec.trans ?_
      have h1 : 2 * ((((n - lag : Nat) : ℚ) + 3) * unit F) ≤ 2 * e := by rw [hee]; linarith
      have := mul_le_mul_of_nonneg_right h1 hAN
      linarith) (by rw [hee]; exact ev) hEl (by
      have h1 : (n : ℚ) ≤ 2 ^ 31 := by exact_mod_cast h31.le
      have h6 : (2 : ℚ) ^ (34 : Int) ≤ 2 ^ (F.emax - 1) := zpow_mono2 (by have := hF.size; omega)
      have h2 : 4 * (A / N / E) + 1 ≤ 4 * 2 ^ 31 + 1 := by linarith
      refine h2.trans (le_trans ?_ h6)
      norm_num)
  have hcoef : 6 * e + 4 * unit F = (12 * n + 40) * unit F := by rw [hee]; ring
  rw [hcoef] at hQ
  refine ⟨_, ?_, hQ.1, ?_, ?_⟩
  · rw [autocorrelation, Cpp.bind_ok hc, Cpp.bind_ok hvr]
    rfl
  · rw [← hE]
    exact hQ.2
  · have h1 := abs_add_le (T / N / E) (value (div F c v) - T / N / E)
    rw [add_sub_cancel] at h1
    have h2 : |T / N / E| ≤ A / N / E := by
      rw [abs_div, abs_div, abs_of_pos (by linarith : (0 : ℚ) < N), abs_of_pos hE0]
      exact div_le_div_of_nonneg_right (div_le_div_of_nonneg_right hTA (by linarith)) hE0.le
    have h3 : 0 ≤ (12 * (n : ℚ) + 40) * unit F := by positivity
    have h4 := mul_le_mul_of_nonneg_left hq h3
    have h5 := hQ.2
    linarith

example : mean (ω := Unit) double (fps [.fin false 1, .fin false 1, .fin false 5, .fin false 5]) () = .ok (.fin false 3) () ∧
    InRange double ([1, 1, 5, 5].map fun x => x - 3) ∧ deviations 3 [1, 1, 5, 5] = 16 ∧
    codeviations 3 3 [1, 1, 5, 5] ([1, 1, 5, 5].drop 1) = 4 ∧
    autocorrelation (ω := Unit) double false false (fps [.fin false 1, .fin false 1, .fin false 5, .fin false 5]) 1 () =
      .ok (.fin false (1 / 4)) () := by
  refine ⟨?_, ⟨?_, ?_⟩, ?_, ?_, ?_⟩ <;> decide +kernel

end Efp.Props
