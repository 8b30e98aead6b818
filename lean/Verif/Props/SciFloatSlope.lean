import Verif.Props.SciFloatLag
import Verif.SciFloatTrendLemmas

/-!
# Accuracy of the slope of a regression line in floating-point arithmetic (C178)

`deviations`, `codeviations` and `absCodeviations` are exact sums (`Verif.Props.SciFloatVariance`, `Verif.Props.SciFloatCovariance`).
-/

namespace Efp.Props

open Efp.Prelude (Inp)
open Efp.Ieee
open Efp.SciFloat

variable {ω : Type} {F : Fmt}

/-- a quotient of two sums -/
theorem quot_close (hF : F.Ok) {q p : Fp} {T A b P : ℚ} {k : Nat} (hq : Finite F q) (hp : Finite F p) (h1 : Close F k (value q) T A b)
    (h2 : Near F k (value p) P) (hP : 0 < P) (hk : k * unit F ≤ 1 / 2) (hlt : (5 * A + 2 * b) / P ≤ 2 ^ (F.emax - 1)) :
    Finite F (div F q p) ∧ |value (div F q p) - T / P| ≤ (8 * k + 5) * unit F * (A / P) + 5 / 2 * (b / P) + tiny F := by
  have hu := unit_pos F
  have hu' := unit_le hF
  have hp2 : P ≤ 2 * value p := (h2.le_two hF hk).2
  have hp0 : 0 < value p := by linarith
  have hpe := h2.error hF hk
  have hqe := h1.error hF hk
  have hA := h1.nonneg
  have hb := h1.2.1
  have hku : 0 ≤ k * unit F := mul_nonneg (by positivity) hu.le
  have hdiff : |value q / value p - T / P| ≤ 8 * (k * unit F) * (A / P) + 2 * (b / P) := by
    have e : value q / value p - T / P = ((value q - T) * P - T * (value p - P)) / (value p * P) := by
      field_simp
      ring
    rw [e, abs_div, abs_of_pos (mul_pos hp0 hP), div_le_iff₀ (mul_pos hp0 hP)]
    have h3 : |(value q - T) * P - T * (value p - P)| ≤ |value q - T| * P + |T| * |value p - P| := by
      have := abs_sub ((value q - T) * P) (T * (value p - P))
      rw [abs_mul, abs_mul, abs_of_pos hP] at this
      exact this
    have h4 : |value q - T| * P ≤ (2 * (k * unit F) * A + b) * P := mul_le_mul_of_nonneg_right hqe hP.le
    have h5 : |T| * |value p - P| ≤ A * (2 * (k * unit F) * P) := mul_le_mul h1.1 hpe (abs_nonneg _) hA
    have h6 : (8 * (k * unit F) * (A / P) + 2 * (b / P)) * (value p * P) = (4 * (k * unit F) * A + b) * (2 * value p) := by
      field_simp
      ring
    rw [h6]
    have h7 : (4 * (k * unit F) * A + b) * P ≤ (4 * (k * unit F) * A + b) * (2 * value p) :=
      mul_le_mul_of_nonneg_left hp2 (by nlinarith [mul_nonneg hku hA])
    linarith
  have hAP : 0 ≤ A / P := div_nonneg hA hP.le
  have hbP : 0 ≤ b / P := div_nonneg hb hP.le
  have hqp : |value q / value p| ≤ 5 * (A / P) + 2 * (b / P) := by
    have h3 := abs_add_le (T / P) (value q / value p - T / P)
    rw [add_sub_cancel] at h3
    have h4 : |T / P| ≤ A / P := by
      rw [abs_div, abs_of_pos hP]
      exact div_le_div_of_nonneg_right h1.1 hP.le
    have h5 := mul_le_mul_of_nonneg_right hk hAP
    linarith
  have hr := round_error F (value q / value p)
  have hlt' : 5 * (A / P) + 2 * (b / P) ≤ 2 ^ (F.emax - 1) := by
    rw [show 5 * (A / P) + 2 * (b / P) = (5 * A + 2 * b) / P by ring]
    exact hlt
  have ht := tiny_le_unit hF
  have hfin : |Ieee.round F (value q / value p)| < 2 ^ F.emax := by
    have h3 := abs_add_le (value q / value p) (Ieee.round F (value q / value p) - value q / value p)
    rw [add_sub_cancel] at h3
    have h4 := mul_le_mul_of_nonneg_right hu' (abs_nonneg (value q / value p))
    have h6 : (1 : ℚ) ≤ 2 ^ (F.emax - 1) := by
      have : (2 : ℚ) ^ (0 : Int) ≤ 2 ^ (F.emax - 1) := zpow_mono2 (by have := hF.size; omega)
      simpa using this
    rw [emax_half]
    linarith
  obtain ⟨z, hz⟩ := div_fin hq hp hp0.ne'
  obtain ⟨f1, f2⟩ := ofExact_finite hF z hfin
  rw [hz]
  refine ⟨f1, ?_⟩
  rw [f2]
  have h3 := abs_sub_le (Ieee.round F (value q / value p)) (value q / value p) (T / P)
  have h4 := mul_le_mul_of_nonneg_left hqp hu.le
  have h5 := mul_le_mul_of_nonneg_right hu' hbP
  nlinarith

/-- the quotient of the sum of the products of deviations and the sum of the squared deviations -/
theorem slope_close (hF : F.Ok) {l r : List Fp} (hl : ∀ x ∈ l, Finite F x) (hr : ∀ y ∈ r, Finite F y) {n : Nat} (hna : n = l.length)
    (hnb : n = r.length) (h0 : 0 < n) (h64 : n < 2 ^ 64) (hu : ((n : ℚ) + 3) * unit F ≤ 1 / 2) {m k : Fp} (hm : Finite F m)
    (hk : Finite F k) (hrange : InRange F ((l.map value).map fun x => x - value m))
    (hdb : ∀ y ∈ r, |value y - value k| < 2 ^ (F.emax - 1)) {A P : ℚ}
    (hA : A = absCodeviations (value m) (value k) (l.map value) (r.map value)) (hAlt : A < 2 ^ (F.emax - 2))
    (hP : P = deviations (value m) (l.map value)) (hP0 : 0 < P) (hlt : (5 * A + 4 * n * tiny F) / P ≤ 2 ^ (F.emax - 1)) :
    Finite F (div F (sumL F ((l.zip r).map fun p => mul F (sub F p.1 m) (sub F p.2 k))) (sumL F (l.map fun x => square F (sub F x m)))) ∧
    |value (div F (sumL F ((l.zip r).map fun p => mul F (sub F p.1 m) (sub F p.2 k))) (sumL F (l.map fun x => square F (sub F x m)))) -
        codeviations (value m) (value k) (l.map value) (r.map value) / P| ≤
      (8 * n + 21) * unit F * (A / P) + (5 * n / P + 1) * tiny F := by
  have hu0 := unit_pos F
  have hty := tiny_pos F
  have htu := tiny_le_unit hF
  have hzl : (l.zip r).length = n := by rw [List.length_zip]; omega
  have hda : ∀ x ∈ l, |value x - value m| < 2 ^ (F.emax - 1) := by
    intro x hx
    have h1 := (hrange.item (d := value x - value m) (by
      rw [List.map_map]; exact List.mem_map.2 ⟨x, hx, rfl⟩)).2
    rw [← sq_abs] at h1
    have h2 : (1 : ℚ) < 2 ^ (F.emax - 1) := by
      have : (2 : ℚ) ^ (0 : Int) < 2 ^ (F.emax - 1) := zpow_lt2 (by have := hF.size; omega)
      simpa using this
    by_contra hc
    push Not at hc
    nlinarith
  have hC := products_close hF hm hk l r hl hr hda hdb (hA ▸ hAlt)
  have e1 : ((l.zip r).map fun p => ((value p.1 - value m) * (value p.2 - value k),
      |(value p.1 - value m) * (value p.2 - value k)|)).map (·.1) =
      List.zipWith (fun x y => (x - value m) * (y - value k)) (l.map value) (r.map value) := by
    rw [List.map_map, List.zipWith_map, ← List.map_uncurry_zip_eq_zipWith]
    rfl
  have e2 : ((l.zip r).map fun p => ((value p.1 - value m) * (value p.2 - value k),
      |(value p.1 - value m) * (value p.2 - value k)|)).map (·.2) =
      List.zipWith (fun x y => |(x - value m) * (y - value k)|) (l.map value) (r.map value) := by
    rw [List.map_map, List.zipWith_map, ← List.map_uncurry_zip_eq_zipWith]
    rfl
  have hnu : (n : ℚ) * tiny F ≤ 1 / 4 := by
    have : (n : ℚ) * tiny F ≤ n * (unit F / 2) := mul_le_mul_of_nonneg_left htu (by positivity)
    nlinarith
  have hS := sumL_close hF hty.le _ _ hC (by
      rw [List.length_map, hzl, show 3 + (n - 1) = n + 2 by omega]
      push_cast
      nlinarith) (by
      rw [e2, List.length_map, hzl]
      have hlt' := hAlt
      rw [hA] at hlt'
      unfold absCodeviations at hlt'
      have h6 : (1 : ℚ) ≤ 2 ^ (F.emax - 2) := by
        have : (2 : ℚ) ^ (0 : Int) ≤ 2 ^ (F.emax - 2) := zpow_mono2 (by have := hF.size; omega)
        simpa using this
      have h7 : (2 : ℚ) ^ F.emax = 4 * 2 ^ (F.emax - 2) := by
        rw [zpow_sub₀ (by norm_num)]
        norm_num
        ring
      rw [h7]
      linarith)
  rw [e1, e2, List.length_map, hzl, show 3 + (n - 1) = n + 2 by omega] at hS
  have hlen : ((l.map value).map fun x => x - value m).length = n := by simp [hna]
  obtain ⟨⟨s1, s2⟩, -⟩ := squares_near hF hrange (deviations_near hF hm _ hl fun d hd => hrange.item hd)
    (by rw [← List.length_pos_iff, hlen]; exact h0) (by rw [hlen]; omega) (by rw [hlen]; exact hu)
  rw [hlen] at s2
  have hS2 := hS.2
  change Close F (n + 2) _ (codeviations (value m) (value k) (l.map value) (r.map value))
    (absCodeviations (value m) (value k) (l.map value) (r.map value)) _ at hS2
  change Near F (n + 2) _ (deviations (value m) (l.map value)) at s2
  rw [← hA] at hS2
  rw [← hP] at s2
  have hQ := quot_close hF hS.1 s1 hS2 s2 hP0 (by push_cast; nlinarith) (by
    have hlt' := hlt
    rw [show 4 * (n : ℚ) * tiny F = 2 * (2 * (n * tiny F)) by ring] at hlt'
    exact hlt')
  refine ⟨hQ.1, hQ.2.trans (le_of_eq ?_)⟩
  push_cast
  ring

/-- **C178.**  If the computed means `m` and `k` are finite, the deviations of `as` from `m` are in range and not all zero, and nothing
overflows, the slope of `linear_regression` is finite.  It differs from the exact quotient of the sum of the products of the
deviations and the sum of the squared deviations of `as`, `P`, by at most `8n + 21` unit roundoffs of the sum of the magnitudes of
the products divided by `P`, and `5n / P + 1` times half the least positive number. -/
theorem C178_slope (as bs : Inp Fp) (hva : as.valid) (hvb : bs.valid)
    (hfa : ∀ x ∈ as.vals, Finite double x) (hfb : ∀ y ∈ bs.vals, Finite double y) {n : Nat} (hna : n = as.vals.length)
    (hnb : n = bs.vals.length) (h0 : 0 < n) (h50 : n < 2 ^ 50) {m k : Fp} (w : ω)
    (hma : mean double as w = .ok m w) (hm : Finite double m) (hmb : mean double bs w = .ok k w) (hk : Finite double k)
    (hr : InRange double ((as.vals.map value).map fun x => x - value m))
    (hdb : ∀ y ∈ bs.vals, |value y - value k| < 2 ^ (double.emax - 1)) {A P : ℚ}
    (hA : A = absCodeviations (value m) (value k) (as.vals.map value) (bs.vals.map value)) (hAlt : A < 2 ^ (double.emax - 2))
    (hP : P = deviations (value m) (as.vals.map value)) (hP0 : 0 < P) (hlt : (5 * A + 4 * n * tiny double) / P ≤ 2 ^ (double.emax - 1)) :
    ∃ slope start, linearRegression as bs w = .ok (slope, start) w ∧ Finite double slope ∧
      start = sub double k (mul double slope m) ∧
      |value slope - codeviations (value m) (value k) (as.vals.map value) (bs.vals.map value) / P| ≤
        (8 * n + 21) * unit double * (A / P) + (5 * n / P + 1) * tiny double := by
  have hu : ((n : ℚ) + 3) * unit double ≤ 1 / 2 := by
    have h1 : (n : ℚ) + 3 ≤ 2 ^ 51 := by
      have : n + 3 ≤ 2 ^ 51 := by omega
      exact_mod_cast this
    refine (mul_le_mul_of_nonneg_right h1 (unit_pos double).le).trans ?_
    decide +kernel
  have hQ := slope_close double_ok hfa hfb hna hnb h0 (by omega) hu hm hk hr hdb hA hAlt hP hP0 hlt
  have ha := map1_run (fun x => Ieee.sub double x m) hva w
  have hb := map1_run (fun x => Ieee.sub double x k) hvb w
  refine ⟨_, _, ?_, hQ.1, rfl, hQ.2⟩
  unfold linearRegression
  rw [Cpp.bind_ok hma, Cpp.bind_ok hmb, Cpp.bind_ok ha.1, Cpp.bind_ok hb.1,
    Cpp.bind_ok (map2_run _ ha.2 hb.2 w).1, Cpp.bind_ok (sum_run _ w), Cpp.bind_ok (map1_run _ ha.2 w).1, Cpp.bind_ok (sum_run _ w)]
  simp only [Scientific.outInp, List.zip_map, List.map_map, Function.comp_def, Prod.map]
  rfl

example : mean (ω := Unit) double (fps [.fin false 1, .fin false 3]) () = .ok (.fin false 2) () ∧
    mean (ω := Unit) double (fps [.fin false 5, .fin false 9]) () = .ok (.fin false 7) () ∧
    InRange double (([.fin false 1, .fin false 3].map value).map fun x => x - 2) ∧ absCodeviations 2 7 [1, 3] [5, 9] = 4 ∧
    deviations 2 [1, 3] = 2 ∧ (5 * 4 + 4 * (2 : Nat) * tiny double) / 2 ≤ 2 ^ (double.emax - 1) ∧
    linearRegression (ω := Unit) (fps [.fin false 1, .fin false 3]) (fps [.fin false 5, .fin false 9]) () = .ok (.fin false 2, .fin false 3) () := by
  refine ⟨?_, ?_, ⟨?_, ?_⟩, ?_, ?_, ?_, ?_⟩ <;> decide +kernel

end Efp.Props
