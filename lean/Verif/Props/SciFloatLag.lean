import Verif.Props.SciFloatCovariance
import Verif.Props.SciFloatAuto

/-!
# Accuracy of the autocovariance of floating-point numbers (C177)

`codeviations` and `absCodeviations` are the exact sums of products of deviations (`Verif.Props.SciFloatCovariance`).
-/

namespace Efp.Props

open Efp.Prelude (Inp)
open Efp.Ieee
open Efp.SciFloat

variable {ω : Type} {F : Fmt}

/-- sums of products of deviations, divided by a count, for any two lists -/
theorem products_mean (hF : F.Ok) {m k : Fp} (hm : Finite F m) (hk : Finite F k) {l r : List Fp} (hl : ∀ x ∈ l, Finite F x)
    (hr : ∀ y ∈ r, Finite F y) (hdl : ∀ x ∈ l, |value x - value m| < 2 ^ (F.emax - 1)) (hdr : ∀ y ∈ r, |value y - value k| < 2 ^ (F.emax - 1))
    (hlt : absCodeviations (value m) (value k) (l.map value) (r.map value) < 2 ^ (F.emax - 2)) {t N : Nat} (ht : t = (l.zip r).length)
    (ht0 : 0 < t) (hN0 : 0 < N) (htN : t ≤ 2 * N) (h64 : N < 2 ^ 64) (hNp : N < 2 ^ F.prec) (hu : (t + 3) * unit F ≤ 1 / 2) :
    Finite F (div F (sumL F ((l.zip r).map fun p => mul F (sub F p.1 m) (sub F p.2 k))) (ofInt F N)) ∧
    |value (div F (sumL F ((l.zip r).map fun p => mul F (sub F p.1 m) (sub F p.2 k))) (ofInt F N)) -
        codeviations (value m) (value k) (l.map value) (r.map value) / N| ≤
      2 * ((t + 3) * unit F) * (absCodeviations (value m) (value k) (l.map value) (r.map value) / N) + 6 * tiny F := by
  have hu0 := unit_pos F
  have hu' := unit_le hF
  have hty := tiny_pos F
  have htu := tiny_le_unit hF
  have hP := products_close hF hm hk l r hl hr hdl hdr hlt
  have e1 : ((l.zip r).map fun p => ((value p.1 - value m) * (value p.2 - value k),
      |(value p.1 - value m) * (value p.2 - value k)|)).map (·.1) =
      List.zipWith (fun x y => (x - value m) * (y - value k)) (l.map value) (r.map value) := by
    rw [List.map_map, List.zipWith_map, ← List.map_uncurry_zip_eq_zipWith]
    rfl
  have e2 : ((l.zip r).map fun p => ((value p.1 - value m) * (value p.2 - value k),
      |(value p.1 - value m) * (value p.2 - value k)|)).map (·.2) =
      List.zipWith (fun x y => |(x - value m) * (y - value k)|) (l.map value) (r.map value) := by
    rw [List.map_map, List.zipWith_map, ← List.map_uncurry_zip_eq_zipWith]
    rfl
  have hnu : (t : ℚ) * tiny F ≤ 1 / 4 := by
    have : (t : ℚ) * tiny F ≤ t * (unit F / 2) := mul_le_mul_of_nonneg_left htu (by positivity)
    nlinarith
  have hS := sumL_close hF hty.le _ _ hP (by
      rw [List.length_map, ← ht, show 3 + (t - 1) = t + 2 by omega]
      push_cast
      nlinarith) (by
      rw [e2, List.length_map, ← ht]
      unfold absCodeviations at hlt
      have h6 : (1 : ℚ) ≤ 2 ^ (F.emax - 2) := by
        have : (2 : ℚ) ^ (0 : Int) ≤ 2 ^ (F.emax - 2) := zpow_mono2 (by have := hF.size; omega)
        simpa using this
      have h7 : (2 : ℚ) ^ F.emax = 4 * 2 ^ (F.emax - 2) := by
        rw [zpow_sub₀ (by norm_num)]
        norm_num
        ring
      rw [h7]
      linarith)
  rw [e1, e2, List.length_map, ← ht, show 3 + (t - 1) = t + 2 by omega] at hS
  have hD := div_close hF hS.1 hS.2 hN0 h64 hNp
  have hE := hD.2.error hF (by push_cast; nlinarith)
  have hb : (1 + unit F) * (2 * (t * tiny F) / N) + tiny F ≤ 6 * tiny F := by
    have hNp : (0 : ℚ) < N := by exact_mod_cast hN0
    have h1 : 2 * (t * tiny F) / N ≤ 4 * tiny F := by
      rw [div_le_iff₀ hNp]
      have : (t : ℚ) ≤ 2 * N := by exact_mod_cast htN
      nlinarith
    have h2 : (0 : ℚ) ≤ 2 * (t * tiny F) / N := by positivity
    nlinarith
  refine ⟨hD.1, ?_⟩
  push_cast at hE
  rw [show (t : ℚ) + 2 + 1 = t + 3 by ring] at hE
  exact hE.trans (by unfold absCodeviations; linarith)

/-- **C177.**  If the computed mean `m` is finite and nothing overflows, `autocovariance` at any lag below the number `n` of elements
is finite.  It differs from the exact sum of the products `(x_i - m)(x_(i+lag) - m)`, divided by `N`, by at most `2(n - lag + 3)`
unit roundoffs of the same sum of magnitudes divided by `N`, and six times half the least positive number.  `N` is `n`, or `n - lag`
if adjusted, less one with the Bessel correction. -/
theorem C177_autocovariance (hF : F.Ok) (as : Inp Fp) (bessel adjusted : Bool) (hf : ∀ x ∈ as.vals, Finite F x) {n lag N : Nat}
    (hn : n = as.vals.length) (h31 : n < 2 ^ 31) (hlag : lag < n)
    (hN : N + (if bessel then 1 else 0) + (if adjusted then lag else 0) = n) (hN0 : 0 < N)
    (hu : (n + 3) * unit F ≤ 1 / 2) {m : Fp} (w : ω) (hmean : mean F as w = .ok m w) (hm : Finite F m)
    (hd : ∀ x ∈ as.vals, |value x - value m| < 2 ^ (F.emax - 1))
    (hlt : absCodeviations (value m) (value m) (as.vals.map value) ((as.vals.map value).drop lag) < 2 ^ (F.emax - 2)) :
    ∃ c, autocovariance F bessel adjusted as lag w = .ok c w ∧ Finite F c ∧
      |value c - codeviations (value m) (value m) (as.vals.map value) ((as.vals.map value).drop lag) / N| ≤
        2 * (((n - lag : Nat) + 3) * unit F) *
          (absCodeviations (value m) (value m) (as.vals.map value) ((as.vals.map value).drop lag) / N) + 6 * tiny F := by
  have hu0 := unit_pos F
  have hml : m = meanL F as.vals := by
    rw [mean_run as w] at hmean
    injection hmean with h
    exact h.symm
  have hnp : n < 2 ^ F.prec := by
    have h1 : (n : ℚ) * unit F < 1 := by nlinarith
    have h2 : unit F * 2 ^ F.prec = 1 := by
      unfold unit
      rw [zpow_neg, zpow_natCast]
      exact inv_mul_cancel₀ (by positivity)
    have h3 : (n : ℚ) < 2 ^ F.prec := by
      by_contra hc
      push Not at hc
      nlinarith
    exact_mod_cast h3
  have hdiv : autoDivisor F bessel adjusted n lag = ofInt F N := by
    have h1 : Scientific.subLag n ((1 : Nat) : Int) = n - 1 := Scientific.subLag_eq (by omega) (by omega)
    unfold autoDivisor
    cases bessel <;> cases adjusted <;> simp only [if_true, Bool.false_eq_true, if_false] at hN ⊢
    · rw [show N = n by omega]
    · rw [Scientific.subLag_eq (by omega) (by omega), show N = n - lag by omega]
    · rw [show Scientific.subLag n 1 = n - 1 from h1, show N = n - 1 by omega]
    · rw [show ((lag : Int) + 1) = ((lag + 1 : Nat) : Int) by omega, Scientific.subLag_eq (by omega) (by omega), show N = n - (lag + 1) by omega]
  rw [← List.map_drop] at hlt ⊢
  have hzl : n - lag = (as.vals.zip (as.vals.drop lag)).length := by
    rw [List.length_zip, List.length_drop]
    omega
  have hmul : ((n - lag : Nat) + 3 : ℚ) * unit F ≤ 1 / 2 := by
    refine le_trans (mul_le_mul_of_nonneg_right ?_ hu0.le) hu
    have : ((n - lag : Nat) : ℚ) ≤ n := by exact_mod_cast Nat.sub_le _ _
    linarith
  have hP := products_mean hF hm hm hf (fun y hy => hf y (List.mem_of_mem_drop hy)) hd (fun y hy => hd y (List.mem_of_mem_drop hy)) hlt hzl
    (by omega) hN0 (by split at hN <;> split at hN <;> omega) (by omega) (by omega) hmul
  refine ⟨_, autocovariance_run (hn ▸ h31) (by omega) bessel adjusted w, ?_⟩
  rw [← hn, hdiv, ← hml]
  exact hP

example : mean (ω := Unit) double (fps [.fin false 1, .fin false 3, .fin false 8]) () = .ok (.fin false 4) () ∧
    codeviations 4 4 [1, 3, 8] ([1, 3, 8].drop 1) = -1 ∧ absCodeviations 4 4 [1, 3, 8] ([1, 3, 8].drop 1) < 2 ^ (double.emax - 2) ∧
    autocovariance (ω := Unit) double true true (fps [.fin false 1, .fin false 3, .fin false 8]) 1 () = .ok (.fin true 1) () := by
  refine ⟨?_, ?_, ?_, ?_⟩ <;> decide +kernel

end Efp.Props
