import Verif.Props.SciFloatAccuracy

/-!
# Accuracy of variance and standard deviation of floating-point numbers (C175)

`InRange` and `sumSquares` are defined in `Verif.Props.SciFloatAccuracy`.
-/

namespace Efp.Props

open Efp.Prelude (Inp)
open Efp.Ieee
open Efp.SciFloat

variable {ω : Type} {F : Fmt}

/-- the exact average -/
def average (xs : List ℚ) : ℚ := xs.sum / xs.length

/-- the exact sum of the squared deviations from `c` -/
def deviations (c : ℚ) (xs : List ℚ) : ℚ := sumSquares (xs.map fun x => x - c)

theorem deviations_shift (c d : ℚ) : ∀ xs : List ℚ,
    deviations c xs = deviations d xs + 2 * (d - c) * (xs.sum - xs.length * d) + xs.length * (d - c) ^ 2
  | [] => by simp [deviations, sumSquares]
  | x :: xs => by
    have ih := deviations_shift c d xs
    simp only [deviations, sumSquares, List.map_cons, List.sum_cons, List.length_cons] at ih ⊢
    rw [ih]
    push_cast
    ring

/-- moving the centre away from the average adds its squared distance for every element -/
theorem deviations_average (c : ℚ) (xs : List ℚ) :
    deviations c xs = deviations (average xs) xs + xs.length * (average xs - c) ^ 2 := by
  rw [deviations_shift c (average xs) xs]
  rcases eq_or_ne xs [] with rfl | h
  · simp
  · have : (xs.length : ℚ) ≠ 0 := by exact_mod_cast (List.length_pos_iff.2 h).ne'
    have h2 : xs.sum - xs.length * average xs = 0 := by unfold average; field_simp; ring
    rw [h2]
    ring

theorem deviations_near (hF : F.Ok) {m : Fp} (hm : Finite F m) : ∀ (as : List Fp), (∀ x ∈ as, Finite F x) →
    (∀ d ∈ (as.map value).map (fun x => x - value m), (d = 0 ∨ 2 * 2 ^ (F.emin + F.prec - 1) ≤ d ^ 2) ∧ d ^ 2 < 2 ^ (F.emax - 1)) →
    List.Forall₂ (fun e d => Finite F e ∧ Near F 3 (value e) (d ^ 2)) (as.map fun x => square F (sub F x m))
      ((as.map value).map fun x => x - value m)
  | [], _, _ => by simp
  | a :: as, ha, h => by
    obtain ⟨h1, h2⟩ := h (value a - value m) (by simp)
    obtain ⟨s1, s2⟩ := sub_near hF (ha a (by simp)) hm h2
    exact .cons (square_near hF s1 s2 h1 h2)
      (deviations_near hF hm as (fun x hx => ha x (by simp [hx])) fun d hd => h d (List.mem_cons_of_mem _ hd))

/-- **C175.**  If the computed mean `m` is finite and the deviations from it are in range, `variance` and the square of
`standard_deviation` are finite and off by a relative error of at most `2(n+3)` and `2(n+5)` times the unit roundoff from
the exact sum of squared deviations from the exact average, plus `n` times the squared error of `m`, divided by `n` or `n - 1`. -/
theorem C175_variance (hF : F.Ok) (as : Inp Fp) (hv : as.valid) (bessel : Bool) (hf : ∀ x ∈ as.vals, Finite F x) {n : Nat}
    (hn : n = as.vals.length) (h0 : (if bessel then 2 else 1) ≤ n) (h64 : n < 2 ^ 64) (hu : (n + 5) * unit F ≤ 1 / 2) {m : Fp} (w : ω)
    (hmean : mean F as w = .ok m w) (hm : Finite F m) (hr : InRange F ((as.vals.map value).map fun x => x - value m)) :
    ∃ v d E N, variance F bessel as w = .ok v w ∧ standardDeviation F bessel as w = .ok d w ∧ Finite F v ∧ Finite F d ∧ 0 ≤ value d ∧
      N = (if bessel then (n : ℚ) - 1 else n) ∧
      E = (deviations (average (as.vals.map value)) (as.vals.map value) + n * (average (as.vals.map value) - value m) ^ 2) / N ∧
      |value v - E| ≤ 2 * ((n + 3) * unit F) * E ∧ |value d ^ 2 - E| ≤ 2 * ((n + 5) * unit F) * E := by
  have hu0 := unit_pos F
  have hml : m = meanL F as.vals := by
    rw [mean_run as w] at hmean
    injection hmean with h
    exact h.symm
  have hpos : 0 < n := by split at h0 <;> omega
  have hne : as.vals ≠ [] := List.length_pos_iff.1 (hn ▸ hpos)
  have hlen : ((as.vals.map value).map fun x => x - value m).length = n := by simp [hn]
  obtain ⟨⟨s1, s2⟩, -⟩ := squares_near hF hr (deviations_near hF hm _ hf fun d hd => hr.item hd)
    (by simpa using hne) (by rw [hlen]; exact h64) (by rw [hlen]; nlinarith)
  have hmn := hr.mean
  rw [hlen] at s2 hmn
  have hnp : n < 2 ^ F.prec := by
    have h1 : (n : ℚ) * unit F < 1 := by nlinarith
    have h2 : unit F * 2 ^ F.prec = 1 := by
      unfold unit
      rw [zpow_neg, zpow_natCast]
      exact inv_mul_cancel₀ (by positivity)
    have h3 : (n : ℚ) < 2 ^ F.prec := by
      by_contra hc
      push Not at hc
      nlinarith
    exact_mod_cast h3
  -- the divisor
  obtain ⟨N, hN0, hNn, hNd, hNv⟩ : ∃ N : Nat, 0 < N ∧ N ≤ n ∧ divisor F bessel n = ofInt F N ∧
      (N : ℚ) = if bessel then (n : ℚ) - 1 else n := by
    cases bessel with
    | false => exact ⟨n, hpos, le_refl _, rfl, rfl⟩
    | true =>
      simp only [if_true] at h0
      refine ⟨n - 1, by omega, by omega, ?_, ?_⟩
      · rw [divisor, if_pos rfl]
        congr 1
        omega
      · simp only [if_true]
        push_cast [Nat.cast_sub (show 1 ≤ n by omega)]
        ring
  have hS : sumSquares ((as.vals.map value).map fun x => x - value m) =
      deviations (average (as.vals.map value)) (as.vals.map value) + n * (average (as.vals.map value) - value m) ^ 2 := by
    have := deviations_average (value m) (as.vals.map value)
    rw [List.length_map, ← hn] at this
    exact this
  have hlo : sumSquares ((as.vals.map value).map fun x => x - value m) = 0 ∨
      2 * 2 ^ (F.emin + F.prec - 1) ≤ sumSquares ((as.vals.map value).map fun x => x - value m) / N := by
    refine hmn.imp id fun h => h.trans ?_
    exact div_le_div_of_nonneg_left s2.1 (by exact_mod_cast hN0) (by exact_mod_cast hNn)
  have hd := div_near hF s1 s2 (by push_cast; nlinarith) hN0 (by omega) (by omega) hlo
  rw [← hNd] at hd
  have hvar : varL F bessel as.vals = div F (sumL F (as.vals.map fun x => square F (sub F x m))) (divisor F bessel n) := by
    rw [varL, hml, hn]
  rw [← hvar] at hd
  have hnn := varL_nonneg hF bessel (hn ▸ h0) (hn ▸ h64) hf
  obtain ⟨r1, r2, r3⟩ := sqrt_near hF hd.1 (nonneg_fin hnn hd.1) hd.2 (by push_cast; nlinarith)
    (hlo.imp (fun h => by rw [h, zero_div]) id)
  have e2 := hd.2.error hF (by push_cast; nlinarith)
  have e3 := r2.error hF (by push_cast; nlinarith)
  push_cast at e2 e3
  rw [hS] at e2 e3
  refine ⟨_, _, _, _, variance_run hv bessel w, standardDeviation_run hv bessel w, hd.1, r1, r3, hNv, rfl, ?_, ?_⟩
  · rw [show (n : ℚ) + 2 + 1 = n + 3 by ring] at e2
    exact e2
  · rw [show (n : ℚ) + 2 + 1 + 2 = n + 5 by ring] at e3
    exact e3

example : mean (ω := Unit) double (fps [.fin false 1, .fin false 3]) () = .ok (.fin false 2) () ∧
    InRange double (([.fin false 1, .fin false 3].map value).map fun x => x - value (.fin false 2)) ∧
    variance (ω := Unit) double true (fps [.fin false 1, .fin false 3]) () = .ok (.fin false 2) () := by
  refine ⟨?_, ⟨?_, ?_⟩, ?_⟩ <;> decide +kernel

/-- **C175, why the mean matters.**  The variance of three times 0.1 is exactly zero; the code returns `2^-112`, the squared error
of the mean. -/
theorem C175_mean_error :
    deviations (average (List.replicate 3 (value tenth))) (List.replicate 3 (value tenth)) = 0 ∧
    variance (ω := Unit) double false (fps [tenth, tenth, tenth]) () = .ok (.fin false (1 / 2 ^ 112)) () := by
  refine ⟨?_, ?_⟩ <;> decide +kernel

end Efp.Props
