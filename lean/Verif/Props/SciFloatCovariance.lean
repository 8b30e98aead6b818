import Verif.SciFloatClose
import Verif.Props.SciFloatVariance

/-!
# Accuracy of the covariance of floating-point numbers (C176)

`average` is the exact average (`Verif.Props.SciFloatVariance`); `tiny F` is half the least positive number of the format.
-/

namespace Efp.Props

open Efp.Prelude (Inp)
open Efp.Ieee
open Efp.SciFloat

variable {ω : Type} {F : Fmt}

/-- the exact sum of the products of the deviations of `xs` from `c` and of `ys` from `d` -/
def codeviations (c d : ℚ) (xs ys : List ℚ) : ℚ := (List.zipWith (fun x y => (x - c) * (y - d)) xs ys).sum

/-- the same with the magnitudes of the products -/
def absCodeviations (c d : ℚ) (xs ys : List ℚ) : ℚ := (List.zipWith (fun x y => |(x - c) * (y - d)|) xs ys).sum

theorem codeviations_shift (c d c' d' : ℚ) : ∀ xs ys : List ℚ, xs.length = ys.length →
    codeviations c d xs ys = codeviations c' d' xs ys + (c' - c) * (ys.sum - ys.length * d') + (d' - d) * (xs.sum - xs.length * c') +
      xs.length * ((c' - c) * (d' - d))
  | [], [], _ => by simp [codeviations]
  | x :: xs, y :: ys, h => by
    have ih := codeviations_shift c d c' d' xs ys (by simpa using h)
    simp only [codeviations, List.zipWith_cons_cons, List.sum_cons, List.length_cons] at ih ⊢
    rw [ih]
    push_cast
    ring

theorem sum_average (xs : List ℚ) : xs.sum - xs.length * average xs = 0 := by
  rcases eq_or_ne xs [] with rfl | h
  · simp
  · have : (xs.length : ℚ) ≠ 0 := by exact_mod_cast (List.length_pos_iff.2 h).ne'
    unfold average
    field_simp
    ring

theorem codeviations_average (c d : ℚ) (xs ys : List ℚ) (h : xs.length = ys.length) :
    codeviations c d xs ys = codeviations (average xs) (average ys) xs ys + xs.length * ((average xs - c) * (average ys - d)) := by
  rw [codeviations_shift c d (average xs) (average ys) xs ys h, sum_average, sum_average]
  ring

theorem products_close (hF : F.Ok) {m k : Fp} (hm : Finite F m) (hk : Finite F k) : ∀ (as bs : List Fp), (∀ x ∈ as, Finite F x) →
    (∀ y ∈ bs, Finite F y) → (∀ x ∈ as, |value x - value m| < 2 ^ (F.emax - 1)) → (∀ y ∈ bs, |value y - value k| < 2 ^ (F.emax - 1)) →
    absCodeviations (value m) (value k) (as.map value) (bs.map value) < 2 ^ (F.emax - 2) →
    List.Forall₂ (fun e t => Finite F e ∧ Close F 3 (value e) t.1 t.2 (tiny F))
      ((as.zip bs).map fun p => mul F (sub F p.1 m) (sub F p.2 k))
      ((as.zip bs).map fun p => ((value p.1 - value m) * (value p.2 - value k), |(value p.1 - value m) * (value p.2 - value k)|))
  | [], _, _, _, _, _, _ => by simp
  | _ :: _, [], _, _, _, _, _ => by simp
  | a :: as, b :: bs, ha, hb, h1, h2, h => by
    simp only [absCodeviations, List.map_cons, List.zipWith_cons_cons, List.sum_cons, List.zip_cons_cons] at h ⊢
    have hnn : 0 ≤ absCodeviations (value m) (value k) (as.map value) (bs.map value) := by
      apply List.sum_nonneg
      intro x hx
      obtain ⟨i, hi, rfl⟩ := List.mem_iff_getElem.1 hx
      rw [List.getElem_zipWith]
      exact abs_nonneg _
    have hab := abs_nonneg ((value a - value m) * (value b - value k))
    unfold absCodeviations at hnn
    obtain ⟨s1, s2⟩ := sub_close hF (ha a (by simp)) hm (h1 a (by simp))
    obtain ⟨t1, t2⟩ := sub_close hF (hb b (by simp)) hk (h2 b (by simp))
    exact .cons (mul_close hF s1 t1 s2 t2 (by linarith))
      (products_close hF hm hk as bs (fun x hx => ha x (by simp [hx])) (fun x hx => hb x (by simp [hx]))
        (fun x hx => h1 x (by simp [hx])) (fun x hx => h2 x (by simp [hx])) (by unfold absCodeviations; linarith))

/-- **C176.**  If the computed means `m` and `k` are finite and nothing overflows, `covariance` is finite.  It differs from the exact
covariance, plus the product of the errors of `m` and `k`, by at most `2(n+3)` unit roundoffs of the average magnitude of the
products of deviations, and six times half the least positive number.  (`N` is `n`, or `n - 1` with the Bessel correction.) -/
theorem C176_covariance (hF : F.Ok) (as bs : Inp Fp) (hva : as.valid) (hvb : bs.valid) (bessel : Bool)
    (hfa : ∀ x ∈ as.vals, Finite F x) (hfb : ∀ y ∈ bs.vals, Finite F y) {n : Nat} (hna : n = as.vals.length) (hnb : n = bs.vals.length)
    (h0 : (if bessel then 2 else 1) ≤ n) (h64 : n < 2 ^ 64) (hu : (n + 3) * unit F ≤ 1 / 2) {m k : Fp} (w : ω)
    (hma : mean F as w = .ok m w) (hm : Finite F m) (hmb : mean F bs w = .ok k w) (hk : Finite F k)
    (hda : ∀ x ∈ as.vals, |value x - value m| < 2 ^ (F.emax - 1)) (hdb : ∀ y ∈ bs.vals, |value y - value k| < 2 ^ (F.emax - 1))
    (hlt : absCodeviations (value m) (value k) (as.vals.map value) (bs.vals.map value) < 2 ^ (F.emax - 2)) :
    ∃ c N, covariance F bessel as bs w = .ok c w ∧ Finite F c ∧ N = (if bessel then (n : ℚ) - 1 else n) ∧
      |value c - (codeviations (average (as.vals.map value)) (average (bs.vals.map value)) (as.vals.map value) (bs.vals.map value) +
          n * ((average (as.vals.map value) - value m) * (average (bs.vals.map value) - value k))) / N| ≤
        2 * ((n + 3) * unit F) * (absCodeviations (value m) (value k) (as.vals.map value) (bs.vals.map value) / N) + 6 * tiny F := by
  have hu0 := unit_pos F
  have hu' := unit_le hF
  have ht0 := tiny_pos F
  have htu := tiny_le_unit hF
  have hml : m = meanL F as.vals := by
    rw [mean_run as w] at hma
    injection hma with h
    exact h.symm
  have hkl : k = meanL F bs.vals := by
    rw [mean_run bs w] at hmb
    injection hmb with h
    exact h.symm
  have hpos : 0 < n := by split at h0 <;> omega
  have hzl : (as.vals.zip bs.vals).length = n := by rw [List.length_zip]; omega
  have hP := products_close hF hm hk as.vals bs.vals hfa hfb hda hdb hlt
  have e1 : ((as.vals.zip bs.vals).map fun p => ((value p.1 - value m) * (value p.2 - value k),
      |(value p.1 - value m) * (value p.2 - value k)|)).map (·.1) =
      List.zipWith (fun x y => (x - value m) * (y - value k)) (as.vals.map value) (bs.vals.map value) := by
    rw [List.map_map, List.zipWith_map, ← List.map_uncurry_zip_eq_zipWith]
    rfl
  have e2 : ((as.vals.zip bs.vals).map fun p => ((value p.1 - value m) * (value p.2 - value k),
      |(value p.1 - value m) * (value p.2 - value k)|)).map (·.2) =
      List.zipWith (fun x y => |(x - value m) * (y - value k)|) (as.vals.map value) (bs.vals.map value) := by
    rw [List.map_map, List.zipWith_map, ← List.map_uncurry_zip_eq_zipWith]
    rfl
  have hnu : (n : ℚ) * tiny F ≤ 1 / 4 := by
    have : (n : ℚ) * tiny F ≤ n * (unit F / 2) := mul_le_mul_of_nonneg_left htu (by positivity)
    nlinarith
  have hS := sumL_close hF ht0.le _ _ hP (by
      rw [List.length_map, hzl, show 3 + (n - 1) = n + 2 by omega]
      push_cast
      nlinarith) (by
      rw [e2, List.length_map, hzl]
      unfold absCodeviations at hlt
      have h6 : (1 : ℚ) ≤ 2 ^ (F.emax - 2) := by
        have : (2 : ℚ) ^ (0 : Int) ≤ 2 ^ (F.emax - 2) := zpow_mono2 (by have := hF.size; omega)
        simpa using this
      have h7 : (2 : ℚ) ^ F.emax = 4 * 2 ^ (F.emax - 2) := by
        rw [zpow_sub₀ (by norm_num)]
        norm_num
        ring
      rw [h7]
      linarith)
  rw [e1, e2, List.length_map, hzl, show 3 + (n - 1) = n + 2 by omega] at hS
  have hnp : n < 2 ^ F.prec := by
    have h1 : (n : ℚ) * unit F < 1 := by nlinarith
    have h2 : unit F * 2 ^ F.prec = 1 := by
      unfold unit
      rw [zpow_neg, zpow_natCast]
      exact inv_mul_cancel₀ (by positivity)
    have h3 : (n : ℚ) < 2 ^ F.prec := by
      by_contra hc
      push Not at hc
      nlinarith
    exact_mod_cast h3
  obtain ⟨N, hN0, hNn, hN2, hNd, hNv⟩ : ∃ N : Nat, 0 < N ∧ N ≤ n ∧ n ≤ 2 * N ∧ divisor F bessel n = ofInt F N ∧
      (N : ℚ) = if bessel then (n : ℚ) - 1 else n := by
    cases bessel with
    | false => exact ⟨n, hpos, le_refl _, by omega, rfl, rfl⟩
    | true =>
      simp only [if_true] at h0
      refine ⟨n - 1, by omega, by omega, by omega, ?_, ?_⟩
      · rw [divisor, if_pos rfl]
        congr 1
        omega
      · simp only [if_true]
        push_cast [Nat.cast_sub (show 1 ≤ n by omega)]
        ring
  have hD := div_close hF hS.1 hS.2 hN0 (by omega) (by omega)
  have hE := hD.2.error hF (by push_cast; nlinarith)
  have hb : (1 + unit F) * (2 * (n * tiny F) / N) + tiny F ≤ 6 * tiny F := by
    have hNp : (0 : ℚ) < N := by exact_mod_cast hN0
    have h1 : 2 * (n * tiny F) / N ≤ 4 * tiny F := by
      rw [div_le_iff₀ hNp]
      have : (n : ℚ) ≤ 2 * N := by exact_mod_cast hN2
      nlinarith
    have h2 : (0 : ℚ) ≤ 2 * (n * tiny F) / N := by positivity
    nlinarith
  have hcov : covL F bessel as.vals bs.vals = div F (sumL F ((as.vals.zip bs.vals).map fun p => mul F (sub F p.1 m) (sub F p.2 k))) (ofInt F N) := by
    rw [covL, ← hNd, hml, hkl, hna]
  rw [← hcov] at hD hE
  have hshift := codeviations_average (value m) (value k) (as.vals.map value) (bs.vals.map value) (by simp; omega)
  rw [List.length_map, ← hna] at hshift
  refine ⟨_, N, covariance_run hva hvb bessel w, hD.1, hNv, ?_⟩
  rw [← hshift]
  push_cast at hE
  rw [show (n : ℚ) + 2 + 1 = n + 3 by ring] at hE
  exact hE.trans (by unfold absCodeviations; linarith)

example : mean (ω := Unit) double (fps [.fin false 1, .fin false 3]) () = .ok (.fin false 2) () ∧
    mean (ω := Unit) double (fps [.fin false 7, .fin true 1]) () = .ok (.fin false 3) () ∧
    absCodeviations 2 3 [1, 3] [7, -1] < 2 ^ (double.emax - 2) ∧
    covariance (ω := Unit) double false (fps [.fin false 1, .fin false 3]) (fps [.fin false 7, .fin true 1]) () = .ok (.fin true 4) () := by
  refine ⟨?_, ?_, ?_, ?_⟩ <;> decide +kernel

/-- **C176, why the range matters.**  The exact covariance of `{2^600, -2^600}` with itself is `2^1200`; the code returns infinity. -/
theorem C176_overflow :
    covariance (ω := Unit) double false (fps [.fin false (2 ^ 600), .fin true (2 ^ 600)]) (fps [.fin false (2 ^ 600), .fin true (2 ^ 600)]) () =
      .ok (.inf false) () := by
  decide +kernel

end Efp.Props
