import Verif.Props.SciFloatDetrend
import Verif.Props.SciFloat

/-!
# Accuracy of `mean`, `variance` and `covariance` of bounded doubles (C183)

`average`, `deviations` and `codeviations` are exact (`Verif.Props.SciFloatVariance`, `Verif.Props.SciFloatCovariance`).
-/

namespace Efp.Props

open Efp.Prelude (Inp)
open Efp.Ieee
open Efp.SciFloat

variable {ω : Type}

/-- the range of the bounds -/
def Moderate (M : ℚ) : Prop := 2 ^ (double.emin + 120) ≤ M ∧ M ≤ 2 ^ (double.emax - 50)

theorem Moderate.pos {M : ℚ} (h : Moderate M) : 0 < M := lt_of_lt_of_le (zpow_pos2 _) h.1

theorem Moderate.tiny {M : ℚ} (h : Moderate M) : tiny double * 2 ^ 60 ≤ unit double * M := by
  have h1 : Ieee.tiny double * 2 ^ 60 ≤ unit double * 2 ^ (double.emin + 120) := by decide +kernel
  exact h1.trans (mul_le_mul_of_nonneg_left h.1 (unit_pos double).le)

theorem abs_sum_le (l : List Fp) : |(l.map value).sum| ≤ (l.map fun x => |value x|).sum := by
  induction l with
  | nil => simp
  | cons a l ih =>
    simp only [List.map_cons, List.sum_cons]
    exact (abs_add_le _ _).trans (by linarith)

/-- **C183.**  If `as` has from 1 to `2^38 - 1` finite elements of magnitude at most `M`, `mean` is finite and differs from the exact
average by at most `2n + 1` unit roundoffs of `M`. -/
theorem C183_mean (as : Inp Fp) (hf : ∀ x ∈ as.vals, Finite double x) {n : Nat} (hn : n = as.vals.length) (h0 : 0 < n) (hmax : n < 2 ^ 38)
    {M : ℚ} (hM : ∀ x ∈ as.vals, |value x| ≤ M) (hmod : Moderate M) (w : ω) :
    ∃ k, mean double as w = .ok k w ∧ Finite double k ∧
      |value k - average (as.vals.map value)| ≤ (2 * n + 1) * (unit double * M) := by
  obtain ⟨-, -, s3⟩ := emax_scale double hmod.2
  have hM0 := hmod.pos
  have htM := hmod.tiny
  clear hmod
  have hty := tiny_pos double
  have hu0 := unit_pos double
  have hnn : (1 : ℚ) ≤ n := by exact_mod_cast h0
  have hnm : (n : ℚ) ≤ 2 ^ 38 := by exact_mod_cast hmax.le
  have hnu : ∀ j : Nat, j ≤ n → (j : ℚ) * unit double ≤ 1 / 2 := by
    intro j hj
    have h1 : (j : ℚ) ≤ 2 ^ 38 := by exact_mod_cast hj.trans hmax.le
    refine (mul_le_mul_of_nonneg_right h1 hu0.le).trans ?_
    decide +kernel
  obtain ⟨z, hz⟩ : ∃ z, z = unit double * M := ⟨_, rfl⟩
  have hz0 : 0 < z := by rw [hz]; exact mul_pos hu0 hM0
  rw [← hz] at htM ⊢
  have hsum := absSum_le as.vals hM
  rw [← hn] at hsum
  have hpow : ∀ j : Nat, j ≤ n → (1 + unit double) ^ j ≤ 1 + 2 * (j * unit double) := fun j hj => pow_upper double_ok (hnu j hj)
  have hpow2 : (1 + unit double) ^ (n - 1) ≤ 2 := (hpow (n - 1) (by omega)).trans (by linarith [hnu (n - 1) (by omega)])
  have h00 : 0 ≤ (as.vals.map fun x => |value x|).sum := (abs_nonneg _).trans (abs_sum_le as.vals)
  have hroom : (1 + unit double) ^ (n - 1) * (as.vals.map fun x => |value x|).sum < 2 ^ double.emax := by
    refine lt_of_lt_of_le ?_ s3
    have h1 := mul_le_mul hpow2 hsum h00 (by norm_num)
    have h3 := mul_le_mul_of_nonneg_right hnm hM0.le
    refine lt_of_le_of_lt h1 ?_
    norm_num at h3 ⊢
    linarith
  have := meanL_error double_ok as.vals (by rw [← List.length_pos_iff, ← hn]; omega) (by rw [← hn]; omega)
    (by rw [← hn]; change n < 2 ^ 53; omega) hf (by rw [← hn]; exact hroom)
  refine ⟨_, mean_run as w, this.1, ?_⟩
  have h4 := this.2
  rw [← hn] at h4
  have e : average (as.vals.map value) = (as.vals.map value).sum / n := by rw [average, List.length_map, ← hn]
  rw [e]
  refine h4.trans ?_
  have h5 : SciFloat.absSum as.vals / n ≤ M := by
    rw [div_le_iff₀ (by linarith)]
    have : SciFloat.absSum as.vals ≤ n * M := hsum
    linarith
  have h6 : (1 + unit double) ^ n - 1 ≤ 2 * (n * unit double) := by linarith [hpow n le_rfl]
  have h7 : 0 ≤ (1 + unit double) ^ n - 1 := by
    have := one_le_pow₀ (n := n) (show (1 : ℚ) ≤ 1 + unit double by linarith)
    linarith
  have h8 := mul_le_mul h6 h5 (div_nonneg h00 (by linarith)) (h7.trans h6)
  have h9 : 2 * ((n : ℚ) * unit double) * M = 2 * n * z := by rw [hz]; ring
  rw [h9] at h8
  linarith

/-- the mean of bounded data is bounded -/
theorem mean_bound {n : Nat} {l : List Fp} (hn : n = l.length) (h0 : 0 < n) (hmax : n < 2 ^ 38) {M : ℚ} (hM0 : 0 < M)
    (hM : ∀ x ∈ l, |value x| ≤ M) {k : Fp} (hk : |value k - average (l.map value)| ≤ (2 * n + 1) * (unit double * M)) :
    |value k| ≤ 3 / 2 * M := by
  have hnn : (1 : ℚ) ≤ n := by exact_mod_cast h0
  have e : average (l.map value) = (l.map value).sum / n := by rw [average, List.length_map, ← hn]
  have hav : |average (l.map value)| ≤ M := by
    rw [e, abs_div, abs_of_pos (by linarith : (0 : ℚ) < n), div_le_iff₀ (by linarith)]
    have h1 := absSum_le l hM
    have h4 := abs_sum_le l
    rw [← hn] at h1
    linarith
  have h1 := abs_add_le (average (l.map value)) (value k - average (l.map value))
  rw [add_sub_cancel] at h1
  have h2 : (2 * (n : ℚ) + 1) * unit double ≤ 1 / 2 := by
    have h3 : 2 * (n : ℚ) + 1 ≤ 2 ^ 40 := by
      have : 2 * n + 1 ≤ 2 ^ 40 := by omega
      exact_mod_cast this
    refine (mul_le_mul_of_nonneg_right h3 (unit_pos double).le).trans ?_
    decide +kernel
  have h4 := mul_le_mul_of_nonneg_right h2 hM0.le
  linarith

theorem absCodeviations_le (c d a b : ℚ) : ∀ xs ys : List ℚ, (∀ x ∈ xs, |x - c| ≤ a) → (∀ y ∈ ys, |y - d| ≤ b) → xs.length = ys.length →
    absCodeviations c d xs ys ≤ xs.length * (a * b)
  | [], _, _, _, _ => by simp [absCodeviations]
  | _ :: _, [], _, _, h => by simp at h
  | x :: xs, y :: ys, hx, hy, h => by
    have ih := absCodeviations_le c d a b xs ys (fun z hz => hx z (List.mem_cons_of_mem _ hz))
      (fun z hz => hy z (List.mem_cons_of_mem _ hz)) (by simpa using h)
    have h1 := hx x List.mem_cons_self
    have h2 := hy y List.mem_cons_self
    have h3 : |(x - c) * (y - d)| ≤ a * b := by
      rw [abs_mul]
      exact mul_le_mul h1 h2 (abs_nonneg _) ((abs_nonneg _).trans h1)
    have e : absCodeviations c d (x :: xs) (y :: ys) = |(x - c) * (y - d)| + absCodeviations c d xs ys := by simp [absCodeviations]
    rw [e, List.length_cons]
    push_cast
    linarith

/-- **C183.**  If `as` and `bs` have `n` finite elements each, of magnitude at most `M` and `K`, `covariance` is finite and differs
from the exact covariance, about the exact averages, by at most `26n + 80` unit roundoffs of `M * K`. -/
theorem C183_covariance (as bs : Inp Fp) (hva : as.valid) (hvb : bs.valid) (bessel : Bool) (hfa : ∀ x ∈ as.vals, Finite double x)
    (hfb : ∀ y ∈ bs.vals, Finite double y) {n : Nat} (hna : n = as.vals.length) (hnb : n = bs.vals.length)
    (h0 : (if bessel then 2 else 1) ≤ n) (hmax : n < 2 ^ 38) {M K N : ℚ} (hM : ∀ x ∈ as.vals, |value x| ≤ M) (hmod : Moderate M)
    (hK : ∀ y ∈ bs.vals, |value y| ≤ K) (hmodK : Moderate K) (hMK : Moderate (M * K)) (hN : N = if bessel then (n : ℚ) - 1 else n) (w : ω) :
    ∃ c, covariance double bessel as bs w = .ok c w ∧ Finite double c ∧
      |value c - codeviations (average (as.vals.map value)) (average (bs.vals.map value)) (as.vals.map value) (bs.vals.map value) / N| ≤
        (26 * n + 80) * (unit double * (M * K)) := by
  have hn0 : 0 < n := by split at h0 <;> omega
  obtain ⟨m, hma, fm, hme⟩ := C183_mean as hfa hna hn0 hmax hM hmod w
  obtain ⟨k, hmb, fk, hke⟩ := C183_mean bs hfb hnb hn0 hmax hK hmodK w
  have hM0 := hmod.pos
  have hK0 := hmodK.pos
  have hm3 := mean_bound hna hn0 hmax hM0 hM hme
  have hk3 := mean_bound hnb hn0 hmax hK0 hK hke
  have hda : ∀ x ∈ as.vals, |value x - value m| ≤ 5 / 2 * M := fun x hx => (abs_sub _ _).trans (by linarith [hM x hx])
  have hdb : ∀ y ∈ bs.vals, |value y - value k| ≤ 5 / 2 * K := fun y hy => (abs_sub _ _).trans (by linarith [hK y hy])
  have hA := absCodeviations_le (value m) (value k) (5 / 2 * M) (5 / 2 * K) (as.vals.map value) (bs.vals.map value)
    (by intro y hy; obtain ⟨x, hx, rfl⟩ := List.mem_map.1 hy; exact hda x hx)
    (by intro y hy; obtain ⟨x, hx, rfl⟩ := List.mem_map.1 hy; exact hdb x hx) (by simp [← hna, ← hnb])
  rw [List.length_map, ← hna] at hA
  have hnn : (1 : ℚ) ≤ n := by exact_mod_cast hn0
  have hnm : (n : ℚ) ≤ 2 ^ 38 := by exact_mod_cast hmax.le
  have hu0 := unit_pos double
  have hMK0 := hMK.pos
  have htM := hMK.tiny
  have hroom : absCodeviations (value m) (value k) (as.vals.map value) (bs.vals.map value) < 2 ^ (double.emax - 2) := by
    have s := (emax_scale double hMK.2).2.1
    refine emax_lt double (lt_of_lt_of_le (lt_of_le_of_lt hA ?_) s)
    have h1 := mul_le_mul_of_nonneg_right hnm hMK0.le
    norm_num at h1 ⊢
    linarith
  have hnu : ((n : ℚ) + 3) * unit double ≤ 1 / 1000 := by
    have h1 : (n : ℚ) + 3 ≤ 2 ^ 39 := by
      have : n + 3 ≤ 2 ^ 39 := by omega
      exact_mod_cast this
    refine (mul_le_mul_of_nonneg_right h1 hu0.le).trans ?_
    decide +kernel
  obtain ⟨c, N', hc, fc, hN', ec⟩ := C176_covariance double_ok as bs hva hvb bessel hfa hfb hna hnb h0 (by omega) (by linarith) w hma fm hmb fk
    (fun x hx => lt_of_lt_of_le (lt_of_le_of_lt (hda x hx) (by norm_num; linarith)) (emax_scale double hmod.2).1)
    (fun y hy => lt_of_lt_of_le (lt_of_le_of_lt (hdb y hy) (by norm_num; linarith)) (emax_scale double hmodK.2).1) hroom
  rw [show N' = N by rw [hN', hN]] at ec
  clear hroom hmod hmodK hMK
  refine ⟨c, hc, fc, ?_⟩
  obtain ⟨hN1, hNn⟩ : 1 ≤ N ∧ n ≤ 2 * N := by
    rw [hN]
    cases bessel with
    | false => simp only [Bool.false_eq_true, if_false]; exact ⟨hnn, by linarith⟩
    | true =>
      simp only [if_true] at h0 ⊢
      have : (2 : ℚ) ≤ n := by exact_mod_cast h0
      constructor <;> linarith
  have hN0 : 0 < N := by linarith
  obtain ⟨z, hz⟩ : ∃ z, z = unit double * (M * K) := ⟨_, rfl⟩
  have hz0 : 0 < z := by rw [hz]; exact mul_pos hu0 hMK0
  rw [← hz] at htM ⊢
  have hAN : absCodeviations (value m) (value k) (as.vals.map value) (bs.vals.map value) / N ≤ 25 / 2 * (M * K) := by
    rw [div_le_iff₀ hN0]
    have := mul_le_mul_of_nonneg_right hNn hMK0.le
    linarith
  have h2 : 2 * ((n + 3) * unit double) * (absCodeviations (value m) (value k) (as.vals.map value) (bs.vals.map value) / N) ≤
      25 * (n + 3) * z := by
    have := mul_le_mul_of_nonneg_left hAN (show 0 ≤ 2 * (((n : ℚ) + 3) * unit double) by
      have := mul_pos (show (0 : ℚ) < n + 3 by linarith) hu0
      linarith)
    rw [hz]
    linarith
  -- the errors of the means
  have hme' : |average (as.vals.map value) - value m| ≤ (2 * n + 1) * (unit double * M) := by rw [abs_sub_comm]; exact hme
  have hke' : |average (bs.vals.map value) - value k| ≤ (2 * n + 1) * (unit double * K) := by rw [abs_sub_comm]; exact hke
  have h3 : |n * ((average (as.vals.map value) - value m) * (average (bs.vals.map value) - value k)) / N| ≤ 1 / 10 * n * z := by
    have h4 := mul_le_mul hme' hke' (abs_nonneg _) ((abs_nonneg _).trans hme')
    rw [← abs_mul] at h4
    have h5 : (2 * (n : ℚ) + 1) * (unit double * M) * ((2 * n + 1) * (unit double * K)) = (2 * n + 1) * (((2 * n + 1) * unit double) * z) := by
      rw [hz]; ring
    rw [h5] at h4
    have h6 : (2 * (n : ℚ) + 1) * unit double ≤ 2 * (1 / 1000) := by linarith
    have h7 := mul_le_mul_of_nonneg_left (mul_le_mul_of_nonneg_right h6 hz0.le) (show (0 : ℚ) ≤ 2 * n + 1 by linarith)
    have h8 := h4.trans h7
    rw [abs_div, abs_of_pos hN0, abs_mul, abs_of_nonneg (by linarith : (0 : ℚ) ≤ n), div_le_iff₀ hN0]
    have h9 := mul_le_mul hNn h8 (abs_nonneg _) (by linarith)
    have h10 : (2 * (n : ℚ) + 1) * z ≤ 3 * n * z := mul_le_mul_of_nonneg_right (by linarith) hz0.le
    have h11 := mul_le_mul_of_nonneg_left h10 hN0.le
    have h12 := mul_pos (mul_pos hN0 (by linarith : (0 : ℚ) < n)) hz0
    linarith
  have hty := tiny_pos double
  have ec' := ec.trans (show _ ≤ 25 * (n + 3) * z + 6 * tiny double by linarith)
  generalize codeviations (average (as.vals.map value)) (average (bs.vals.map value)) (as.vals.map value) (bs.vals.map value) = T at *
  rw [add_div] at ec'
  have h13 := abs_add_le (value c - (T / N + n * ((average (as.vals.map value) - value m) * (average (bs.vals.map value) - value k)) / N))
    (n * ((average (as.vals.map value) - value m) * (average (bs.vals.map value) - value k)) / N)
  rw [sub_add_eq_sub_sub, sub_add_cancel] at h13
  rw [sub_add_eq_sub_sub] at ec'
  have hnz : (1 : ℚ) * z ≤ n * z := mul_le_mul_of_nonneg_right hnn hz0.le
  linarith

/-- **C183.**  If `as` has `n` finite elements of magnitude at most `M`, `variance` is finite and differs from the exact variance,
about the exact average, by at most `26n + 80` unit roundoffs of `M^2`. -/
theorem C183_variance (as : Inp Fp) (hv : as.valid) (bessel : Bool) (hf : ∀ x ∈ as.vals, Finite double x) {n : Nat}
    (hn : n = as.vals.length) (h0 : (if bessel then 2 else 1) ≤ n) (hmax : n < 2 ^ 38) {M N : ℚ} (hM : ∀ x ∈ as.vals, |value x| ≤ M)
    (hmod : Moderate M) (hMM : Moderate (M ^ 2)) (hN : N = if bessel then (n : ℚ) - 1 else n) (w : ω) :
    ∃ v, variance double bessel as w = .ok v w ∧ Finite double v ∧
      |value v - deviations (average (as.vals.map value)) (as.vals.map value) / N| ≤ (26 * n + 80) * (unit double * M ^ 2) := by
  rw [sq] at hMM ⊢
  obtain ⟨c, hc, fc, he⟩ := C183_covariance as as hv hv bessel hf hf hn hn h0 hmax hM hmod hM hmod hMM hN w
  rw [(C122_covariance_comm_partial as as hv hv rfl bessel w).2.2] at hc
  refine ⟨c, hc, fc, ?_⟩
  have e : ∀ (a : ℚ) (xs : List ℚ), codeviations a a xs xs = deviations a xs := by
    intro a xs
    induction xs with
    | nil => rfl
    | cons x xs ih =>
      simp only [codeviations, deviations, sumSquares, List.zipWith_cons_cons, List.map_cons, List.sum_cons] at ih ⊢
      rw [ih, sq]
  rw [e] at he
  exact he

example : Moderate 8 ∧ Moderate (8 * 8) ∧ average [1, 3] = 2 ∧ average [7, -1] = 3 ∧ codeviations 2 3 [1, 3] [7, -1] / 2 = -4 ∧
    covariance (ω := Unit) double false (fps [.fin false 1, .fin false 3]) (fps [.fin false 7, .fin true 1]) () = .ok (.fin true 4) () ∧
    variance (ω := Unit) double false (fps [.fin false 1, .fin false 3]) () = .ok (.fin false 1) () := by
  refine ⟨⟨?_, ?_⟩, ⟨?_, ?_⟩, ?_, ?_, ?_, ?_, ?_⟩ <;> decide +kernel

end Efp.Props
