import Verif.Props.SciFloatIndexSlope
import Verif.SciFloatMean

/-!
# Accuracy of `detrend` in floating-point arithmetic (C182)

`average`, `deviations`, `codeviations` and `indices` are exact (`Verif.Props.SciFloatVariance`, `Verif.Props.SciFloatCovariance`,
`Verif.Props.SciFloatIndexSlope`).
-/

namespace Efp.Props

open Efp.Prelude (Inp)
open Efp.Ieee
open Efp.SciFloat
open Efp.Spec (Exactly)

variable {ω : Type} {F : Fmt} {x y : Fp} {c X q : ℚ}

/-- a rounded number that does not overflow -/
theorem fl_round (hF : F.Ok) (hX : X = 2 ^ (F.emax - 1)) (h : |q| ≤ c) (hc : c ≤ X) : |Ieee.round F q| < 2 ^ F.emax := by
  have hr := round_error F q
  have hab := abs_add_le q (Ieee.round F q - q)
  rw [add_sub_cancel] at hab
  have h1 := mul_le_mul_of_nonneg_right (unit_le hF) (abs_nonneg q)
  have h2 := tiny_le_unit hF
  have h3 := unit_le hF
  have h6 : (1 : ℚ) ≤ 2 ^ (F.emax - 1) := by
    have : (2 : ℚ) ^ (0 : Int) ≤ 2 ^ (F.emax - 1) := zpow_mono2 (by have := hF.size; omega)
    simpa using this
  rw [emax_half, ← hX]
  rw [← hX] at h6
  linarith

theorem fl_sub (hF : F.Ok) (hX : X = 2 ^ (F.emax - 1)) (hx : Finite F x) (hy : Finite F y) (h : |value x - value y| ≤ c) (hc : c ≤ X) :
    Finite F (sub F x y) ∧ |value (sub F x y) - (value x - value y)| ≤ unit F * c := by
  obtain ⟨z, hz⟩ := sub_fin hx hy
  obtain ⟨f1, f2⟩ := ofExact_finite hF z (fl_round hF hX h hc)
  rw [hz]
  refine ⟨f1, ?_⟩
  have hr := round_add_error hx.value_rep hy.value_rep.neg
  rw [← sub_eq_add_neg] at hr
  rw [f2]
  exact hr.trans (mul_le_mul_of_nonneg_left h (unit_pos F).le)

theorem fl_add (hF : F.Ok) (hX : X = 2 ^ (F.emax - 1)) (hx : Finite F x) (hy : Finite F y) (h : |value x + value y| ≤ c) (hc : c ≤ X) :
    Finite F (add F x y) ∧ |value (add F x y) - (value x + value y)| ≤ unit F * c := by
  obtain ⟨z, hz⟩ := add_fin hx hy
  obtain ⟨f1, f2⟩ := ofExact_finite hF z (fl_round hF hX h hc)
  rw [hz]
  refine ⟨f1, ?_⟩
  rw [f2]
  exact (round_add_error hx.value_rep hy.value_rep).trans (mul_le_mul_of_nonneg_left h (unit_pos F).le)

theorem fl_mul (hF : F.Ok) (hX : X = 2 ^ (F.emax - 1)) (hx : Finite F x) (hy : Finite F y) (h : |value x * value y| ≤ c) (hc : c ≤ X) :
    Finite F (mul F x y) ∧ |value (mul F x y) - value x * value y| ≤ unit F * c + tiny F := by
  obtain ⟨z, hz⟩ := mul_fin hx hy
  obtain ⟨f1, f2⟩ := ofExact_finite hF z (fl_round hF hX h hc)
  rw [hz]
  refine ⟨f1, ?_⟩
  rw [f2]
  refine (round_error F _).trans ?_
  have := mul_le_mul_of_nonneg_left h (unit_pos F).le
  linarith

/-- the roundings of one element, from the bounds of the coefficients -/
theorem residual_close (hF : F.Ok) (hX : X = 2 ^ (F.emax - 1)) {xi k slope middle ix : Fp} (fx : Finite F xi) (fk : Finite F k)
    (fs : Finite F slope) (fm : Finite F middle) (fi : Finite F ix) {n M avg B : ℚ} (hM0 : 0 < M) (hbig : 2 ^ 10 * M ≤ X)
    (hu : unit F ≤ 1 / 100) (ht : tiny F ≤ unit F * M) (hx : |value xi| ≤ M) (hk2 : |value k| ≤ 2 * M)
    (hk : |value k - avg| ≤ (2 * n + 1) * (unit F * M)) (hs : |value slope| * n ≤ 13 * M)
    (hsB : |value slope - B| * n ≤ (96 * n + 253) * (unit F * M)) (hi : 0 ≤ value ix) (hin : value ix ≤ n) (hm0 : 0 ≤ value middle)
    (hmn : value middle ≤ n / 2) (him : |value ix - value middle| ≤ n / 2) :
    Finite F (sub F xi (add F (mul F slope ix) (sub F k (mul F slope middle)))) ∧
    |value (sub F xi (add F (mul F slope ix) (sub F k (mul F slope middle)))) - (value xi - (avg + B * (value ix - value middle)))| ≤
      (50 * n + 210) * (unit F * M) := by
  have hu0 := unit_pos F
  obtain ⟨z, hz⟩ : ∃ z, z = unit F * M := ⟨_, rfl⟩
  have hz0 : 0 < z := by rw [hz]; exact mul_pos hu0 hM0
  have hzM : z ≤ M / 100 := by
    rw [hz]
    have := mul_le_mul_of_nonneg_right hu hM0.le
    linarith
  rw [← hz] at ht hk hsB ⊢
  have hty := tiny_pos F
  have b1 : |value slope * value middle| ≤ 13 / 2 * M := by
    rw [abs_mul, abs_of_nonneg hm0]
    have := mul_le_mul_of_nonneg_left hmn (abs_nonneg (value slope))
    linarith
  have b2 : |value slope * value ix| ≤ 13 * M := by
    rw [abs_mul, abs_of_nonneg hi]
    have := mul_le_mul_of_nonneg_left hin (abs_nonneg (value slope))
    linarith
  have b3 : |(value slope - B) * (value ix - value middle)| ≤ (48 * n + 127) * z := by
    rw [abs_mul]
    have := mul_le_mul_of_nonneg_left him (abs_nonneg (value slope - B))
    linarith
  obtain ⟨f1, e1⟩ := fl_mul hF hX fs fm b1 (by linarith)
  have m1 := abs_add_le (value slope * value middle) (value (mul F slope middle) - value slope * value middle)
  rw [add_sub_cancel] at m1
  have e1' : unit F * (13 / 2 * M) = 13 / 2 * z := by rw [hz]; ring
  rw [e1'] at e1
  have q1 : |value (mul F slope middle)| ≤ 7 * M := by linarith
  generalize mul F slope middle = p1 at *
  have b4 : |value k - value p1| ≤ 9 * M := (abs_sub _ _).trans (by linarith)
  obtain ⟨f2, e2⟩ := fl_sub hF hX fk f1 b4 (by linarith)
  have m2 := abs_add_le (value k - value p1) (value (sub F k p1) - (value k - value p1))
  rw [add_sub_cancel] at m2
  have e2' : unit F * (9 * M) = 9 * z := by rw [hz]; ring
  rw [e2'] at e2
  have q2 : |value (sub F k p1)| ≤ 10 * M := by linarith
  generalize sub F k p1 = p2 at *
  obtain ⟨f3, e3⟩ := fl_mul hF hX fs fi b2 (by linarith)
  have m3 := abs_add_le (value slope * value ix) (value (mul F slope ix) - value slope * value ix)
  rw [add_sub_cancel] at m3
  have e3' : unit F * (13 * M) = 13 * z := by rw [hz]; ring
  rw [e3'] at e3
  have q3 : |value (mul F slope ix)| ≤ 14 * M := by linarith
  generalize mul F slope ix = p3 at *
  have b5 : |value p3 + value p2| ≤ 24 * M := (abs_add_le _ _).trans (by linarith)
  obtain ⟨f4, e4⟩ := fl_add hF hX f3 f2 b5 (by linarith)
  have m4 := abs_add_le (value p3 + value p2) (value (add F p3 p2) - (value p3 + value p2))
  rw [add_sub_cancel] at m4
  have e4' : unit F * (24 * M) = 24 * z := by rw [hz]; ring
  rw [e4'] at e4
  have q4 : |value (add F p3 p2)| ≤ 25 * M := by linarith
  generalize add F p3 p2 = p4 at *
  have b6 : |value xi - value p4| ≤ 26 * M := (abs_sub _ _).trans (by linarith)
  obtain ⟨f5, e5⟩ := fl_sub hF hX fx f4 b6 (by linarith)
  have e5' : unit F * (26 * M) = 26 * z := by rw [hz]; ring
  rw [e5'] at e5
  refine ⟨f5, ?_⟩
  generalize value (sub F xi p4) = r at *
  rw [abs_le] at e1 e2 e3 e4 e5 hk b3 ⊢
  constructor <;> linarith

theorem deviations_le (c b : ℚ) : ∀ xs : List ℚ, (∀ x ∈ xs, (x - c) ^ 2 ≤ b) → deviations c xs ≤ xs.length * b
  | [], _ => by simp [deviations, sumSquares]
  | x :: xs, h => by
    have ih := deviations_le c b xs fun y hy => h y (List.mem_cons_of_mem _ hy)
    have h1 := h x List.mem_cons_self
    have e : deviations c (x :: xs) = (x - c) ^ 2 + deviations c xs := by simp [deviations, sumSquares]
    rw [e, List.length_cons]
    push_cast
    linarith

theorem absSum_le {M : ℚ} : ∀ l : List Fp, (∀ x ∈ l, |value x| ≤ M) → (l.map fun x => |value x|).sum ≤ l.length * M
  | [], _ => by simp
  | x :: l, h => by
    have ih := absSum_le l fun y hy => h y (List.mem_cons_of_mem _ hy)
    have h1 := h x List.mem_cons_self
    rw [List.map_cons, List.sum_cons, List.length_cons]
    push_cast
    linarith

theorem emax_scale (F : Fmt) {M : ℚ} (h : M ≤ 2 ^ (F.emax - 50)) :
    2 ^ 49 * M ≤ 2 ^ (F.emax - 1) ∧ 2 ^ 45 * M ≤ 2 ^ (F.emax - 5) ∧ 2 ^ 50 * M ≤ 2 ^ F.emax := by
  have e : ∀ k : Nat, (2 : ℚ) ^ k * 2 ^ (F.emax - 50) = 2 ^ (F.emax - 50 + k) := by
    intro k
    rw [zpow_add₀ (by norm_num), zpow_natCast, mul_comm]
  have h1 := e 49
  have h2 := e 45
  have h3 := e 50
  rw [show F.emax - 50 + ((49 : Nat) : Int) = F.emax - 1 by push_cast; ring] at h1
  rw [show F.emax - 50 + ((45 : Nat) : Int) = F.emax - 5 by push_cast; ring] at h2
  rw [show F.emax - 50 + ((50 : Nat) : Int) = F.emax by push_cast; ring] at h3
  rw [← h1, ← h2, ← h3]
  exact ⟨mul_le_mul_of_nonneg_left h (by norm_num), mul_le_mul_of_nonneg_left h (by norm_num), mul_le_mul_of_nonneg_left h (by norm_num)⟩

/-- **C182.**  If `as` has from 2 to 1290 finite elements of magnitude at most `M`, each element of the result of `detrend` is
finite and differs from the exact residual, the element less the value of the exact least-squares line at its index, by at most
`50n + 210` unit roundoffs of `M`.  `M` may be any number from `2^-954` to `2^974`. -/
theorem C182_detrend (as : Inp Fp) (hv : as.valid) (hf : ∀ x ∈ as.vals, Finite double x) {n : Nat} (hn : n = as.vals.length) (h2 : 2 ≤ n)
    (hmax : n ≤ 1290) {M : ℚ} (hM : ∀ x ∈ as.vals, |value x| ≤ M) (hlo : 2 ^ (double.emin + 120) ≤ M) (hhi : M ≤ 2 ^ (double.emax - 50))
    (w : ω) {mi avg B : ℚ} (hmi : mi = average (indices n)) (havg : avg = average (as.vals.map value))
    (hB : B = codeviations mi avg (indices n) (as.vals.map value) / deviations mi (indices n)) :
    ∃ rs, detrend as w = .ok rs w ∧ rs.vals.length = n ∧ ∀ (i : Nat) (x r : Fp), as.vals[i]? = some x → rs.vals[i]? = some r →
      Finite double r ∧ |value r - (value x - (avg + B * (i - mi)))| ≤ (50 * n + 210) * (unit double * M) := by
  obtain ⟨s1, s2, s3⟩ := emax_scale double hhi
  have htM : tiny double * 2 ^ 60 ≤ unit double * M := by
    have h1 : tiny double * 2 ^ 60 ≤ unit double * 2 ^ (double.emin + 120) := by decide +kernel
    exact h1.trans (mul_le_mul_of_nonneg_left hlo (unit_pos double).le)
  have hM0 : 0 < M := lt_of_lt_of_le (zpow_pos2 _) hlo
  clear hlo hhi
  have hty := tiny_pos double
  have hu0 := unit_pos double
  have hu : unit double ≤ 1 / 10 ^ 12 := by decide +kernel
  have hnn : (2 : ℚ) ≤ n := by exact_mod_cast h2
  have hnm : (n : ℚ) ≤ 1290 := by exact_mod_cast hmax
  obtain ⟨z, hz⟩ : ∃ z, z = unit double * M := ⟨_, rfl⟩
  have hz0 : 0 < z := by rw [hz]; exact mul_pos hu0 hM0
  have hzM : z ≤ 1 / 10 ^ 12 * M := by rw [hz]; exact mul_le_mul_of_nonneg_right hu hM0.le
  rw [← hz] at htM
  -- the mean
  obtain ⟨k, hmean, fk, hke⟩ : ∃ k, mean double as w = .ok k w ∧ Finite double k ∧ |value k - avg| ≤ (2 * n + 1) * z := by
    have hsum := absSum_le as.vals hM
    rw [← hn] at hsum
    have hpow : ∀ j : Nat, j ≤ n → (1 + unit double) ^ j ≤ 1 + 2 * (j * unit double) := fun j hj =>
      pow_upper double_ok (by
        have : (j : ℚ) ≤ 1290 := by exact_mod_cast hj.trans hmax
        nlinarith)
    have hpow2 : (1 + unit double) ^ (n - 1) ≤ 2 := by
      refine (hpow (n - 1) (by omega)).trans ?_
      have : ((n - 1 : Nat) : ℚ) ≤ 1290 := by exact_mod_cast (by omega : n - 1 ≤ 1290)
      nlinarith
    have h0 : 0 ≤ (as.vals.map fun x => |value x|).sum := List.sum_nonneg (by
      intro y hy
      obtain ⟨x, -, rfl⟩ := List.mem_map.1 hy
      exact abs_nonneg _)
    have hroom : (1 + unit double) ^ (n - 1) * (as.vals.map fun x => |value x|).sum < 2 ^ double.emax := by
      refine lt_of_lt_of_le ?_ s3
      have h1 := mul_le_mul hpow2 hsum h0 (by norm_num)
      have h3 := mul_le_mul_of_nonneg_right hnm hM0.le
      refine lt_of_le_of_lt h1 ?_
      norm_num
      linarith
    have := meanL_error double_ok as.vals (by rw [← List.length_pos_iff, ← hn]; omega) (by rw [← hn]; omega)
      (by rw [← hn]; change n < 2 ^ 53; omega) hf (by rw [← hn]; exact hroom)
    refine ⟨_, mean_run as w, this.1, ?_⟩
    have h4 := this.2
    rw [← hn] at h4
    have e : avg = (as.vals.map value).sum / n := by rw [havg, average, List.length_map, ← hn]
    rw [← e] at h4
    refine h4.trans ?_
    have h5 : SciFloat.absSum as.vals / n ≤ M := by
      rw [div_le_iff₀ (by linarith)]
      have : SciFloat.absSum as.vals ≤ n * M := hsum
      linarith
    have h6 : (1 + unit double) ^ n - 1 ≤ 2 * (n * unit double) := by linarith [hpow n le_rfl]
    have h7 : 0 ≤ (1 + unit double) ^ n - 1 := by
      have := one_le_pow₀ (n := n) (show (1 : ℚ) ≤ 1 + unit double by linarith)
      linarith
    have h8 := mul_le_mul h6 h5 (div_nonneg h0 (by linarith)) (h7.trans h6)
    have h9 : 2 * ((n : ℚ) * unit double) * M = 2 * n * z := by rw [hz]; ring
    rw [h9] at h8
    linarith
  have havM : |avg| ≤ M := by
    have e : avg = (as.vals.map value).sum / n := by rw [havg, average, List.length_map, ← hn]
    rw [e, abs_div, abs_of_pos (by linarith : (0 : ℚ) < n), div_le_iff₀ (by linarith)]
    have h1 := absSum_le as.vals hM
    have h3 : ∀ l : List Fp, |(l.map value).sum| ≤ (l.map fun x => |value x|).sum := by
      intro l
      induction l with
      | nil => simp
      | cons a l ih =>
        simp only [List.map_cons, List.sum_cons]
        exact (abs_add_le _ _).trans (by linarith)
    have h4 := h3 as.vals
    rw [← hn] at h1
    linarith
  have hnz : (n : ℚ) * z ≤ 1290 * z := mul_le_mul_of_nonneg_right hnm hz0.le
  have hk2 : |value k| ≤ 2 * M := by
    have h1 := abs_add_le avg (value k - avg)
    rw [add_sub_cancel] at h1
    linarith
  have hxk : ∀ x ∈ as.vals, |value x - value k| ≤ 3 * M := fun x hx =>
    (abs_sub _ _).trans (by linarith [hM x hx])
  -- the slope
  obtain ⟨P, hP⟩ : ∃ P, P = deviations mi (indices n) := ⟨_, rfl⟩
  obtain ⟨A, hA⟩ : ∃ A, A = absCodeviations mi (value k) (indices n) (as.vals.map value) := ⟨_, rfl⟩
  have hmiv : mi = (n - 1) / 2 := by rw [hmi]; exact indices_average (by omega)
  have hPs : P = spread n := by rw [hP, hmiv]; exact indices_deviations n
  have hPn : (n : ℚ) ^ 3 ≤ 16 * P := by
    rw [hPs, spread]
    nlinarith [mul_le_mul hnn hnn (by norm_num) (by linarith)]
  have hPu : 12 * P ≤ (n : ℚ) ^ 3 := by
    rw [hPs, spread]
    nlinarith
  have hn3 : 0 < (n : ℚ) ^ 3 := by positivity
  have hP0 : 0 < P := by linarith
  have hA0 : 0 ≤ A := by rw [hA]; exact absCodeviations_nonneg _ _ _ _
  have hAP : A * n ≤ 12 * M * P := by
    have h1 := codeviations_cauchy mi (value k) (indices n) (as.vals.map value)
    rw [← hA, ← hP] at h1
    have h3 : deviations (value k) (as.vals.map value) ≤ n * (9 * M ^ 2) := by
      have := deviations_le (value k) (9 * M ^ 2) (as.vals.map value) (by
        intro y hy
        obtain ⟨x, hx, rfl⟩ := List.mem_map.1 hy
        have h4 := hxk x hx
        rw [← sq_abs]
        nlinarith [abs_nonneg (value x - value k)])
      rwa [List.length_map, ← hn] at this
    have h5 : A ^ 2 ≤ P * (n * (9 * M ^ 2)) := h1.trans (mul_le_mul_of_nonneg_left h3 hP0.le)
    have h6 : (A * n) ^ 2 ≤ (12 * M * P) ^ 2 := by
      have h7 : (A * n) ^ 2 ≤ P * (n * (9 * M ^ 2)) * n ^ 2 := by
        rw [mul_pow]
        exact mul_le_mul_of_nonneg_right h5 (sq_nonneg _)
      have h8 : P * (n * (9 * M ^ 2)) * n ^ 2 = 9 * M ^ 2 * P * n ^ 3 := by ring
      have h9 : 9 * M ^ 2 * P * n ^ 3 ≤ 9 * M ^ 2 * P * (16 * P) := mul_le_mul_of_nonneg_left hPn (by positivity)
      rw [h8] at h7
      refine h7.trans (h9.trans (le_of_eq (by ring)))
    exact (le_abs_self _).trans (abs_le_of_sq_le_sq h6 (by positivity))
  have hAn : A ≤ 1290 ^ 2 * M := by
    have h1 : A * n ≤ n ^ 2 * M * n := by
      have := mul_le_mul_of_nonneg_left hPu hM0.le
      nlinarith
    have h3 : A ≤ n ^ 2 * M := le_of_mul_le_mul_right h1 (by linarith)
    refine h3.trans (mul_le_mul_of_nonneg_right ?_ hM0.le)
    exact pow_le_pow_left₀ (by linarith) hnm 2
  obtain ⟨slope, start, middle, hrun, fs, fm, hmv, hstart, hse⟩ := C181_slope as hv hf hn h2 hmax w hmean fk
    (fun x hx => lt_of_lt_of_le (lt_of_le_of_lt (hxk x hx) (by norm_num; linarith)) s1) (A := A) (P := P) (by rw [hA, hmi])
    (lt_of_lt_of_le (lt_of_le_of_lt hAn (by norm_num; linarith)) s2) (by rw [hP, hmi])
  rw [← hmi] at hmv
  rw [← hmi, ← havg, hP, ← hB, ← hP] at hse
  have hAP' : A / P * n ≤ 12 * M := by
    rw [div_mul_eq_mul_div, div_le_iff₀ hP0]
    exact hAP
  have hAPnn : 0 ≤ A / P := div_nonneg hA0 hP0.le
  have hsB : |value slope - B| * n ≤ (96 * n + 253) * z := by
    have h1 := mul_le_mul_of_nonneg_right hse (show (0 : ℚ) ≤ n by linarith)
    refine h1.trans ?_
    have h3 : ((8 * n + 21) * unit double * (A / P) + (10 * n + 1) * tiny double) * n =
        (8 * n + 21) * (unit double * (A / P * n)) + (10 * n + 1) * n * tiny double := by ring
    rw [h3]
    have h4 : unit double * (A / P * n) ≤ 12 * z := by
      rw [hz]
      have := mul_le_mul_of_nonneg_left hAP' hu0.le
      linarith
    have h5 := mul_le_mul_of_nonneg_left h4 (show (0 : ℚ) ≤ 8 * n + 21 by linarith)
    have h6 : (10 * n + 1) * n * tiny double ≤ z := by
      refine le_trans ?_ htM
      rw [mul_comm (tiny double)]
      refine mul_le_mul_of_nonneg_right ?_ hty.le
      have : (10 * (n : ℚ) + 1) * n ≤ (10 * 1290 + 1) * 1290 := mul_le_mul (by linarith) hnm (by linarith) (by norm_num)
      refine this.trans ?_
      norm_num
    linarith
  have hBn : |B| * n ≤ 12 * M := by
    refine le_trans (mul_le_mul_of_nonneg_right ?_ (by linarith)) hAP'
    -- the exact slope with the computed mean
    have hT : codeviations mi (value k) (indices n) (as.vals.map value) = codeviations mi avg (indices n) (as.vals.map value) := by
      rw [codeviations_average mi (value k) (indices n) (as.vals.map value) (by simp [indices, hn]), ← hmi, ← havg]
      ring
    rw [hB, ← hT, ← hP, abs_div, abs_of_pos hP0, hA]
    exact div_le_div_of_nonneg_right (codeviations_abs _ _ _ _) hP0.le
  have hs : |value slope| * n ≤ 13 * M := by
    have h1 := abs_add_le B (value slope - B)
    rw [add_sub_cancel] at h1
    have h3 := mul_le_mul_of_nonneg_right h1 (show (0 : ℚ) ≤ n by linarith)
    linarith
  refine ⟨_, by rw [detrend, Cpp.bind_ok hrun, (mapIx_run _ hv w).1], by simp [Scientific.outInp, hn], fun i x r hx hr => ?_⟩
  simp only [Scientific.outInp, List.getElem?_mapIdx, hx, Option.map_some, Option.some.injEq] at hr
  have hin : i < n := by rw [hn]; exact (List.getElem?_eq_some_iff.1 hx).1
  have hxm : x ∈ as.vals := List.mem_of_getElem? hx
  have hix : Exactly (ofInt double (i : Int)) ((i : Int) : ℚ) := SciFloat.exactly_ofInt (by rw [abs_lt]; constructor <;> omega)
  have hix2 : value (ofInt double (i : Int)) = i := by rw [hix.2]; push_cast; rfl
  have hi0 : (0 : ℚ) ≤ i := Nat.cast_nonneg i
  have hin' : (i : ℚ) ≤ n - 1 := by
    have : i + 1 ≤ n := hin
    have : ((i + 1 : Nat) : ℚ) ≤ n := by exact_mod_cast this
    push_cast at this
    linarith
  have hR := residual_close double_ok rfl (hf x hxm) fk fs fm hix.1 (n := n) (M := M) (avg := avg) (B := B) hM0
    (le_trans (mul_le_mul_of_nonneg_right (by norm_num) hM0.le) s1) (hu.trans (by norm_num))
    (by rw [← hz]; linarith) (hM x hxm) hk2 (by rw [← hz]; exact hke) hs (by rw [← hz]; exact hsB)
    (by rw [hix2]; exact hi0) (by rw [hix2]; linarith) (by rw [hmv, hmiv]; linarith) (by rw [hmv, hmiv]; linarith)
    (by rw [hix2, hmv, hmiv, abs_le]; constructor <;> linarith)
  rw [hix2, hmv, ← hstart] at hR
  rw [← hr]
  exact hR

example : (2 : ℚ) ^ (double.emin + 120) ≤ 6 ∧ (6 : ℚ) ≤ 2 ^ (double.emax - 50) ∧ average (indices 3) = 1 ∧ average [1, 2, 6] = 3 ∧
    codeviations 1 3 (indices 3) [1, 2, 6] / deviations 1 (indices 3) = 5 / 2 ∧
    (match detrend (ω := Unit) (fps [.fin false 1, .fin false 2, .fin false 6]) () with
      | .ok rs _ => rs.vals
      | _ => []) = [.fin false (1 / 2), .fin true 1, .fin false (1 / 2)] := by
  refine ⟨?_, ?_, ?_, ?_, ?_, ?_⟩ <;> decide +kernel

end Efp.Props
